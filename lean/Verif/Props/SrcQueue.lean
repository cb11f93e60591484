import Verif.Lemmas.SrcQueueHist

/-! # Property C117: the parsed source of mu_queue.c is a bounded first-in first-out queue

Here nothing of the hand-written model is in the statements: `prog` is the table of syntax trees
that `tools/csrc.py` read off `/repo/mulib/*.c`, `sem` the semantics of `Verif/C/Src.lean`, and the
specification is `Verif/Spec/SrcQueue.lean`.  `n + 3` is the fuel: three nested calls are enough. -/

namespace Mu.CS

/-- **C117.**  On every platform, whatever the external functions do: let a `mu_queue_t` and `cap`
slots of storage be given, anywhere in memory, not overlapping, with any content.  After
`mu_queue_init`, every history of calls returns and delivers what the first-in first-out list
bounded by `cap` does, runs without a fault, and changes no memory except the struct, the `cap`
slots and the variables given to get and peek.  (`2 * cap ≤ A.szMod`: see Props/Queue.lean.) -/
theorem C117_queue_source_is_bounded_fifo (A : Arch) (X : Ext) (n cap : Nat) (h : Heap)
    (b sb : Base) (o so : Int) (hb : b.isLit = false) (hsb : sb.isLit = false)
    (hstruct : ∀ k : Nat, k < 4 → (h.at b (o + k)).isSome = true)
    (hstore : ∀ i : Nat, i < cap → (h.at sb (so + i)).isSome = true)
    (hsep : ∀ i : Nat, i < cap → ∀ k : Nat, k < 4 → ¬(b = sb ∧ o + k = so + i))
    (hs : 2 * cap ≤ A.szMod) (cs : List QCall)
    (hl : ∀ c ∈ cs, c.Legal (queueCells b o sb so cap) h) :
    ∃ h1 h2, sem A X prog (n + 3) .mu_queue_init h [.ptr b o, .ptr sb so, .int cap] =
        .ok (.ptr b o, h1) ∧
      QCall.runAll (sem A X prog (n + 3)) b o h1 cs = .ok ((QCall.specAll b o cap [] cs).1, h2) ∧
      Heap.Only (fun b' o' => queueCells b o sb so cap b' o' ∨ ∃ c ∈ cs, c.writes b' o') h h2 := by
  have h16 := szMod_ge A.toPlat
  obtain ⟨h1, m, e1, q, r, hc, hlen, only1, -⟩ :=
    src_queue_init (X := X) (n + 1) cap hb hsb hstruct hstore hsep
      (show cap < A.szMod by omega)
  subst hc
  obtain ⟨h2, e2, only2⟩ := src_queue_calls (X := X) n cs q r hlen hs (by simp)
    (fun c hc => (hl c hc).only only1)
  refine ⟨h1, h2, e1, e2, (only1.mono ?_).trans only2⟩
  intro b' o' hx
  exact Or.inl (Or.inl hx)

/-- Non-vacuity: a struct in object 0, two slots in object 1, a variable in object 2; the history
fills the queue, fails to put, and empties it. -/
def qDemo : Heap where
  mem
    | .obj 0 => List.replicate 4 .undef
    | .obj 1 => List.replicate 2 .undef
    | .obj 2 => [.int 77]
    | _ => []
  next := 3

/-- The calls of the example. -/
def qDemoCalls : List QCall :=
  [.put (.int 5), .put (.int 6), .put (.int 7), .isFull, .get (.obj 2) 0, .put (.int 8),
   .peek (.obj 2) 0, .count, .get (.obj 2) 0, .get (.obj 2) 0, .get (.obj 2) 0, .isEmpty]

/-- A 64-bit platform. -/
def Arch.lp64 : Arch := { Plat.lp64 with charSigned := true, enumSigned := false }

example : (QCall.specAll (.obj 0) 0 2 [] qDemoCalls).1 =
    [⟨.int 1, none⟩, ⟨.int 1, none⟩, ⟨.int 0, none⟩, ⟨.int 1, none⟩, ⟨.int 1, some (.int 5)⟩,
     ⟨.int 1, none⟩, ⟨.int 1, some (.int 6)⟩, ⟨.int 2, none⟩, ⟨.int 1, some (.int 6)⟩,
     ⟨.int 1, some (.int 8)⟩, ⟨.int 0, some .null⟩, ⟨.int 1, none⟩] := by decide

example (X : Ext) : ∃ h1 h2,
    sem .lp64 X prog 3 .mu_queue_init qDemo [.ptr (.obj 0) 0, .ptr (.obj 1) 0, .int (2 : Nat)] =
      .ok (.ptr (.obj 0) 0, h1) ∧
    QCall.runAll (sem .lp64 X prog 3) (.obj 0) 0 h1 qDemoCalls =
      .ok ((QCall.specAll (.obj 0) 0 2 [] qDemoCalls).1, h2) := by
  obtain ⟨h1, h2, e1, e2, -⟩ := C117_queue_source_is_bounded_fifo .lp64 X 0 2 qDemo (.obj 0) (.obj 1)
    0 0 rfl rfl (by decide) (by decide) (by intro i _ k _ e; cases e.1)
    (by decide) qDemoCalls (by
      intro c hc
      simp only [qDemoCalls, List.mem_cons, List.not_mem_nil, or_false] at hc
      rcases hc with rfl | rfl | rfl | rfl | rfl | rfl | rfl | rfl | rfl | rfl | rfl | rfl <;>
        simp [QCall.Legal, queueCells, Base.isLit, Heap.at, Heap.cells, qDemo])
  exact ⟨h1, h2, e1, e2⟩

end Mu.CS
