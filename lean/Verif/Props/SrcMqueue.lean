import Verif.Lemmas.SrcMqueue
import Verif.Props.SrcQueue
import Verif.Props.SrcTask

/-! # Property C127: the parsed source of mu_mqueue.c

`prog` is the table of syntax trees that `tools/csrc.py` read off `/repo/mulib/*.c`, `sem` the semantics of
`Verif/C/Src.lean`, and the specification is in `Verif/Spec/SrcQueue.lean` and `Verif/Spec/SrcMqueue.lean`.
What `mu_task_call` does is C126. -/

namespace Mu.CS

variable {h : Heap} {b sb : Base} {o so : Int} {cap ix : Nat} {pt gt : CVal} {l : List CVal}

/-- **C127, `mu_mqueue_init`**: an empty queue of whatever is in the struct and the slots. -/
theorem C127_init (A : Arch) (X : Ext) (n : Nat) (hb : b.isLit = false) (hsb : sb.isLit = false)
    (hstruct : ∀ k : Nat, k < 6 → (h.at b (o + k)).isSome = true)
    (hstore : ∀ i : Nat, i < cap → (h.at sb (so + i)).isSome = true)
    (hsep : ∀ i : Nat, i < cap → ∀ k : Nat, k < 6 → ¬(b = sb ∧ o + k = so + i)) (hp : TaskPtr pt) (hg : TaskPtr gt) :
    ∃ h', sem A X prog (n + 2) .mu_mqueue_init h [.ptr b o, .ptr sb so, .int cap, pt, gt] = .ok (.ptr b o, h') ∧
      h'.MQ b o sb so cap pt gt 0 [] ∧ Heap.Only (span b o 6) h h' :=
  src_mq_init n hb hsb hstruct hstore hsep hp hg

/-- **C127, one call, whatever the tasks do** (they may use the queue again, fail, or never return): up to the
memory `h1` the call does what the first-in first-out list does, to the queue and to the variable of the caller,
and changes nothing else; then it calls the task of the queue, if the call was a successful put or get and there
is one; and it does nothing after that but return what the list says. -/
theorem C127_call (A : Arch) (X : Ext) (n : Nat) (q : h.MQ b o sb so cap pt gt ix l) (hs : 2 * cap ≤ A.szMod)
    (hp : TaskPtr pt) (hg : TaskPtr gt) (c : QCall) (hl : c.Legal (mqueueCells b o sb so cap) h) :
    ∃ h1 ix' m, (m = n + 1 ∨ m = n + 2) ∧ h1.MQ b o sb so cap pt gt ix' (QCall.spec b o cap l c).2 ∧
      Heap.Only (fun b' o' => mqueueCells b o sb so cap b' o' ∨ c.writes b' o') h h1 ∧
      (∀ eb eo, c.writes eb eo → h1.at eb eo = (QCall.spec b o cap l c).1.elem) ∧
      QCall.mrun (sem A X prog (n + 3)) b o h c = (do
        let h2 ← wake (sem A X prog m) (QCall.wakes cap l pt gt c) h1
        .ok (⟨(QCall.spec b o cap l c).1.ret, match c with
          | .get eb eo => h2.at eb eo
          | .peek eb eo => h2.at eb eo
          | _ => none⟩, h2)) :=
  src_mq_call n q hs hp hg c hl

/-- **C127, histories.**  Let the tasks of the queue return and leave the queue and the variables given to get and
peek alone (otherwise they may do anything, and behave differently each time: `S tr` is what is known of memory
when the tasks `tr` have been called).  Then every history of calls returns and delivers what the first-in
first-out list bounded by `cap` does; the tasks called are, in order, the one for puts for every successful put
and the one for gets for every successful get, and no other; the elements in the queue are those of the list. -/
theorem C127_history (A : Arch) (X : Ext) (n : Nat) (hs : 2 * cap ≤ A.szMod) (hp : TaskPtr pt) (hg : TaskPtr gt)
    (vars : Base → Int → Prop) (S : List CVal → Heap → Prop)
    (hw : ∀ m t, (m = n + 1 ∨ m = n + 2) → (t = pt ∨ t = gt) → t ≠ .null → Wakes (sem A X prog m .mu_task_call) t
      (fun b' o' => mqueueCells b o sb so cap b' o' ∨ vars b' o')
      (fun b' o' => mqueueCells b o sb so cap b' o' ∨ vars b' o') S)
    (hst : ∀ tr h h', S tr h → Heap.Only (fun b' o' => mqueueCells b o sb so cap b' o' ∨ vars b' o') h h' → S tr h')
    (cs : List QCall) : ∀ {h : Heap} {ix : Nat} {l tr : List CVal}, h.MQ b o sb so cap pt gt ix l → S tr h →
    (∀ c ∈ cs, c.Legal (mqueueCells b o sb so cap) h ∧ ∀ b' o', c.writes b' o' → vars b' o') →
    ∃ h' ix', QCall.mrunAll (sem A X prog (n + 3)) b o h cs = .ok ((QCall.specAll b o cap l cs).1, h') ∧
      h'.MQ b o sb so cap pt gt ix' (QCall.specAll b o cap l cs).2 ∧
      S (tr ++ QCall.wakesAll b o cap pt gt l cs) h' := by
  induction cs with
  | nil =>
    intro h ix l tr q hS _
    exact ⟨h, ix, rfl, q, by simpa [QCall.wakesAll] using hS⟩
  | cons c cs ih =>
    intro h ix l tr q hS hl
    obtain ⟨hlc, hvc⟩ := hl c (by simp)
    obtain ⟨h1, ix1, m, hm, q1, only1, hel, e1⟩ := src_mq_call (X := X) n q hs hp hg c hlc
    have only1' : Heap.Only (fun b' o' => mqueueCells b o sb so cap b' o' ∨ vars b' o') h h1 :=
      only1.mono (fun _ _ hx => hx.elim Or.inl (fun hx => Or.inr (hvc _ _ hx)))
    have hS1 := hst _ _ _ hS only1'
    have step : ∃ h2, wake (sem A X prog m) (QCall.wakes cap l pt gt c) h1 = .ok h2 ∧
        S (tr ++ (if QCall.wakes cap l pt gt c = .null then [] else [QCall.wakes cap l pt gt c])) h2 ∧
        Heap.Only (fun b' o' => ¬(mqueueCells b o sb so cap b' o' ∨ vars b' o')) h1 h2 := by
      by_cases hn : QCall.wakes cap l pt gt c = .null
      · rw [hn]
        exact ⟨h1, rfl, by simpa using hS1, Heap.Only.refl _ _⟩
      · have ht : QCall.wakes cap l pt gt c = pt ∨ QCall.wakes cap l pt gt c = gt := by
          cases c <;> simp only [QCall.wakes] at hn ⊢ <;> (try split at hn) <;> simp_all
        obtain ⟨r, h2, e2, hS2, o2⟩ := (hw m _ hm ht hn).answer tr h1 hS1
        refine ⟨h2, ?_, by rw [if_neg hn]; exact hS2, o2⟩
        have : TaskPtr (QCall.wakes cap l pt gt c) := by rcases ht with ht | ht <;> rw [ht] <;> assumption
        generalize QCall.wakes cap l pt gt c = t at e2 this hn
        cases t with
        | null => exact (hn rfl).elim
        | ptr _ _ => simp [wake, e2]
        | _ => exact this.elim
    obtain ⟨h2, e2, hS2, only2⟩ := step
    have q2 := q1.only only2 (fun b' o' hx hc => hx (Or.inl hc))
    have hv2 : ∀ eb eo, c.writes eb eo → h2.at eb eo = (QCall.spec b o cap l c).1.elem := fun eb eo hx =>
      (only2.cell eb eo (fun hc => hc (Or.inr (hvc _ _ hx)))).trans (hel eb eo hx)
    have e3 : QCall.mrun (sem A X prog (n + 3)) b o h c = .ok ((QCall.spec b o cap l c).1, h2) := by
      rw [e1, e2]
      cases c with
      | get eb eo =>
        simp only [bind, Except.bind, hv2 eb eo ⟨rfl, rfl⟩]
      | peek eb eo =>
        simp only [bind, Except.bind, hv2 eb eo ⟨rfl, rfl⟩]
      | put v =>
        simp only [bind, Except.bind, QCall.spec]
        split <;> rfl
      | _ => rfl
    obtain ⟨h3, ix3, e4, q3, hS3⟩ := ih q2 hS2 (fun c' hc' => by
      have := hl c' (List.mem_cons_of_mem _ hc')
      refine ⟨?_, this.2⟩
      have l0 := this.1
      cases c' with
      | get eb eo => exact ⟨l0.1, (only2.isSome _ _).mpr ((only1.isSome _ _).mpr l0.2.1), l0.2.2⟩
      | peek eb eo => exact ⟨l0.1, (only2.isSome _ _).mpr ((only1.isSome _ _).mpr l0.2.1), l0.2.2⟩
      | put v => exact l0
      | _ => trivial)
    refine ⟨h3, ix3, ?_, q3, ?_⟩
    · simp [QCall.mrunAll, e3, e4, QCall.specAll]
    · simpa [QCall.wakesAll, List.append_assoc] using hS3

/-- **C127, without tasks**: a history from `mu_mqueue_init` on. -/
theorem C127_queue_without_tasks (A : Arch) (X : Ext) (n : Nat) (hb : b.isLit = false) (hsb : sb.isLit = false)
    (hstruct : ∀ k : Nat, k < 6 → (h.at b (o + k)).isSome = true)
    (hstore : ∀ i : Nat, i < cap → (h.at sb (so + i)).isSome = true)
    (hsep : ∀ i : Nat, i < cap → ∀ k : Nat, k < 6 → ¬(b = sb ∧ o + k = so + i))
    (hs : 2 * cap ≤ A.szMod) (cs : List QCall) (hl : ∀ c ∈ cs, c.Legal (mqueueCells b o sb so cap) h) :
    ∃ h1 h2, sem A X prog (n + 3) .mu_mqueue_init h [.ptr b o, .ptr sb so, .int cap, .null, .null] =
        .ok (.ptr b o, h1) ∧
      QCall.mrunAll (sem A X prog (n + 3)) b o h1 cs = .ok ((QCall.specAll b o cap [] cs).1, h2) ∧
      Heap.Only (fun b' o' => mqueueCells b o sb so cap b' o' ∨ ∃ c ∈ cs, c.writes b' o') h h2 := by
  obtain ⟨h1, e1, q1, o1⟩ := src_mq_init (A := A) (X := X) (n + 1) (pt := .null) (gt := .null) hb hsb hstruct hstore hsep
    trivial trivial
  obtain ⟨h2, ix, e2, -, hS⟩ := C127_history A X n (b := b) (o := o) (sb := sb) (so := so) hs (pt := .null) (gt := .null)
    trivial trivial (fun b' o' => ∃ c ∈ cs, c.writes b' o')
    (fun _ h' => Heap.Only (fun b' o' => mqueueCells b o sb so cap b' o' ∨ ∃ c ∈ cs, c.writes b' o') h h')
    (fun m t _ ht hn => by rcases ht with rfl | rfl <;> exact (hn rfl).elim)
    (fun _ _ _ ha hb => ha.trans hb) cs (tr := []) q1 (o1.mono (fun _ _ hx => Or.inl (Or.inl hx)))
    (fun c hc => by
      refine ⟨?_, fun b' o' hx => ⟨c, hc, hx⟩⟩
      have l0 := hl c hc
      cases c with
      | get eb eo => exact ⟨l0.1, (o1.isSome _ _).mpr l0.2.1, l0.2.2⟩
      | peek eb eo => exact ⟨l0.1, (o1.isSome _ _).mpr l0.2.1, l0.2.2⟩
      | put v => exact l0
      | _ => trivial)
  exact ⟨h1, h2, e1, e2, hS⟩

/-- Non-vacuity: a message queue in object 0 with two slots in object 1, a variable in object 2, a task for puts in
object 3 and one for gets in object 4, which count in object 5. -/
def mqDemo : Heap where
  mem
    | .obj 0 => List.replicate 6 .undef
    | .obj 1 => List.replicate 2 .undef
    | .obj 2 => [.int 77]
    | .obj 3 => [.fn 1, .int 0, .null]
    | .obj 4 => [.fn 2, .int 0, .null]
    | .obj 5 => [.int 0, .int 0]
    | .glob .s_call_hook => Src.init_s_call_hook
    | _ => []
  next := 6

/-- Function `k` adds one to cell `k - 1` of object 5. -/
def mqDemoFns (X : Ext) : Ext :=
  { X with
    cb := fun _ f h _ =>
      match h.at (.obj 5) (f - 1) with
      | some (.int i) => .ok (.undef, h.upd (.obj 5) (f - 1) (.int (i + 1)))
      | _ => .error .ptr }

/-- What the tasks of the example rely on. -/
structure MqDemoInv (tr : List CVal) (h : Heap) : Prop where
  hook : h.at (.glob .s_call_hook) 0 = some .null
  f1 : h.at (.obj 3) 0 = some (.fn 1)
  f2 : h.at (.obj 4) 0 = some (.fn 2)
  n1 : h.at (.obj 5) 0 = some (.int (tr.count (.ptr (.obj 3) 0)))
  n2 : h.at (.obj 5) 1 = some (.int (tr.count (.ptr (.obj 4) 0)))

theorem mqDemo_wakes (A : Arch) (X : Ext) (n : Nat) (t : CVal) (ht : t = .ptr (.obj 3) 0 ∨ t = .ptr (.obj 4) 0)
    (own : Base → Int → Prop) (ho : ∀ b o, own b o → b = .obj 0 ∨ b = .obj 1 ∨ b = .obj 2) :
    Wakes (sem A (mqDemoFns X) prog (n + 1) .mu_task_call) t own own MqDemoInv := by
  constructor
  · intro tr h i
    rcases ht with rfl | rfl
    · refine ⟨.undef, h.upd (.obj 5) 0 (.int (tr.count (.ptr (.obj 3) 0) + 1)), ?_, ?_, ?_⟩
      · rw [(C126_call A (mqDemoFns X) n (k := .null) trivial i.hook).1 h 1 rfl i.f1]
        simp [mqDemoFns, i.n1]
      · refine ⟨?_, ?_, ?_, ?_, ?_⟩
        · simp [csrc, i.hook]
        · simp [csrc, i.f1]
        · simp [csrc, i.f2]
        · rw [Heap.at_upd_same rfl (by rw [i.n1]; rfl)]; simp
        · simp [csrc, i.n2]
      · refine (Heap.Only.refl _ _).upd ?_
        intro hx
        have := ho _ _ hx
        simp at this
    · refine ⟨.undef, h.upd (.obj 5) 1 (.int (tr.count (.ptr (.obj 4) 0) + 1)), ?_, ?_, ?_⟩
      · rw [(C126_call A (mqDemoFns X) n (k := .null) trivial i.hook).1 h 2 rfl i.f2]
        simp [mqDemoFns, i.n2]
      · refine ⟨?_, ?_, ?_, ?_, ?_⟩
        · simp [csrc, i.hook]
        · simp [csrc, i.f1]
        · simp [csrc, i.f2]
        · simp [csrc, i.n1]
        · rw [Heap.at_upd_same rfl (by rw [i.n2]; rfl)]; simp
      · refine (Heap.Only.refl _ _).upd ?_
        intro hx
        have := ho _ _ hx
        simp at this
  · intro tr h h' i e
    have k : ∀ b o, b ≠ .obj 0 → b ≠ .obj 1 → b ≠ .obj 2 → h'.at b o = h.at b o := fun b o h0 h1 h2 =>
      e.cell b o (fun hx => by have := ho _ _ hx; simp_all)
    exact ⟨(k _ _ (by simp) (by simp) (by simp)).trans i.hook, (k _ _ (by simp) (by simp) (by simp)).trans i.f1,
      (k _ _ (by simp) (by simp) (by simp)).trans i.f2, (k _ _ (by simp) (by simp) (by simp)).trans i.n1,
      (k _ _ (by simp) (by simp) (by simp)).trans i.n2⟩

/-- The history of `qDemoCalls`: two puts of four fail, three gets succeed after them; after it the tasks have
counted three puts and three gets. -/
example (X : Ext) : ∃ h1 h2,
    sem .lp64 (mqDemoFns X) prog 3 .mu_mqueue_init mqDemo
      [.ptr (.obj 0) 0, .ptr (.obj 1) 0, .int (2 : Nat), .ptr (.obj 3) 0, .ptr (.obj 4) 0] = .ok (.ptr (.obj 0) 0, h1) ∧
    QCall.mrunAll (sem .lp64 (mqDemoFns X) prog 3) (.obj 0) 0 h1 qDemoCalls =
      .ok ((QCall.specAll (.obj 0) 0 2 [] qDemoCalls).1, h2) ∧
    h2.at (.obj 5) 0 = some (.int 3) ∧ h2.at (.obj 5) 1 = some (.int 3) := by
  obtain ⟨h1, e1, q1, o1⟩ := C127_init (h := mqDemo) (b := .obj 0) (o := 0) (sb := .obj 1) (so := 0) (cap := 2)
    (pt := .ptr (.obj 3) 0) (gt := .ptr (.obj 4) 0) .lp64 (mqDemoFns X) 1 rfl rfl (by decide) (by decide)
    (by intro i _ k _ e; cases e.1) trivial trivial
  have hx : ∀ b o, (mqueueCells (.obj 0) 0 (.obj 1) 0 2 b o ∨ (b = .obj 2 ∧ o = 0)) →
      b = .obj 0 ∨ b = .obj 1 ∨ b = .obj 2 := by
    rintro b o ((hx | hx) | hx)
    · exact Or.inl hx.1
    · exact Or.inr (Or.inl hx.1)
    · exact Or.inr (Or.inr hx.1)
  have k : ∀ b o, b ≠ .obj 0 → h1.at b o = mqDemo.at b o := fun b o hb => o1.cell b o (fun hx => hb hx.1)
  obtain ⟨h2, ix, e2, -, i⟩ := C127_history .lp64 (mqDemoFns X) 0 (b := .obj 0) (o := 0) (sb := .obj 1) (so := 0)
    (cap := 2) (pt := .ptr (.obj 3) 0) (gt := .ptr (.obj 4) 0) (by decide) trivial trivial (fun b o => b = .obj 2 ∧ o = 0)
    MqDemoInv (by
      rintro m t (rfl | rfl) ht _
      · exact mqDemo_wakes _ X 0 t ht _ hx
      · exact mqDemo_wakes _ X 1 t ht _ hx)
    (mqDemo_wakes .lp64 X 0 _ (Or.inl rfl) _ hx).stable qDemoCalls (tr := []) q1
    ⟨k _ _ (by simp), k _ _ (by simp), k _ _ (by simp), k _ _ (by simp), k _ _ (by simp)⟩ (by
      intro c hc
      have hs : (h1.at (.obj 2) 0).isSome = true := by rw [k _ _ (by simp)]; rfl
      simp only [qDemoCalls, List.mem_cons, List.not_mem_nil, or_false] at hc
      rcases hc with rfl | rfl | rfl | rfl | rfl | rfl | rfl | rfl | rfl | rfl | rfl | rfl <;>
        simp [QCall.Legal, mqueueCells, Base.isLit, hs, QCall.writes])
  exact ⟨h1, h2, e1, e2, i.n1, i.n2⟩

end Mu.CS
