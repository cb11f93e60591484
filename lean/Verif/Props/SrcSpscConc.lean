import Verif.Lemmas.SrcSpscConc
import Verif.Props.SrcSpsc
import Verif.Lemmas.SrcWithin

/-! # C132: the parsed source of mu_spsc.c with a producer and a consumer at the same time -/

namespace Mu.CS.Conc

variable {A : Arch} {X : Ext} {Y : AExt} {q : Place} {s s' : Sys} {o : Obj}

/-- **C132, the semantics**: executing a function access by access, with nothing in between and from left to right, is executing
it. -/
theorem C132_access_by_access (hY : Y.Runs X) (n : Nat) (f : Fn) (args : List CVal) (h : Heap) :
    (semA A Y prog n f args).run h = sem A X prog n f h args :=
  semA_run hY prog n f args h

/-- The atomic queue and what the threads know explain the state. -/
structure Inv (q : Place) (s : Sys) (σ : G) : Prop where
  rep : Rep q σ s.h
  pidle : s.p = none → σ.obj.p = .idle
  pcall : ∀ t, s.p = some t → ∃ K, (rgP q).Stable K ∧ K σ ∧ t.wp (rgP q) K fun r K => ∀ σ, K σ → σ.obj.p = .done ⟨r, none⟩
  cidle : s.c = none → σ.obj.c = .idle ∧ σ.var = none
  ccall : ∀ eb eo t, s.c = some (eb, eo, t) → σ.var = some (eb, eo) ∧
    ∃ K, (rgC q).Stable K ∧ K σ ∧ t.wp (rgC q) K fun r K => ∀ σ, K σ → σ.obj.c = .done ⟨r, some σ.w⟩

theorem Inv.fine (i : Inv q s σ) : s.Fine := by
  constructor
  · intro t ht
    obtain ⟨K, -, hk, hw⟩ := i.pcall t ht
    cases t with
    | done r => trivial
    | fail e => exact hw
    | mem f k =>
      obtain ⟨v, h', -, -, e, -⟩ := hw σ s.h hk i.rep
      exact ⟨v, h', e⟩
    | pick k => trivial
  · intro eb eo t ht
    obtain ⟨-, K, -, hk, hw⟩ := i.ccall eb eo t ht
    cases t with
    | done r => trivial
    | fail e => exact hw
    | mem f k =>
      obtain ⟨v, h', -, -, e, -⟩ := hw σ s.h hk i.rep
      exact ⟨v, h', e⟩
    | pick k => trivial

theorem Eff.steps {N : Nat} {t : Side} {o o' : Obj} (e : Eff N t o o') {o0 : Obj} {l : List Ev} (k : Obj.Steps N o0 l o) :
    Obj.Steps N o0 l o' := by
  rcases e with rfl | ⟨c, hc, rfl⟩
  · exact k
  · have := k.snoc (.effect t c hc)
    rwa [List.append_nil] at this

/-- Knowledge of the other thread. -/
theorem Inv.pcall' (i : Inv q s σ) {τ : G} (hr : relyP σ τ) : ∀ t, s.p = some t →
    ∃ K, (rgP q).Stable K ∧ K τ ∧ t.wp (rgP q) K fun r K => ∀ σ, K σ → σ.obj.p = .done ⟨r, none⟩ := by
  intro t ht
  obtain ⟨K, hs, hk, hw⟩ := i.pcall t ht
  exact ⟨K, hs, hs σ τ hr hk, hw⟩

theorem Inv.ccall' (i : Inv q s σ) {τ : G} (hr : relyC σ τ) : ∀ eb eo t, s.c = some (eb, eo, t) → τ.var = some (eb, eo) ∧
    ∃ K, (rgC q).Stable K ∧ K τ ∧ t.wp (rgC q) K fun r K => ∀ σ, K σ → σ.obj.c = .done ⟨r, some σ.w⟩ := by
  intro eb eo t ht
  obtain ⟨hv, K, hs, hk, hw⟩ := i.ccall eb eo t ht
  exact ⟨hr.2.2.2.1.trans hv, K, hs, hs σ τ hr hk, hw⟩

theorem Inv.step (g : q.Ok) {n : Nat} (i : Inv q s σ) {l : List Ev} (st : Step (semA A Y prog (n + 1)) q s l s') {o0 : Obj}
    {l0 : List Ev} (k : Obj.Steps q.N o0 l0 σ.obj) : ∃ τ, Inv q s' τ ∧ Obj.Steps q.N o0 (l0 ++ l) τ.obj := by
  cases st with
  | put v hp hv =>
    have r := i.rep
    refine ⟨{ σ with obj := { σ.obj with p := .pending (.put v) } }, ⟨?_, by simp, ?_, i.cidle, ?_⟩, ?_⟩
    · exact ⟨r.mask, r.head, r.tail, r.store, r.len, r.items, r.nx, r.slots, r.var⟩
    · intro t ht
      obtain rfl := Option.some.inj ht
      exact ⟨_, KPend.stable, rfl, put_wp g hv n⟩
    · exact i.ccall' ⟨rfl, List.prefix_refl _, rfl, rfl, rfl⟩
    · exact k.snoc (.call .producer (.put v) (i.pidle hp))
  | @pmem f c v h hp e =>
    obtain ⟨K, hs, hk, hw⟩ := i.pcall _ hp
    obtain ⟨v', h', τ, K', e1, e2, e3, e4, e5, e6⟩ := hw σ s.h hk i.rep
    obtain ⟨rfl, rfl⟩ := Prod.mk.inj (Except.ok.inj (e.symm.trans e1))
    have hr : relyC σ τ := e2.2
    refine ⟨τ, ⟨e3, by simp, ?_, ?_, ?_⟩, ?_⟩
    · intro t ht
      obtain rfl := Option.some.inj ht
      exact ⟨K', e4, e5, e6.2⟩
    · intro hc
      obtain ⟨h1, h2⟩ := i.cidle hc
      exact ⟨hr.2.2.1.trans h1, hr.2.2.2.1.trans h2⟩
    · exact i.ccall' hr
    · rw [List.append_nil]; exact Eff.steps e2.1 k
  | @ppick c b hp =>
    obtain ⟨K, hs, hk, hw⟩ := i.pcall _ hp
    refine ⟨σ, ⟨i.rep, by simp, ?_, i.cidle, i.ccall⟩, by rw [List.append_nil]; exact k⟩
    intro t ht
    obtain rfl := Option.some.inj ht
    exact ⟨K, hs, hk, hw b⟩
  | @pret r hp =>
    obtain ⟨K, hs, hk, hw⟩ := i.pcall _ hp
    have rp := i.rep
    refine ⟨{ σ with obj := { σ.obj with p := .idle } }, ⟨?_, fun _ => rfl, by simp, i.cidle, ?_⟩, ?_⟩
    · exact ⟨rp.mask, rp.head, rp.tail, rp.store, rp.len, rp.items, rp.nx, rp.slots, rp.var⟩
    · exact i.ccall' ⟨rfl, List.prefix_refl _, rfl, rfl, rfl⟩
    · exact k.snoc (.ret .producer ⟨r, none⟩ (hw σ hk))
  | get eb eo hc hl hv hn =>
    have r := i.rep
    obtain ⟨w, hw⟩ := Option.isSome_iff_exists.mp hv
    refine ⟨{ σ with obj := { σ.obj with c := .pending (.get eb eo) }, var := some (eb, eo), w := w }, ⟨?_, i.pidle, ?_, by simp, ?_⟩, ?_⟩
    · refine ⟨r.mask, r.head, r.tail, r.store, r.len, r.items, r.nx, r.slots, ?_⟩
      intro eb' eo' he
      obtain ⟨rfl, rfl⟩ := Prod.mk.inj (Option.some.inj he)
      exact ⟨hw, hl, hn⟩
    · exact i.pcall' ⟨rfl, Nat.le_refl _, rfl, rfl⟩
    · intro eb' eo' t ht
      simp only [Option.some.injEq, Prod.mk.injEq] at ht
      obtain ⟨rfl, rfl, rfl⟩ := ht
      exact ⟨rfl, _, KGet.stable, ⟨rfl, rfl⟩, get_wp g n⟩
    · exact k.snoc (.call .consumer (.get eb eo) (i.cidle hc).1)
  | @cmem eb eo f c v h hc e =>
    obtain ⟨hv, K, hs, hk, hw⟩ := i.ccall _ _ _ hc
    obtain ⟨v', h', τ, K', e1, e2, e3, e4, e5, e6⟩ := hw σ s.h hk i.rep
    obtain ⟨rfl, rfl⟩ := Prod.mk.inj (Except.ok.inj (e.symm.trans e1))
    have hr : relyP σ τ := e2.2.1
    refine ⟨τ, ⟨e3, ?_, i.pcall' hr, by simp, ?_⟩, ?_⟩
    · intro hp
      exact hr.2.2.1.trans (i.pidle hp)
    · intro eb' eo' t ht
      simp only [Option.some.injEq, Prod.mk.injEq] at ht
      obtain ⟨rfl, rfl, rfl⟩ := ht
      exact ⟨e2.2.2.trans hv, K', e4, e5, e6.2⟩
    · rw [List.append_nil]; exact Eff.steps e2.1 k
  | @cpick eb eo c b hc =>
    obtain ⟨hv, K, hs, hk, hw⟩ := i.ccall _ _ _ hc
    refine ⟨σ, ⟨i.rep, i.pidle, i.pcall, by simp, ?_⟩, by rw [List.append_nil]; exact k⟩
    intro eb' eo' t ht
    simp only [Option.some.injEq, Prod.mk.injEq] at ht
    obtain ⟨rfl, rfl, rfl⟩ := ht
    exact ⟨hv, K, hs, hk, hw b⟩
  | @cret eb eo r hc =>
    obtain ⟨hv, K, hs, hk, hw⟩ := i.ccall _ _ _ hc
    have rp := i.rep
    refine ⟨{ σ with obj := { σ.obj with c := .idle }, var := none }, ⟨?_, i.pidle, ?_, fun _ => ⟨rfl, rfl⟩, by simp⟩, ?_⟩
    · exact ⟨rp.mask, rp.head, rp.tail, rp.store, rp.len, rp.items, rp.nx, rp.slots, by simp⟩
    · exact i.pcall' ⟨rfl, Nat.le_refl _, rfl, rfl⟩
    · have := k.snoc (.ret .consumer ⟨r, some σ.w⟩ (hw σ hk))
      rw [(rp.var eb eo hv).1]
      exact this
  | @other h ho =>
    have rp := i.rep
    have hb : ∀ j : Int, 0 ≤ j → j < 4 → h.at q.b (q.o + j) = s.h.at q.b (q.o + j) := fun j j0 j4 =>
      ho.cell _ _ (fun hf => hf.1 (.inl ⟨rfl, by omega, by omega⟩))
    have hsl : ∀ j : Nat, j < q.N → h.at q.sb (q.so + j) = s.h.at q.sb (q.so + j) := fun j hj =>
      ho.cell _ _ (fun hf => hf.1 (.inr ⟨rfl, by omega, by omega⟩))
    refine ⟨σ, ⟨⟨?_, (hb 1 (by omega) (by omega)).trans rp.head, (hb 2 (by omega) (by omega)).trans rp.tail,
      (hb 3 (by omega) (by omega)).trans rp.store, rp.len, ?_, ?_, ?_, ?_⟩, i.pidle, i.pcall, i.cidle, i.ccall⟩, by rw [List.append_nil]; exact k⟩
    · have := hb 0 (by omega) (by omega)
      rw [Int.add_zero] at this
      exact this.trans rp.mask
    · intro j v hj
      rw [hsl _ (Nat.mod_lt _ g.pos)]
      exact rp.items j v hj
    · rw [hsl _ (Nat.mod_lt _ g.pos)]
      exact rp.nx
    · intro j hj
      rw [hsl _ hj]
      exact rp.slots j hj
    · intro eb eo he
      obtain ⟨h1, h2, h3⟩ := rp.var eb eo he
      refine ⟨?_, h2, h3⟩
      rw [← h1]
      refine ho.cell _ _ (fun hf => ?_)
      cases hc : s.c with
      | none => rw [(i.cidle hc).2] at he; cases he
      | some x =>
        obtain ⟨eb', eo', t⟩ := x
        have := (i.ccall _ _ _ hc).1
        rw [he] at this
        obtain ⟨rfl, rfl⟩ := Prod.mk.inj (Option.some.inj this)
        exact hf.2 _ _ _ hc ⟨rfl, rfl⟩

/-- **C132, linearizability**: `mu_spsc_init` succeeds, and from then on, however the accesses of the two threads are interleaved
with each other and with anything else that happens elsewhere in memory, and in whichever order operands are evaluated,
what the threads see could have come from the atomic queue, and neither thread is ever about to fault. -/
theorem C132_linearizable (A : Arch) (X : Ext) (Y : AExt) (n m : Nat) (q : Place) (h : Heap)
    (hb : q.b.isLit = false) (hsb : q.sb.isLit = false) (hN : q.N < 65536) (hpow : ∃ k, q.N = 2 ^ k) (htwo : 2 ≤ q.N)
    (hstruct : ∀ k : Nat, k < 4 → (h.at q.b (q.o + k)).isSome = true)
    (hstore : ∀ i : Nat, i < q.N → (h.at q.sb (q.so + i)).isSome = true)
    (hsep : ∀ i : Nat, i < q.N → ∀ k : Nat, k < 4 → ¬(q.b = q.sb ∧ q.o + k = q.so + i)) :
    ∃ h1, sem A X prog (n + 2) .mu_spsc_init h [.ptr q.b q.o, .ptr q.sb q.so, .int q.N] = .ok (.int 0, h1) ∧
      ∀ l s, Steps (semA A Y prog (m + 1)) q ⟨h1, none, none⟩ l s → Linearizable q.N l ∧ s.Fine := by
  obtain ⟨h1, md, e1, sr, r, hlen, -, -⟩ := src_spsc_init (A := A) (X := X) n q.N hN hb hsb hstruct hstore hsep ⟨hpow, htwo⟩
  have hle : q.N ≤ 32768 := by have := sr.maskLt; rw [r.wf.mask] at this; omega
  have g : q.Ok := ⟨hb, hsb, hpow, htwo, hle, hsep⟩
  have slots : ∀ i : Nat, i < q.N → (h1.at q.sb (q.so + i)).isSome = true := by
    intro i hi
    rw [sr.items i _ (List.getElem?_eq_getElem (by omega))]
    rfl
  have h0 : 0 % q.N = 0 := Nat.zero_mod _
  obtain ⟨nx, hnx⟩ := Option.isSome_iff_exists.mp (slots 0 g.pos)
  refine ⟨h1, e1, fun l s hs => ?_⟩
  have key : ∀ l s, Steps (semA A Y prog (m + 1)) q ⟨h1, none, none⟩ l s →
      ∃ σ, Inv q s σ ∧ Obj.Steps q.N ⟨.idle, .idle, []⟩ l σ.obj := by
    intro l s hs
    generalize hs0 : (⟨h1, none, none⟩ : Sys) = s0 at hs
    induction hs with
    | nil =>
      subst hs0
      refine ⟨⟨0, ⟨.idle, .idle, []⟩, nx, none, .undef⟩, ⟨⟨?_, ?_, ?_, sr.store, g.pos, ?_, ?_, slots, ?_⟩, ?_, ?_, ?_, ?_⟩, .nil _⟩
      · rw [sr.mask, r.wf.mask]
      · rw [sr.head, r.head]
      · rw [sr.tail, r.tail]; rfl
      · intro i v hv; simp at hv
      · simpa [h0] using hnx
      · simp
      · simp
      · simp
      · simp
      · simp
    | snoc _ st ih =>
      obtain ⟨σ, i, k⟩ := ih
      exact i.step g st k
  obtain ⟨σ, i, k⟩ := key l s hs
  exact ⟨⟨_, k⟩, i.fine⟩

/-- **C132, wait-freedom**: whatever the other thread does, and even if memory returned arbitrary values, a call of `mu_spsc_put`
makes at most 8 accesses and a call of `mu_spsc_get` at most 10. -/
theorem C132_wait_free (A : Arch) (Y : AExt) (n : Nat) (a v : CVal) :
    Within (semA A Y prog (n + 1) .mu_spsc_put [a, v]) 8 ∧ Within (semA A Y prog (n + 1) .mu_spsc_get [a, v]) 10 :=
  ⟨(within_execA Src.mu_spsc_put.body rfl _).bind (n := 0) fun _ => within_done _,
   (within_execA Src.mu_spsc_get.body rfl _).bind (n := 0) fun _ => within_done _⟩

/-! ## A concrete interleaving -/

/-- One move of the example: the producer or the consumer starts a call or goes on. -/
inductive Move where
  | put (v : CVal)
  | get
  | p (b : Bool)
  | c (b : Bool)

/-- The example's variable is the first cell of object 2. -/
def Move.play (S : Fn → List CVal → Act CVal) (q : Place) (s : Sys) : Move → Option (List Ev × Sys)
  | .put v => if s.p.isNone ∧ v ≠ .undef then some ([.call .producer (.put v)], { s with p := some (S .mu_spsc_put [.ptr q.b q.o, v]) })
    else none
  | .get => if s.c.isNone ∧ (s.h.at (.obj 2) 0).isSome = true then
      some ([.call .consumer (.get (.obj 2) 0)], { s with c := some (.obj 2, 0, S .mu_spsc_get [.ptr q.b q.o, .ptr (.obj 2) 0]) }) else none
  | .p b => match s.p with
    | some (.mem f k) => match f s.h with
      | .ok (v, h) => some ([], { s with h := h, p := some (k v) })
      | .error _ => none
    | some (.pick k) => some ([], { s with p := some (k b) })
    | some (.done r) => some ([.ret .producer ⟨r, none⟩], { s with p := none })
    | _ => none
  | .c b => match s.c with
    | some (eb, eo, .mem f k) => match f s.h with
      | .ok (v, h) => some ([], { s with h := h, c := some (eb, eo, k v) })
      | .error _ => none
    | some (eb, eo, .pick k) => some ([], { s with c := some (eb, eo, k b) })
    | some (eb, eo, .done r) => some ([.ret .consumer ⟨r, s.h.at eb eo⟩], { s with c := none })
    | _ => none

theorem Move.play_step {S : Fn → List CVal → Act CVal} (hq : ¬ q.cells (.obj 2) 0) {m : Move} {l : List Ev} (e : m.play S q s = some (l, s')) :
    Step S q s l s' := by
  cases m with
  | put v =>
    simp only [Move.play] at e
    split at e
    · next hc =>
      obtain ⟨rfl, rfl⟩ := Prod.mk.inj (Option.some.inj e)
      exact .put v (by simpa using hc.1) hc.2
    · cases e
  | get =>
    simp only [Move.play] at e
    split at e
    · next hc =>
      obtain ⟨rfl, rfl⟩ := Prod.mk.inj (Option.some.inj e)
      exact .get _ _ (by simpa using hc.1) rfl hc.2 hq
    · cases e
  | p b =>
    simp only [Move.play] at e
    split at e
    · next f k hp =>
      split at e
      · next v h hf =>
        obtain ⟨rfl, rfl⟩ := Prod.mk.inj (Option.some.inj e)
        exact .pmem hp hf
      · cases e
    · next k hp => obtain ⟨rfl, rfl⟩ := Prod.mk.inj (Option.some.inj e); exact .ppick b hp
    · next r hp => obtain ⟨rfl, rfl⟩ := Prod.mk.inj (Option.some.inj e); exact .pret hp
    · cases e
  | c b =>
    simp only [Move.play] at e
    split at e
    · next eb eo f k hp =>
      split at e
      · next v h hf =>
        obtain ⟨rfl, rfl⟩ := Prod.mk.inj (Option.some.inj e)
        exact .cmem hp hf
      · cases e
    · next k hp => obtain ⟨rfl, rfl⟩ := Prod.mk.inj (Option.some.inj e); exact .cpick b hp
    · next r hp => obtain ⟨rfl, rfl⟩ := Prod.mk.inj (Option.some.inj e); exact .cret hp
    · cases e

/-- All moves. -/
def plays (S : Fn → List CVal → Act CVal) (q : Place) : List Ev → Sys → List Move → Option (List Ev × Sys)
  | l, s, [] => some (l, s)
  | l, s, m :: ms => match m.play S q s with
    | some (l', s') => plays S q (l ++ l') s' ms
    | none => none

theorem plays_steps {S : Fn → List CVal → Act CVal} (hq : ¬ q.cells (.obj 2) 0) {s0 : Sys} : ∀ (ms : List Move) {l l' : List Ev} {s s' : Sys},
    Steps S q s0 l s → plays S q l s ms = some (l', s') → Steps S q s0 l' s'
  | [], _, _, _, _, hs, e => by obtain ⟨rfl, rfl⟩ := Prod.mk.inj (Option.some.inj e); exact hs
  | m :: ms, l, l', s, s', hs, e => by
    simp only [plays] at e
    split at e
    · next l1 s1 h1 => exact plays_steps hq ms (hs.snoc (Move.play_step hq h1)) e
    · cases e

/-- The demo's queue: four slots, in the memory `sDemo`. -/
def concPlace : Place := ⟨.obj 0, 0, .obj 1, 0, 4⟩

/-- A `mu_spsc_get` begins after `mu_spsc_put` has stored its item and before it has stored the tail, and finds the
queue empty; the next one begins before `mu_spsc_put` has returned, and finds the item. -/
def concMoves : List Move :=
  [.put (.int 5)] ++ List.replicate 13 (.p true) ++ [.get] ++ List.replicate 6 (.c false) ++ [.p true] ++ [.get] ++
  List.replicate 17 (.c true) ++ [.p true]

/-- The external functions of the example: none. -/
def concExt : AExt := ⟨fun _ _ _ => .error .ptr, fun _ _ _ => .fail .ptr⟩

example : ∃ h1 s, sem Arch.w16 ⟨concExt.fn, fun _ _ _ _ => .error .ptr⟩ prog 2 .mu_spsc_init sDemo [.ptr (.obj 0) 0, .ptr (.obj 1) 0, .int 4] =
      .ok (.int 0, h1) ∧
    Steps (semA Arch.w16 concExt prog 1) concPlace ⟨h1, none, none⟩
      [.call .producer (.put (.int 5)), .call .consumer (.get (.obj 2) 0), .ret .consumer ⟨.int 1, some .null⟩,
       .call .consumer (.get (.obj 2) 0), .ret .consumer ⟨.int 0, some (.int 5)⟩, .ret .producer ⟨.int 0, none⟩] s := by
  have hq : ¬ concPlace.cells (.obj 2) 0 := by simp [concPlace, Place.cells, spscCells]
  exact ⟨_, _, rfl, plays_steps hq concMoves (.nil _) rfl⟩

end Mu.CS.Conc
