import Verif.Lemmas.SrcTso
import Verif.Props.SrcFlow

/-! # mu_spsc.c on two cores with store buffers: the invariant -/

namespace Mu.CS.Tso

open Conc (Ev Side G Rep Taken Given rgP rgC relyP relyC Eff flow slot_ne)

variable {q : Conc.Place} {h h' : Heap} {b : Base} {o : Int} {x : CVal} {σ τ κ : G}

/-- What the representation depends on. -/
theorem rep_ghost (k : Rep q σ h) (e1 : τ.d = σ.d) (e2 : τ.obj.items = σ.obj.items) (e3 : τ.nx = σ.nx) (e4 : τ.var = σ.var) (e5 : τ.w = σ.w) :
    Rep q τ h := by
  obtain ⟨d, ob, nx, var, w⟩ := τ
  simp only at e1 e2 e3 e4 e5
  subst e1 e3 e4 e5
  exact ⟨k.mask, k.head, by simp only [e2]; exact k.tail, k.store, by simp only [e2]; exact k.len, by simp only [e2]; exact k.items,
    by simp only [e2]; exact k.nx, k.slots, k.var⟩

theorem rep_congr (k : Rep q σ h) (hN : 0 < q.N) (hb : ∀ j : Int, 0 ≤ j → j < 4 → h'.at q.b (q.o + j) = h.at q.b (q.o + j))
    (hs : ∀ i : Nat, i < q.N → h'.at q.sb (q.so + i) = h.at q.sb (q.so + i))
    (hv : ∀ eb eo, σ.var = some (eb, eo) → h'.at eb eo = h.at eb eo) : Rep q σ h' := by
  refine ⟨?_, (hb 1 (by omega) (by omega)).trans k.head, (hb 2 (by omega) (by omega)).trans k.tail, (hb 3 (by omega) (by omega)).trans k.store,
    k.len, ?_, ?_, ?_, ?_⟩
  · have := hb 0 (by omega) (by omega)
    rw [Int.add_zero] at this
    exact this.trans k.mask
  · intro i v e
    rw [hs _ (Nat.mod_lt _ hN)]
    exact k.items i v e
  · rw [hs _ (Nat.mod_lt _ hN)]
    exact k.nx
  · intro i hi
    rw [hs _ hi]
    exact k.slots i hi
  · intro eb eo e
    rw [hv eb eo e]
    exact k.var eb eo e

/-- A write elsewhere. -/
theorem rep_foreign (k : Rep q σ h) (hN : 0 < q.N) (hc : ¬ q.cells b o) (hv : σ.var = none) : Rep q σ (h.upd b o x) := by
  refine rep_congr k hN ?_ ?_ ?_
  · intro j j0 j4
    exact Heap.at_upd_sep fun e => hc (.inl ⟨e.1, by have := e.2; omega, by have := e.2; omega⟩)
  · intro i hi
    exact Heap.at_upd_sep fun e => hc (.inr ⟨e.1, by have := e.2; omega, by have := e.2; omega⟩)
  · intro eb eo e
    rw [hv] at e; cases e

theorem var_sep (k : Rep q σ h) {eb : Base} {eo : Int} (e : σ.var = some (eb, eo)) (hc : q.cells b o) : ¬(b = eb ∧ o = eo) := by
  rintro ⟨rfl, rfl⟩
  exact (k.var _ _ e).2.2 hc

/-- The tail or the head, written again. -/
theorem rep_same (k : Rep q σ h) (g : q.Ok) (hc : q.cells b o) (hl : b.isLit = false) (hx : h.at b o = some x) : Rep q σ (h.upd b o x) := by
  have key : ∀ b' o', (h.upd b o x).at b' o' = h.at b' o' := by
    intro b' o'
    by_cases e : b = b' ∧ o = o'
    · obtain ⟨rfl, rfl⟩ := e
      rw [Heap.at_upd_same hl (by rw [hx]; rfl), hx]
    · exact Heap.at_upd_sep e
  exact rep_congr k g.pos (fun _ _ _ => key _ _) (fun _ _ => key _ _) fun _ _ _ => key _ _

/-- A slot is written, with what it has to hold if it is in use. -/
theorem rep_slot (k : Rep q σ h) (g : q.Ok) {i : Nat} (hi : i < q.N)
    (hx : ∀ j, j < σ.obj.items.length → (σ.d + j) % q.N = i → σ.obj.items[j]? = some x) :
    ∃ y, Rep q { σ with nx := y } (h.upd q.sb (q.so + i) x) := by
  have sm := g.sepAt hi
  have hsl : ∀ j : Nat, j < q.N → ((h.upd q.sb (q.so + i) x).at q.sb (q.so + j)).isSome = true := by
    intro j hj
    rw [Heap.isSome_upd]
    exact k.slots j hj
  obtain ⟨y, hy⟩ := Option.isSome_iff_exists.mp (hsl ((σ.d + σ.obj.items.length) % q.N) (Nat.mod_lt _ g.pos))
  refine ⟨y, ?_, ?_, ?_, ?_, k.len, ?_, hy, hsl, ?_⟩
  · rw [Heap.at_upd_sep (fun e => sm.1 ⟨e.1.symm, e.2.symm⟩)]; exact k.mask
  · rw [Heap.at_upd_sep (fun e => sm.2.1 ⟨e.1.symm, e.2.symm⟩)]; exact k.head
  · rw [Heap.at_upd_sep (fun e => sm.2.2.1 ⟨e.1.symm, e.2.symm⟩)]; exact k.tail
  · rw [Heap.at_upd_sep (fun e => sm.2.2.2 ⟨e.1.symm, e.2.symm⟩)]; exact k.store
  · intro j v hj
    have hlt := (List.getElem?_eq_some_iff.mp hj).1
    refine ⟨?_, (k.items j v hj).2⟩
    by_cases e : (σ.d + j) % q.N = i
    · have := hx j hlt e
      rw [show σ.obj.items[j]? = some v from hj] at this
      simp only [e]
      rw [Heap.at_upd_same g.swr (k.slots i hi), this]
    · rw [Heap.at_upd_sep (fun e' => e (Int.ofNat_inj.mp (Int.add_left_cancel e'.2)).symm)]
      exact (k.items j v hj).1
  · intro eb eo e
    obtain ⟨h1, h2, h3⟩ := k.var eb eo e
    refine ⟨?_, h2, h3⟩
    rw [Heap.at_upd_sep (fun e => h3 (.inr ⟨e.1.symm, by have := e.2; omega, by have := e.2; omega⟩))]
    exact h1

/-- The tail advances over an item that is in its slot. -/
theorem rep_tail (k : Rep q σ h) (g : q.Ok) {v : CVal} (hv : v ≠ .undef) (hl : σ.obj.items.length + 1 < q.N)
    (hs : h.at q.sb (q.so + ((σ.d + σ.obj.items.length) % q.N : Nat)) = some v) (hx : x = .int ((σ.d + σ.obj.items.length + 1) % q.N : Nat)) :
    ∃ y, Rep q { σ with obj := { σ.obj with items := σ.obj.items ++ [v] }, nx := y } (h.upd q.b (q.o + 2) x) := by
  obtain ⟨nx, hnx⟩ := Option.isSome_iff_exists.mp (k.slots _ (Nat.mod_lt (σ.d + (σ.obj.items.length + 1)) g.pos))
  have ho : ∀ i : Nat, i < q.N → (h.upd q.b (q.o + 2) x).at q.sb (q.so + i) = h.at q.sb (q.so + i) := fun i hi =>
    Heap.at_upd_sep (fun e => (g.sepAt hi).2.2.1 e)
  refine ⟨nx, ?_, ?_, ?_, ?_, ?_, ?_, ?_, ?_, ?_⟩
  · rw [Heap.at_upd_sep (by rintro ⟨-, e⟩; omega)]; exact k.mask
  · rw [Heap.at_upd_sep (by rintro ⟨-, e⟩; omega)]; exact k.head
  · rw [Heap.at_upd_same g.wr (by rw [k.tail]; rfl), hx]
    simp only [List.length_append, List.length_singleton, Nat.add_assoc]
  · rw [Heap.at_upd_sep (by rintro ⟨-, e⟩; omega)]; exact k.store
  · simp only [List.length_append, List.length_singleton]; omega
  · intro i y hy
    simp only at hy ⊢
    rw [ho _ (Nat.mod_lt _ g.pos)]
    by_cases hi : i < σ.obj.items.length
    · rw [List.getElem?_append_left hi] at hy
      exact k.items i y hy
    · have hi' := (List.getElem?_eq_some_iff.mp hy).1
      simp only [List.length_append, List.length_singleton] at hi'
      obtain rfl : i = σ.obj.items.length := by omega
      rw [List.getElem?_append_right (Nat.le_refl _)] at hy
      simp only [Nat.sub_self, List.getElem?_cons_zero, Option.some.injEq] at hy
      subst hy
      exact ⟨hs, hv⟩
  · simp only [List.length_append, List.length_singleton]
    rw [ho _ (Nat.mod_lt _ g.pos)]
    exact hnx
  · intro i hi
    rw [Heap.isSome_upd]
    exact k.slots i hi
  · intro eb eo he
    obtain ⟨h1, h2, h3⟩ := k.var eb eo he
    refine ⟨?_, h2, h3⟩
    rw [Heap.at_upd_sep (fun e => h3 (.inl ⟨e.1.symm, by have := e.2; omega, by have := e.2; omega⟩))]
    exact h1

/-- The head advances. -/
theorem rep_head (k : Rep q σ h) (g : q.Ok) {y : CVal} {l : List CVal} (hi : σ.obj.items = y :: l) (hx : x = .int ((σ.d + 1) % q.N : Nat)) :
    Rep q { σ with d := σ.d + 1, obj := { σ.obj with items := l } } (h.upd q.b (q.o + 1) x) := by
  have hlen := k.len
  rw [hi, List.length_cons] at hlen
  have ho : ∀ i : Nat, i < q.N → (h.upd q.b (q.o + 1) x).at q.sb (q.so + i) = h.at q.sb (q.so + i) := fun i hi =>
    Heap.at_upd_sep (fun e => (g.sepAt hi).2.1 e)
  have hsum : ∀ i : Nat, σ.d + 1 + i = σ.d + (i + 1) := fun i => by omega
  refine ⟨?_, ?_, ?_, ?_, ?_, ?_, ?_, ?_, ?_⟩
  · rw [Heap.at_upd_sep (by rintro ⟨-, e⟩; omega)]; exact k.mask
  · rw [Heap.at_upd_same g.wr (by rw [k.head]; rfl), hx]
  · rw [Heap.at_upd_sep (by rintro ⟨-, e⟩; omega), k.tail, hi]
    simp only [List.length_cons, hsum]
  · rw [Heap.at_upd_sep (by rintro ⟨-, e⟩; omega)]; exact k.store
  · exact Nat.lt_of_succ_lt hlen
  · intro i v hv
    simp only at hv ⊢
    rw [ho _ (Nat.mod_lt _ g.pos), hsum]
    exact k.items (i + 1) v (by rw [hi]; simpa using hv)
  · simp only
    rw [ho _ (Nat.mod_lt _ g.pos), hsum]
    have := k.nx
    rw [hi] at this
    exact this
  · intro i hi
    rw [Heap.isSome_upd]
    exact k.slots i hi
  · intro eb eo he
    obtain ⟨h1, h2, h3⟩ := k.var eb eo he
    refine ⟨?_, h2, h3⟩
    rw [Heap.at_upd_sep (fun e => h3 (.inl ⟨e.1.symm, by have := e.2; omega, by have := e.2; omega⟩))]
    exact h1

/-- The two views, the buffers, what was accepted and received. -/
structure Inv (q : Conc.Place) (s : Sys) (φ : Conc.Flow) (all : List CVal) (T : Nat) (σ κ : G) : Prop where
  repP : Rep q σ s.pview
  repC : Rep q κ s.cview
  pidle : s.p = none → σ.obj.p = .idle
  pcall : ∀ t, s.p = some t → ∃ K, (rgP q).Stable K ∧ K σ ∧ t.wp (rgP q) K fun r K => ∀ σ, K σ → σ.obj.p = .done ⟨r, none⟩
  cidle : s.c = none → κ.obj.c = .idle ∧ κ.var = none
  ccall : ∀ eb eo t, s.c = some (eb, eo, t) → κ.var = some (eb, eo) ∧
    ∃ K, (rgC q).Stable K ∧ K κ ∧ t.wp (rgC q) K fun r K => ∀ σ, K σ → σ.obj.c = .done ⟨r, some σ.w⟩
  pvar : σ.var = none
  itemsP : σ.obj.items = all.drop σ.d
  itemsC : κ.obj.items = (all.take T).drop κ.d
  le : κ.d ≤ T
  pbuf : PBuf q all σ.d all.length s.h T s.pb
  cbuf : CBuf q κ.d σ.d s.cb
  taken : Taken σ.obj.p φ all
  given : Given κ.obj.c φ (all.take κ.d)

variable {s s' : Sys} {φ : Conc.Flow} {all : List CVal} {T : Nat} {A : Arch} {Y : AExt}

theorem Inv.fine (i : Inv q s φ all T σ κ) : s.Fine := by
  constructor
  · intro t ht
    obtain ⟨K, -, hk, hw⟩ := i.pcall t ht
    cases t with
    | done r => trivial
    | fail e => exact hw
    | mem f k =>
      obtain ⟨v, h', -, -, e, -, -, -, -, ⟨-, e6⟩, -⟩ := hw σ _ hk i.repP
      exact ⟨⟨v, h', e⟩, touches_kind e6⟩
    | pick k => trivial
  · intro eb eo t ht
    obtain ⟨-, K, -, hk, hw⟩ := i.ccall eb eo t ht
    cases t with
    | done r => trivial
    | fail e => exact hw
    | mem f k =>
      obtain ⟨v, h', -, -, e, -, -, -, -, ⟨-, e6⟩, -⟩ := hw κ _ hk i.repC
      exact ⟨⟨v, h', e⟩, touches_kind e6⟩
    | pick k => trivial

theorem Inv.pcall' (i : Inv q s φ all T σ κ) {τ : G} (hr : relyP σ τ) : ∀ t, s.p = some t →
    ∃ K, (rgP q).Stable K ∧ K τ ∧ t.wp (rgP q) K fun r K => ∀ σ, K σ → σ.obj.p = .done ⟨r, none⟩ := by
  intro t ht
  obtain ⟨K, hs, hk, hw⟩ := i.pcall t ht
  exact ⟨K, hs, hs σ τ hr hk, hw⟩

theorem Inv.ccall' (i : Inv q s φ all T σ κ) {τ : G} (hr : relyC κ τ) : ∀ eb eo t, s.c = some (eb, eo, t) → τ.var = some (eb, eo) ∧
    ∃ K, (rgC q).Stable K ∧ K τ ∧ t.wp (rgC q) K fun r K => ∀ σ, K σ → σ.obj.c = .done ⟨r, some σ.w⟩ := by
  intro eb eo t ht
  obtain ⟨hv, K, hs, hk, hw⟩ := i.ccall eb eo t ht
  exact ⟨hr.2.2.2.1.trans hv, K, hs, hs κ τ hr hk, hw⟩

theorem Inv.dle (i : Inv q s φ all T σ κ) : σ.d ≤ κ.d ∧ κ.d ≤ T ∧ T ≤ all.length := ⟨i.cbuf.le, i.le, i.pbuf.le⟩

theorem Inv.lenP (i : Inv q s φ all T σ κ) : σ.d + σ.obj.items.length = all.length := by
  have := i.dle
  rw [i.itemsP, List.length_drop]; omega

theorem Inv.lenC (i : Inv q s φ all T σ κ) : κ.d + κ.obj.items.length = T := by
  have := i.dle
  rw [i.itemsC, List.length_drop, List.length_take]; omega

/-- What the producer's accesses do: the items stay, or one is added. -/
theorem prod_eff (i : Inv q s φ all T σ κ) (e : Eff q.N .producer σ.obj τ.obj) (hr : relyC σ τ) :
    (τ.obj.items = σ.obj.items ∧ Taken τ.obj.p φ all ∧
      (τ.obj.p = σ.obj.p ∨ ∃ r, τ.obj.p = .done r ∧ q.N - 1 ≤ σ.obj.items.length)) ∨
    (∃ v, σ.obj.items.length < q.N - 1 ∧ τ.obj.items = σ.obj.items ++ [v] ∧ Taken τ.obj.p φ (all ++ [v]) ∧
      ∃ r, τ.obj.p = .done r ∧ r.ret = .int 0) := by
  rcases e with e | ⟨c, hc, e⟩
  · left; rw [e]; exact ⟨rfl, i.taken, .inl rfl⟩
  · have hc : σ.obj.p = .pending c := hc
    have t := i.taken
    rw [hc] at t
    cases t with
    | pending ho =>
      next v _ =>
      by_cases hlt : σ.obj.items.length < q.N - 1
      · right
        refine ⟨v, hlt, ?_, ?_, ⟨(SCall.spec q.N σ.obj.items (.put v)).1, by rw [e]; rfl, by simp [SCall.spec, hlt]⟩⟩
        · rw [e]; simp [SCall.spec, hlt]
        · rw [e]; simp only [SCall.spec, hlt, if_true, Conc.Obj.set]; exact .done ho
      · left
        refine ⟨?_, ?_, .inr ⟨_, by rw [e]; rfl, by omega⟩⟩
        · rw [e]; simp [SCall.spec, hlt]
        · rw [e]; simp only [SCall.spec, hlt, if_false, Conc.Obj.set]; exact .full ho

/-- What the consumer's accesses do: the items stay, or the first is taken. -/
theorem cons_eff (i : Inv q s φ all T σ κ) (e : Eff q.N .consumer κ.obj τ.obj) (hr : relyP κ τ) :
    (τ.d = κ.d ∧ τ.obj.items = κ.obj.items ∧ Given τ.obj.c φ (all.take κ.d) ∧
      (τ.obj.c = κ.obj.c ∨ (∃ r, τ.obj.c = .done r ∧ (r.ret = .int 0 ∨ κ.obj.items = [])))) ∨
    (∃ v l, κ.obj.items = v :: l ∧ τ.d = κ.d + 1 ∧ τ.obj.items = l ∧ Given τ.obj.c φ (all.take (κ.d + 1)) ∧
      ∃ r, τ.obj.c = .done r ∧ r.ret = .int 0) := by
  have hlen := hr.1
  rcases e with e | ⟨c, hc, e⟩
  · left; rw [e]
    rw [e] at hlen
    exact ⟨by omega, rfl, i.given, .inl rfl⟩
  · have hc : κ.obj.c = .pending c := hc
    have t := i.given
    rw [hc] at t
    generalize ha : all.take κ.d = g at t
    cases t with
    | pending ho =>
      next eb eo _ =>
      cases hit : κ.obj.items with
      | nil =>
        left
        rw [e] at hlen ⊢
        simp only [SCall.spec, hit, List.length_nil] at hlen
        refine ⟨by omega, by simp [SCall.spec, hit], ?_, .inr ⟨_, rfl, .inr rfl⟩⟩
        simp only [SCall.spec, hit, Conc.Obj.set]; exact .empty ho
      | cons v l =>
        right
        rw [e] at hlen ⊢
        simp only [SCall.spec, hit, List.length_cons] at hlen
        refine ⟨v, l, rfl, by omega, by simp [SCall.spec, hit], ?_, ⟨_, rfl, by simp [SCall.spec, hit]⟩⟩
        have hv : all[κ.d]? = some v := by
          have h1 : κ.obj.items[0]? = some v := by rw [hit]; rfl
          rw [i.itemsC, List.getElem?_drop, List.getElem?_take] at h1
          split at h1
          · simpa using h1
          · cases h1
        have : all.take (κ.d + 1) = φ.received ++ [v] := by
          rw [List.take_add_one, hv, ha]; rfl
        rw [this]
        simp only [SCall.spec, hit, Conc.Obj.set]; exact .done ho

/-- How the state develops. -/
structure Goes (q : Conc.Place) (all : List CVal) (T : Nat) (σ κ : G) (all' : List CVal) (T' : Nat) (σ' κ' : G) : Prop where
  grow : all <+: all'
  tail : T ≤ T'
  pd : σ.d ≤ σ'.d
  cd : κ.d ≤ κ'.d
  put : ∀ r, σ'.obj.p = .done r → σ.obj.p = .done r ∨ r.ret = .int 0 ∨ σ.d + (q.N - 1) ≤ all.length
  get : ∀ r, κ'.obj.c = .done r → κ.obj.c = .done r ∨ r.ret = .int 0 ∨ T ≤ κ.d

theorem next_ne {N d : Nat} (hN : 2 ≤ N) : (d + 1) % N ≠ d % N := fun e => slot_ne (N := N) (d := d) (i := 0) (n := 1) (by omega) (by omega) e.symm

theorem Inv.pmem (g : q.Ok) (i : Inv q s φ all T σ κ) {f : Heap → C (CVal × Heap)} {c : CVal → Act CVal} (hp : s.p = some (.mem f c)) :
    ∃ v h' τ, f s.pview = .ok (v, h') ∧ Rep q τ h' ∧ Act.Touches f q.pcells ∧ τ.d = σ.d ∧ τ.var = none ∧
      (∀ t, some (c v) = some t → ∃ K, (rgP q).Stable K ∧ K τ ∧ t.wp (rgP q) K fun r K => ∀ σ, K σ → σ.obj.p = .done ⟨r, none⟩) ∧
      ((τ.obj.items = σ.obj.items ∧ Taken τ.obj.p φ all ∧
        (τ.obj.p = σ.obj.p ∨ ∃ r, τ.obj.p = .done r ∧ q.N - 1 ≤ σ.obj.items.length)) ∨
      (∃ v, σ.obj.items.length < q.N - 1 ∧ τ.obj.items = σ.obj.items ++ [v] ∧ Taken τ.obj.p φ (all ++ [v]) ∧
        ∃ r, τ.obj.p = .done r ∧ r.ret = .int 0)) := by
  obtain ⟨K, hs, hk, hw⟩ := i.pcall _ hp
  obtain ⟨v, h', τ, K', e1, e2, e3, e4, e5, e6, e7⟩ := hw σ _ hk i.repP
  have hr : relyC σ τ := e2.2
  refine ⟨v, h', τ, e1, e3, e6.2.mono fun _ _ => Conc.Place.pcell_sub g, hr.1, hr.2.2.2.1.trans i.pvar, ?_, prod_eff i e2.1 hr⟩
  intro t ht
  obtain rfl := Option.some.inj ht
  exact ⟨K', e4, e5, e7⟩

theorem Inv.cmem (g : q.Ok) (i : Inv q s φ all T σ κ) {eb : Base} {eo : Int} {f : Heap → C (CVal × Heap)} {c : CVal → Act CVal}
    (hc : s.c = some (eb, eo, .mem f c)) :
    ∃ v h' τ, f s.cview = .ok (v, h') ∧ Rep q τ h' ∧ Act.Touches f (fun b o => (b = q.b ∧ o = q.o + 1) ∨ κ.var = some (b, o)) ∧ κ.var = some (eb, eo) ∧
      (∀ eb' eo' t, some (eb, eo, c v) = some (eb', eo', t) → τ.var = some (eb', eo') ∧ ∃ K, (rgC q).Stable K ∧ K τ ∧
        t.wp (rgC q) K fun r K => ∀ σ, K σ → σ.obj.c = .done ⟨r, some σ.w⟩) ∧
      ((τ.d = κ.d ∧ τ.obj.items = κ.obj.items ∧ Given τ.obj.c φ (all.take κ.d) ∧
        (τ.obj.c = κ.obj.c ∨ (∃ r, τ.obj.c = .done r ∧ (r.ret = .int 0 ∨ κ.obj.items = [])))) ∨
      (∃ v l, κ.obj.items = v :: l ∧ τ.d = κ.d + 1 ∧ τ.obj.items = l ∧ Given τ.obj.c φ (all.take (κ.d + 1)) ∧
        ∃ r, τ.obj.c = .done r ∧ r.ret = .int 0)) := by
  obtain ⟨hv, K, hs, hk, hw⟩ := i.ccall _ _ _ hc
  obtain ⟨v, h', τ, K', e1, e2, e3, e4, e5, e6, e7⟩ := hw κ _ hk i.repC
  have hr : relyP κ τ := e2.2.1
  refine ⟨v, h', τ, e1, e3, e6.2, hv, ?_, cons_eff i e2.1 hr⟩
  intro eb' eo' t ht
  simp only [Option.some.injEq, Prod.mk.injEq] at ht
  obtain ⟨rfl, rfl, rfl⟩ := ht
  exact ⟨e2.2.2.trans hv, K', e4, e5, e7⟩

theorem Goes.of (h1 : σ.d ≤ τ.d) (hp : τ.obj.p = σ.obj.p ∨ ∃ r, τ.obj.p = .done r ∧ (r.ret = .int 0 ∨ σ.d + (q.N - 1) ≤ all.length)) :
    Goes q all T σ κ all T τ κ := by
  refine ⟨List.prefix_rfl, Nat.le_refl _, h1, Nat.le_refl _, ?_, fun r e => .inl e⟩
  intro r e
  rcases hp with hp | ⟨r', hp, h⟩
  · exact .inl (hp ▸ e)
  · rw [hp] at e; cases e
    exact .inr h

end Mu.CS.Tso
