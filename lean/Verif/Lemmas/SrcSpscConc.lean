import Verif.Spec.SrcConc
import Verif.Lemmas.SrcRg
import Verif.Lemmas.SrcSpsc
import Mathlib.Tactic.ByContra
import Mathlib.Data.Int.ModEq

/-! # mu_spsc.c under interleaving: each thread's side -/

namespace Mu.CS.Conc

/-- The abstract state: how many items have been taken, the atomic queue, the content of the slot at the tail, and the
variable of the `mu_spsc_get` in progress with its content. -/
structure G where
  d : Nat
  obj : Obj
  nx : CVal
  var : Option (Base × Int)
  w : CVal

/-- A valid place for a queue. -/
structure Place.Ok (q : Place) : Prop where
  wr : q.b.isLit = false
  swr : q.sb.isLit = false
  pow : ∃ k, q.N = 2 ^ k
  two : 2 ≤ q.N
  le : q.N ≤ 32768
  sep : ∀ i : Nat, i < q.N → ∀ k : Nat, k < 4 → ¬(q.b = q.sb ∧ q.o + k = q.so + i)

/-- What memory looks like. -/
structure Rep (q : Place) (σ : G) (h : Heap) : Prop where
  mask : h.at q.b q.o = some (.int (q.N - 1 : Nat))
  head : h.at q.b (q.o + 1) = some (.int (σ.d % q.N : Nat))
  tail : h.at q.b (q.o + 2) = some (.int ((σ.d + σ.obj.items.length) % q.N : Nat))
  store : h.at q.b (q.o + 3) = some (.ptr q.sb q.so)
  len : σ.obj.items.length < q.N
  items : ∀ (i : Nat) v, σ.obj.items[i]? = some v → h.at q.sb (q.so + ((σ.d + i) % q.N : Nat)) = some v ∧ v ≠ .undef
  nx : h.at q.sb (q.so + ((σ.d + σ.obj.items.length) % q.N : Nat)) = some σ.nx
  slots : ∀ i : Nat, i < q.N → (h.at q.sb (q.so + i)).isSome = true
  var : ∀ eb eo, σ.var = some (eb, eo) → h.at eb eo = some σ.w ∧ eb.isLit = false ∧ ¬ q.cells eb eo

/-- At most one effect, of thread `t`. -/
def Eff (N : Nat) (t : Side) (o o' : Obj) : Prop :=
  o' = o ∨ ∃ c, o.ts t = .pending c ∧ o' = { o.set t (.done (c.spec N o.items).1) with items := (c.spec N o.items).2 }

/-- What the producer can rely on. -/
def relyP (σ τ : G) : Prop :=
  τ.d + τ.obj.items.length = σ.d + σ.obj.items.length ∧ τ.obj.items.length ≤ σ.obj.items.length ∧ τ.obj.p = σ.obj.p ∧ τ.nx = σ.nx

/-- What the consumer can rely on. -/
def relyC (σ τ : G) : Prop :=
  τ.d = σ.d ∧ σ.obj.items <+: τ.obj.items ∧ τ.obj.c = σ.obj.c ∧ τ.var = σ.var ∧ τ.w = σ.w

/-- The cells the producer writes: the tail and the slots. -/
def Place.pcells (q : Place) (b : Base) (o : Int) : Prop := (b = q.b ∧ o = q.o + 2) ∨ (b = q.sb ∧ q.so ≤ o ∧ o < q.so + q.N)

theorem Place.pcells_sub {q : Place} {b : Base} {o : Int} (h : q.pcells b o) : q.cells b o := by
  rcases h with ⟨rfl, rfl⟩ | h
  · exact .inl ⟨rfl, by omega, by omega⟩
  · exact .inr h

/-- The cells the producer writes, now: the tail and the slot at the tail, if there is room for the item that it puts. -/
def Place.pcell (q : Place) (σ : G) (b : Base) (o : Int) : Prop :=
  ((∃ v, σ.obj.p = .pending (.put v)) ∧ σ.obj.items.length < q.N - 1) ∧
  ((b = q.b ∧ o = q.o + 2) ∨ (b = q.sb ∧ o = q.so + ((σ.d + σ.obj.items.length) % q.N : Nat)))

theorem Place.pcell_sub {q : Place} (g : q.Ok) {σ : G} {b : Base} {o : Int} (h : q.pcell σ b o) : q.pcells b o := by
  rcases h with ⟨-, h | ⟨rfl, rfl⟩⟩
  · exact .inl h
  · have := Nat.mod_lt (σ.d + σ.obj.items.length) (show 0 < q.N by have := g.two; omega)
    exact .inr ⟨rfl, by omega, by omega⟩

def rgP (q : Place) : RG G := ⟨Rep q, fun σ τ => Eff q.N .producer σ.obj τ.obj ∧ relyC σ τ, relyP, q.pcell⟩
def rgC (q : Place) : RG G := ⟨Rep q, fun σ τ => Eff q.N .consumer σ.obj τ.obj ∧ relyP σ τ ∧ τ.var = σ.var, relyC, fun σ b o => (b = q.b ∧ o = q.o + 1) ∨ σ.var = some (b, o)⟩

variable {q : Place} {σ : G} {h : Heap} {A : Arch} {Y : AExt} {K : ACalls}

theorem relyP_refl (σ : G) : relyP σ σ := ⟨rfl, Nat.le_refl _, rfl, rfl⟩
theorem relyC_refl (σ : G) : relyC σ σ := ⟨rfl, List.prefix_refl _, rfl, rfl, rfl⟩

theorem Place.Ok.and (g : q.Ok) (x : Nat) : x &&& (q.N - 1) = x % q.N := by
  obtain ⟨k, hk⟩ := g.pow
  rw [hk, Nat.and_two_pow_sub_one_eq_mod]

theorem Place.Ok.pos (g : q.Ok) : 0 < q.N := by have := g.two; omega

open Act

/-! ## Reads that change nothing -/

section reads
variable {R : RG G} (hR : R.rep = Rep q) (hG : ∀ σ, R.guar σ σ) {L : G → Prop} {Q : CVal → (G → Prop) → Prop}
include hR hG

theorem rd_mask (hs : R.Stable L) (H : Q (.int (q.N - 1 : Nat)) L) : (load (.ptr q.b q.o)).wp R L Q := by
  refine wp_load fun σ h hk hr => ⟨_, σ, L, ?_, hG σ, hr, hs, hk, H⟩
  rw [hR] at hr
  exact Heap.load_some (by simp) hr.mask

theorem rd_store (hs : R.Stable L) (H : Q (.ptr q.sb q.so) L) : (load (.ptr q.b (q.o + 3))).wp R L Q := by
  refine wp_load fun σ h hk hr => ⟨_, σ, L, ?_, hG σ, hr, hs, hk, H⟩
  rw [hR] at hr
  exact Heap.load_some (by simp) hr.store

/-- A tail that is known. -/
theorem rd_tail {t : Nat} (hs : R.Stable L) (ht : ∀ σ, L σ → (σ.d + σ.obj.items.length) % q.N = t) (H : Q (.int t) L) :
    (load (.ptr q.b (q.o + 2))).wp R L Q := by
  refine wp_load fun σ h hk hr => ⟨_, σ, L, ?_, hG σ, hr, hs, hk, H⟩
  rw [hR] at hr
  rw [← ht σ hk]
  exact Heap.load_some (by simp) hr.tail

/-- A head that is known. -/
theorem rd_head {t : Nat} (hs : R.Stable L) (ht : ∀ σ, L σ → σ.d % q.N = t) (H : Q (.int t) L) :
    (load (.ptr q.b (q.o + 1))).wp R L Q := by
  refine wp_load fun σ h hk hr => ⟨_, σ, L, ?_, hG σ, hr, hs, hk, H⟩
  rw [hR] at hr
  rw [← ht σ hk]
  exact Heap.load_some (by simp) hr.head

/-- The address of a slot. -/
theorem rd_slot {t : Nat} (htN : t < q.N) (hs : R.Stable L) (H : Q (.ptr q.sb (q.so + t)) L) :
    (op A (.padd 1) (.ptr q.sb q.so) (.int t)).wp R L Q := by
  refine wp_padd fun σ h hk hr => ⟨_, ?_, hG σ, hs, H⟩
  rw [hR] at hr
  have h1 := Heap.padd_in (n := 1) (i := t) (h := h) (b := q.sb) (o := q.so) (by simpa using hr.slots t htN)
  simpa using h1

end reads

theorem guarP (σ : G) : (rgP q).guar σ σ := ⟨.inl rfl, relyC_refl σ⟩
theorem guarC (σ : G) : (rgC q).guar σ σ := ⟨.inl rfl, relyP_refl σ, rfl⟩

/-! ## The producer -/

/-- What the producer knows in a call of `mu_spsc_put(v)`: that it has not taken effect, and the tail. -/
def KTail (q : Place) (v : CVal) (t : Nat) : G → Prop := fun σ =>
  σ.obj.p = .pending (.put v) ∧ (σ.d + σ.obj.items.length) % q.N = t

/-- And there is room. -/
def KRoom (q : Place) (v : CVal) (t : Nat) : G → Prop := fun σ => KTail q v t σ ∧ σ.obj.items.length < q.N - 1

/-- And the item is in its slot. -/
def KItem (q : Place) (v : CVal) (t : Nat) : G → Prop := fun σ => KRoom q v t σ ∧ σ.nx = v

theorem KPend.stable {c : SCall} : (rgP q).Stable fun σ => σ.obj.p = .pending c := by
  intro σ τ r k
  have r : relyP σ τ := r
  exact r.2.2.1.trans k

theorem KPut.stable {r : SOut} : (rgP q).Stable fun σ => σ.obj.p = .done r := by
  intro σ τ r k
  have r : relyP σ τ := r
  exact r.2.2.1.trans k

theorem KTail.stable {v : CVal} {t : Nat} : (rgP q).Stable (KTail q v t) := by
  intro σ τ r k
  have r : relyP σ τ := r
  exact ⟨r.2.2.1.trans k.1, by rw [r.1]; exact k.2⟩

theorem KRoom.stable {v : CVal} {t : Nat} : (rgP q).Stable (KRoom q v t) := by
  intro σ τ r k
  have r' : relyP σ τ := r
  exact ⟨KTail.stable σ τ r k.1, Nat.lt_of_le_of_lt r'.2.1 k.2⟩

theorem KItem.stable {v : CVal} {t : Nat} : (rgP q).Stable (KItem q v t) := by
  intro σ τ r k
  have r' : relyP σ τ := r
  exact ⟨KRoom.stable σ τ r k.1, r'.2.2.2.trans k.2⟩

/-- The producer reads the tail. -/
theorem rd_tail_first {v : CVal} {Q : CVal → (G → Prop) → Prop} (H : ∀ t < q.N, Q (.int t) (KTail q v t)) (g : q.Ok) :
    (load (.ptr q.b (q.o + 2))).wp (rgP q) (fun σ => σ.obj.p = .pending (.put v)) Q := by
  refine wp_load fun σ h hk hr => ⟨_, σ, KTail q v ((σ.d + σ.obj.items.length) % q.N), ?_, guarP σ, hr, KTail.stable, ⟨hk, rfl⟩,
    H _ (Nat.mod_lt _ g.pos)⟩
  have hr : Rep q σ h := hr
  exact Heap.load_some (by simp) hr.tail

theorem full_iff {N d n : Nat} (hn : n < N) : ((d + n) % N + 1) % N = d % N ↔ n = N - 1 := by
  rw [Nat.mod_add_mod]
  constructor
  · intro e
    have h1 : d + n + 1 = d + (n + 1) := by omega
    rw [h1] at e
    by_contra hc
    have h2 : (d + (n + 1)) % N = d % N := e
    have h3 := Nat.ModEq.add_left_cancel' (n := N) d (show d + (n + 1) ≡ d + 0 [MOD N] from h2)
    have h4 : (n + 1) % N = 0 % N := h3
    rw [Nat.mod_eq_of_lt (by omega), Nat.zero_mod] at h4
    omega
  · rintro rfl
    have : d + (N - 1) + 1 = d + N := by omega
    rw [this, Nat.add_mod_right]

/-- The producer reads the head: the queue is full, and the call has taken effect, or there is room. -/
theorem rd_head_put {v : CVal} {t : Nat} {Q : CVal → (G → Prop) → Prop} (g : q.Ok)
    (H1 : Q (.int ((t + 1) % q.N : Nat)) fun σ => σ.obj.p = .done ⟨.int 2, none⟩)
    (H2 : ∀ a < q.N, a ≠ (t + 1) % q.N → Q (.int a) (KRoom q v t)) : (load (.ptr q.b (q.o + 1))).wp (rgP q) (KTail q v t) Q := by
  refine wp_load fun σ h hk hr => ?_
  have hr' : Rep q σ h := hr
  obtain ⟨hp, ht⟩ := hk
  have hf := full_iff (d := σ.d) hr'.len
  rw [ht] at hf
  have hl : h.load (.ptr q.b (q.o + 1)) = .ok (.int (σ.d % q.N : Nat)) := Heap.load_some (by simp) hr'.head
  by_cases hc : σ.obj.items.length = q.N - 1
  · refine ⟨_, { σ with obj := { σ.obj with p := .done ⟨.int 2, none⟩ } }, _, hl, ⟨?_, ?_⟩, ?_, KPut.stable, rfl, ?_⟩
    · right
      refine ⟨.put v, hp, ?_⟩
      simp [SCall.spec, hc, Obj.set]
    · exact ⟨rfl, List.prefix_refl _, rfl, rfl, rfl⟩
    · exact ⟨hr'.mask, hr'.head, hr'.tail, hr'.store, hr'.len, hr'.items, hr'.nx, hr'.slots, hr'.var⟩
    · rw [← hf.mpr hc]; exact H1
  · refine ⟨_, σ, KRoom q v t, hl, guarP σ, hr, KRoom.stable, ⟨⟨hp, ht⟩, ?_⟩, H2 _ (Nat.mod_lt _ g.pos) ?_⟩
    · have := hr'.len; omega
    · intro e; exact hc (hf.mp e.symm)

theorem Place.Ok.sepAt (g : q.Ok) {i : Nat} (hi : i < q.N) : ¬(q.b = q.sb ∧ q.o = q.so + i) ∧ ¬(q.b = q.sb ∧ q.o + 1 = q.so + i) ∧
      ¬(q.b = q.sb ∧ q.o + 2 = q.so + i) ∧ ¬(q.b = q.sb ∧ q.o + 3 = q.so + i) := by
  have h0 := g.sep i hi 0 (by omega)
  have h1 := g.sep i hi 1 (by omega)
  have h2 := g.sep i hi 2 (by omega)
  have h3 := g.sep i hi 3 (by omega)
  exact ⟨fun ⟨e, f⟩ => h0 ⟨e, by omega⟩, fun ⟨e, f⟩ => h1 ⟨e, by omega⟩,
    fun ⟨e, f⟩ => h2 ⟨e, by omega⟩, fun ⟨e, f⟩ => h3 ⟨e, by omega⟩⟩

theorem slot_ne {N d i n : Nat} (hi : i < n) (hn : n < N) : (d + i) % N ≠ (d + n) % N := by
  intro e
  have h3 := Nat.ModEq.add_left_cancel' (n := N) d (show d + i ≡ d + n [MOD N] from e)
  have h4 : i % N = n % N := h3
  rw [Nat.mod_eq_of_lt (by omega), Nat.mod_eq_of_lt hn] at h4
  omega

/-- The producer stores the item. -/
theorem wr_item {v : CVal} {t : Nat} {Q : CVal → (G → Prop) → Prop} (g : q.Ok) (H : Q v (KItem q v t)) :
    (store (.ptr q.sb (q.so + t)) v).wp (rgP q) (KRoom q v t) Q := by
  refine wp_store fun σ h hk hr => ?_
  have hr' : Rep q σ h := hr
  obtain ⟨⟨hp, rfl⟩, hl⟩ := hk
  have hlt := Nat.mod_lt (σ.d + σ.obj.items.length) g.pos
  have sm := g.sepAt hlt
  refine ⟨_, { σ with nx := v }, _, Heap.store_in g.swr (hr'.slots _ hlt), ⟨.inl rfl, ⟨rfl, List.prefix_refl _, rfl, rfl, rfl⟩⟩, ?_,
    KItem.stable, ⟨⟨⟨hp, rfl⟩, hl⟩, rfl⟩, ⟨_, _, rfl, ⟨⟨v, hp⟩, hl⟩, .inr ⟨rfl, rfl⟩⟩, H⟩
  refine ⟨?_, ?_, ?_, ?_, hr'.len, ?_, ?_, ?_, ?_⟩
  · rw [Heap.at_upd_sep (fun e => sm.1 ⟨e.1.symm, e.2.symm⟩)]; exact hr'.mask
  · rw [Heap.at_upd_sep (fun e => sm.2.1 ⟨e.1.symm, e.2.symm⟩)]; exact hr'.head
  · rw [Heap.at_upd_sep (fun e => sm.2.2.1 ⟨e.1.symm, e.2.symm⟩)]; exact hr'.tail
  · rw [Heap.at_upd_sep (fun e => sm.2.2.2 ⟨e.1.symm, e.2.symm⟩)]; exact hr'.store
  · intro i x hx
    have := (List.getElem?_eq_some_iff.mp hx).1
    rw [Heap.at_upd_sep (fun e => slot_ne (d := σ.d) this hr'.len (Int.ofNat_inj.mp (Int.add_left_cancel e.2)).symm)]
    exact hr'.items i x hx
  · exact Heap.at_upd_same g.swr (hr'.slots _ hlt)
  · intro i hi
    rw [Heap.isSome_upd]
    exact hr'.slots i hi
  · intro eb eo he
    obtain ⟨h1, h2, h3⟩ := hr'.var eb eo he
    refine ⟨?_, h2, h3⟩
    rw [Heap.at_upd_sep (fun e => h3 (.inr ⟨e.1.symm, by have := e.2; omega, by have := e.2; omega⟩))]
    exact h1

/-- The producer stores the tail. -/
theorem wr_tail {v : CVal} {t : Nat} {Q : CVal → (G → Prop) → Prop} (g : q.Ok) (hv : v ≠ .undef)
    (H : ∀ x, Q x fun σ => σ.obj.p = .done ⟨.int 0, none⟩) :
    (store (.ptr q.b (q.o + 2)) (.int ((t + 1) % q.N : Nat))).wp (rgP q) (KItem q v t) Q := by
  refine wp_store fun σ h hk hr => ?_
  have hr' : Rep q σ h := hr
  obtain ⟨⟨⟨hp, rfl⟩, hl⟩, hn⟩ := hk
  have hlt := Nat.mod_lt (σ.d + σ.obj.items.length) g.pos
  obtain ⟨nx, hnx⟩ := Option.isSome_iff_exists.mp (hr'.slots _ (Nat.mod_lt (σ.d + (σ.obj.items.length + 1)) g.pos))
  have ho : ∀ i : Nat, i < q.N → (h.upd q.b (q.o + 2) (.int (((σ.d + σ.obj.items.length) % q.N + 1) % q.N : Nat))).at q.sb (q.so + i) =
      h.at q.sb (q.so + i) := by
    intro i hi
    exact Heap.at_upd_sep (fun e => (g.sepAt hi).2.2.1 e)
  refine ⟨_, { σ with obj := { σ.obj with p := .done ⟨.int 0, none⟩, items := σ.obj.items ++ [v] }, nx := nx }, _,
    Heap.store_in g.wr (by rw [hr'.tail]; rfl), ⟨.inr ⟨.put v, hp, ?_⟩, ⟨rfl, List.prefix_append _ _, rfl, rfl, rfl⟩⟩, ?_,
    KPut.stable, rfl, ⟨_, _, rfl, ⟨⟨v, hp⟩, hl⟩, .inl ⟨rfl, rfl⟩⟩, H _⟩
  · simp [SCall.spec, hl, Obj.set]
  refine ⟨?_, ?_, ?_, ?_, ?_, ?_, ?_, ?_, ?_⟩
  · rw [Heap.at_upd_sep (by rintro ⟨-, e⟩; omega)]; exact hr'.mask
  · rw [Heap.at_upd_sep (by rintro ⟨-, e⟩; omega)]; exact hr'.head
  · rw [Heap.at_upd_same g.wr (by rw [hr'.tail]; rfl)]
    simp only [List.length_append, List.length_singleton]
    rw [Nat.mod_add_mod, Nat.add_assoc]
  · rw [Heap.at_upd_sep (by rintro ⟨-, e⟩; omega)]; exact hr'.store
  · simp only [List.length_append, List.length_singleton]; omega
  · intro i x hx
    simp only at hx ⊢
    rw [ho _ (Nat.mod_lt _ g.pos)]
    by_cases hi : i < σ.obj.items.length
    · rw [List.getElem?_append_left hi] at hx
      exact hr'.items i x hx
    · have hi' := (List.getElem?_eq_some_iff.mp hx).1
      simp only [List.length_append, List.length_singleton] at hi'
      obtain rfl : i = σ.obj.items.length := by omega
      rw [List.getElem?_append_right (Nat.le_refl _)] at hx
      simp only [Nat.sub_self, List.getElem?_cons_zero, Option.some.injEq] at hx
      subst hx
      exact ⟨by rw [hr'.nx, hn], hv⟩
  · simp only [List.length_append, List.length_singleton]
    rw [ho _ (Nat.mod_lt _ g.pos)]
    exact hnx
  · intro i hi
    rw [Heap.isSome_upd]
    exact hr'.slots i hi
  · intro eb eo he
    obtain ⟨h1, h2, h3⟩ := hr'.var eb eo he
    refine ⟨?_, h2, h3⟩
    rw [Heap.at_upd_sep (fun e => h3 (.inl ⟨e.1.symm, by have := e.2; omega, by have := e.2; omega⟩))]
    exact h1

/-- `uint16_t` arithmetic. -/
theorem Place.Ok.mask_lt (g : q.Ok) : q.N - 1 < 65536 := by have := g.le; omega

/-- `(t + 1) & mask` and the comparison. -/
theorem Place.Ok.arith (g : q.Ok) (A : Arch) :
    (∀ t < q.N, (op A (.arith .add (.common .u16 .int)) (.int (t : Nat)) (.int 1)) = .done (.int ((t + 1 : Nat) : Int))) ∧
    (∀ t < q.N, (op A (.arith .band (.common .u16 .int)) (.int ((t + 1 : Nat) : Int)) (.int ((q.N - 1 : Nat) : Int))) =
      .done (.int (((t + 1) % q.N : Nat) : Int))) ∧
    (∀ t, convTo A (some .u16) (.int (((t + 1) % q.N : Nat) : Int)) = .ok (.int (((t + 1) % q.N : Nat) : Int))) ∧
    (∀ a b : Nat, a < q.N → b < q.N → op A (.cmp .eq (.common .u16 .int)) (.int a) (.int b) = .done (.ofBool (decide (a = b)))) := by
  have hN := g.le
  have hm := g.mask_lt
  have next : ∀ t < q.N, (op A (.arith .add (.common .u16 .int)) (.int (t : Nat)) (.int 1)) = .done (.int ((t + 1 : Nat) : Int)) := by
    intro t ht
    have h1 := conv_u16c (A := A) (n := t) (by omega)
    have h2 := conv_u16c (A := A) (n := 1) (by omega)
    simp only [op_arith, run_arith, h1, show (1 : Int) = ((1 : Nat) : Int) from rfl, h2]
    simp [add_u16 (A := A) (n := t) (by omega), lift_ok, Except.bind]
  have mask : ∀ t < q.N, (op A (.arith .band (.common .u16 .int)) (.int ((t + 1 : Nat) : Int)) (.int ((q.N - 1 : Nat) : Int))) =
      .done (.int (((t + 1) % q.N : Nat) : Int)) := by
    intro t ht
    have h1 := conv_u16c (A := A) (n := t + 1) (by omega)
    have h2 := conv_u16c (A := A) hm
    rw [op_arith, run_arith, h1, h2, band_u16, g.and]
    rfl
  have cast : ∀ t, convTo A (some .u16) (.int (((t + 1) % q.N : Nat) : Int)) = .ok (.int (((t + 1) % q.N : Nat) : Int)) := by
    intro t
    have := Nat.mod_lt (t + 1) g.pos
    rw [convTo_some, conv_u16 (by omega)]
  have cmp : ∀ a b : Nat, a < q.N → b < q.N → op A (.cmp .eq (.common .u16 .int)) (.int a) (.int b) = .done (.ofBool (decide (a = b))) := by
    intro a b ha hb
    rw [op_cmp, run_cmp, conv_u16c (by omega), conv_u16c (by omega)]
    simp [COp.run, lift_ok]
  exact ⟨next, mask, cast, cmp⟩

/-- `mu_spsc_put`: without a fault, whatever the consumer does in between. -/
theorem put_wp' (g : q.Ok) {v : CVal} (hv : v ≠ .undef) (n : Nat) :
    (semA A Y prog (n + 1) .mu_spsc_put [.ptr q.b q.o, v]).wp (rgP q) (fun σ => σ.obj.p = .pending (.put v))
      fun r K => (r = .int 0 ∨ r = .int 2) ∧ ∀ σ, K σ → σ.obj.p = .done ⟨r, none⟩ := by
  have hN := g.le
  have hm := g.mask_lt
  have e : semA A Y prog (n + 1) .mu_spsc_put [.ptr q.b q.o, v] = Src.mu_spsc_put.act A ⟨semA A Y prog n, Y.cb (semA A Y prog n)⟩ n [.ptr q.b q.o, v] := rfl
  rw [e]
  generalize (⟨semA A Y prog n, Y.cb (semA A Y prog n)⟩ : ACalls) = K
  have hP : (rgP q).rep = Rep q := rfl
  obtain ⟨next, mask, cast, cmp⟩ := g.arith A
  have truth : ∀ b : Bool, lift (CVal.ofBool b).truth = .done b := by intro b; cases b <;> rfl
  have use : lift v.use = .done v := by cases v <;> first | rfl | exact absurd rfl hv
  simp only [CVal.use] at use
  -- the accesses before the comparison, in either order
  have first : ∀ Q : CVal → (G → Prop) → Prop, (∀ t < q.N, Q (.int ((t + 1) % q.N : Nat)) (KTail q v t)) →
      (load (.ptr q.b (q.o + 2))).wp (rgP q) (fun σ => σ.obj.p = .pending (.put v)) (fun a K' =>
        (op A (.arith .add (.common .u16 .int)) a (.int 1)).wp (rgP q) K' fun a K' =>
          (load (.ptr q.b q.o)).wp (rgP q) K' fun a_1 K' =>
            (op A (.arith .band (.common .u16 .int)) a a_1).wp (rgP q) K' fun a K' =>
              (lift (convTo A (some .u16) a)).wp (rgP q) K' Q) ∧
      (load (.ptr q.b q.o)).wp (rgP q) (fun σ => σ.obj.p = .pending (.put v)) (fun a K' =>
        (load (.ptr q.b (q.o + 2))).wp (rgP q) K' fun a_1 K' =>
          (op A (.arith .add (.common .u16 .int)) a_1 (.int 1)).wp (rgP q) K' fun a_1 K' =>
            (op A (.arith .band (.common .u16 .int)) a_1 a).wp (rgP q) K' fun a K' =>
              (lift (convTo A (some .u16) a)).wp (rgP q) K' Q) := by
    intro Q H
    constructor
    · refine rd_tail_first (fun t ht => ?_) g
      rw [next t ht, wp_done]
      refine rd_mask hP guarP KTail.stable ?_
      rw [mask t ht, wp_done, cast, lift_ok]
      exact H t ht
    · refine rd_mask hP guarP KPend.stable ?_
      refine rd_tail_first (fun t ht => ?_) g
      rw [next t ht, wp_done, mask t ht, wp_done, cast, lift_ok]
      exact H t ht
  have hpos := g.pos
  have E : Src.mu_spsc_put.act A K n [.ptr q.b q.o, v] = (execA A K n Src.mu_spsc_put.body [.ptr q.b q.o, v, .undef, .undef]).bind
      fun x => .done x.1.result := rfl
  rw [E]
  refine wp_bind (wp_seq (wp_mono (Q := fun x K' => x = (.next, [.ptr q.b q.o, v, .int 0, .undef]) ∧
    K' = fun σ => σ.obj.p = .pending (.put v)) ⟨rfl, rfl⟩ ?_))
  rintro _ _ ⟨rfl, rfl⟩
  refine ⟨rfl, wp_seq (wp_mono (Q := fun x K' => ∃ t < q.N, x = (.next, [.ptr q.b q.o, v, .int 0, .int ((t + 1) % q.N : Nat)]) ∧
    K' = KTail q v t) ?_ ?_)⟩
  · simp [execA, evalA, bind_eq, wp_bind_iff, wp_done, wp_both, Locals.get, CVal.use, lift_ok]
    exact first _ fun t ht => ⟨t, ht, by simp, rfl⟩
  rintro _ _ ⟨t, ht, rfl, rfl⟩
  refine ⟨rfl, ?_⟩
  simp only
  have hlt := Nat.mod_lt (t + 1) hpos
  generalize hnt : (t + 1) % q.N = nt at hlt
  -- the comparison
  have second : ∀ Q : CVal → (G → Prop) → Prop, Q (.ofBool true) (fun σ => σ.obj.p = .done ⟨.int 2, none⟩) → Q (.ofBool false) (KRoom q v t) →
      (load (.ptr q.b (q.o + 1))).wp (rgP q) (KTail q v t) (fun a K' =>
        (op A (.cmp .eq (.common .u16 .int)) (.int nt) a).wp (rgP q) K' Q) := by
    intro Q H1 H2
    refine rd_head_put g ?_ ?_
    · rw [hnt, cmp _ _ hlt hlt, wp_done]
      simpa using H1
    · intro a ha hne
      rw [hnt] at hne
      rw [cmp _ _ hlt ha, wp_done]
      simpa [Ne.symm hne] using H2
  refine wp_seq (wp_mono (Q := fun x K' => (x = (.next, [.ptr q.b q.o, v, .int 2, .int nt]) ∧ K' = fun σ => σ.obj.p = .done ⟨.int 2, none⟩) ∨
    (x = (.next, [.ptr q.b q.o, v, .int 0, .int nt]) ∧ K' = fun σ => σ.obj.p = .done ⟨.int 0, none⟩)) (wp_ite (wp_mono (Q := fun x K' =>
      (x = (true, [.ptr q.b q.o, v, .int 0, .int nt]) ∧ K' = fun σ => σ.obj.p = .done ⟨.int 2, none⟩) ∨
      (x = (false, [.ptr q.b q.o, v, .int 0, .int nt]) ∧ K' = KRoom q v t)) ?_ ?_)) ?_)
  · simp [evalA, evalCondA, bind_eq, wp_bind_iff, wp_done, wp_both, Locals.get, CVal.use, lift_ok]
    refine second _ ?_ ?_ <;> rw [truth] <;> simp [wp_done]
  · rintro _ _ (⟨rfl, rfl⟩ | ⟨rfl, rfl⟩)
    · exact ⟨fun _ => .inl ⟨rfl, rfl⟩, by simp⟩
    · refine ⟨by simp, fun _ => wp_seq (wp_mono (Q := fun x K' => x = (.next, [.ptr q.b q.o, v, .int 0, .int nt]) ∧ K' = KItem q v t) ?_ ?_)⟩
      · simp [execA, evalA, bind_eq, wp_bind_iff, wp_done, wp_both, Locals.get, CVal.use, lift_ok]
        constructor
        · refine rd_store hP guarP KRoom.stable ?_
          refine rd_tail hP guarP KRoom.stable (fun σ h => h.1.2) ?_
          refine rd_slot hP guarP ht KRoom.stable ?_
          exact wr_item g rfl
        · refine rd_tail hP guarP KRoom.stable (fun σ h => h.1.2) ?_
          refine rd_store hP guarP KRoom.stable ?_
          refine rd_slot hP guarP ht KRoom.stable ?_
          exact wr_item g rfl
      · rintro _ _ ⟨rfl, rfl⟩
        refine ⟨rfl, ?_⟩
        simp [execA, evalA, bind_eq, wp_bind_iff, wp_done, wp_both, Locals.get, CVal.use, lift_ok]
        rw [← hnt]
        exact wr_tail g hv fun x => rfl
  · rintro _ _ (⟨rfl, rfl⟩ | ⟨rfl, rfl⟩)
    · exact ⟨rfl, .inr rfl, fun σ h => h⟩
    · exact ⟨rfl, .inl rfl, fun σ h => h⟩

theorem put_wp (g : q.Ok) {v : CVal} (hv : v ≠ .undef) (n : Nat) :
    (semA A Y prog (n + 1) .mu_spsc_put [.ptr q.b q.o, v]).wp (rgP q) (fun σ => σ.obj.p = .pending (.put v))
      fun r K => ∀ σ, K σ → σ.obj.p = .done ⟨r, none⟩ := wp_mono (put_wp' g hv n) fun _ _ h => h.2

/-! ## The consumer -/

/-- What the consumer knows in a call of `mu_spsc_get(&var)`: that it has not taken effect. -/
def KGet (eb : Base) (eo : Int) : G → Prop := fun σ => σ.obj.c = .pending (.get eb eo) ∧ σ.var = some (eb, eo)
/-- The head. -/
def KHead (q : Place) (eb : Base) (eo : Int) (a : Nat) : G → Prop := fun σ => KGet eb eo σ ∧ σ.d % q.N = a
/-- The queue was empty. -/
def KEmpty (eb : Base) (eo : Int) : G → Prop := fun σ => σ.obj.c = .done ⟨.int 1, some .null⟩ ∧ σ.var = some (eb, eo)
/-- The queue was empty, and the head. -/
def KEmptyAt (q : Place) (eb : Base) (eo : Int) (a : Nat) : G → Prop := fun σ => KEmpty eb eo σ ∧ σ.d % q.N = a
/-- The queue is not empty. -/
def KSome (eb : Base) (eo : Int) : G → Prop := fun σ => KGet eb eo σ ∧ σ.obj.items ≠ []
/-- And the head is not `a`. -/
def KSomeNe (q : Place) (eb : Base) (eo : Int) (a : Nat) : G → Prop := fun σ => KSome eb eo σ ∧ σ.d % q.N ≠ a
/-- And the head is `a`. -/
def KSomeAt (q : Place) (eb : Base) (eo : Int) (a : Nat) : G → Prop := fun σ => KSome eb eo σ ∧ σ.d % q.N = a
/-- The oldest item. -/
def KOld (eb : Base) (eo : Int) (x : CVal) : G → Prop := fun σ => KGet eb eo σ ∧ σ.obj.items.head? = some x
/-- It is in the variable. -/
def KVar (eb : Base) (eo : Int) (x : CVal) : G → Prop := fun σ => KOld eb eo x σ ∧ σ.w = x
/-- And the head is `a`. -/
def KVarAt (q : Place) (eb : Base) (eo : Int) (x : CVal) (a : Nat) : G → Prop := fun σ => KVar eb eo x σ ∧ σ.d % q.N = a
/-- The call has taken effect and the variable is set. -/
def KGot (r w : CVal) : G → Prop := fun σ => σ.obj.c = .done ⟨r, some w⟩ ∧ σ.w = w

variable {eb : Base} {eo : Int}

theorem KGet.stable : (rgC q).Stable (KGet eb eo) := by
  intro σ τ r k
  have r : relyC σ τ := r
  exact ⟨r.2.2.1.trans k.1, r.2.2.2.1.trans k.2⟩
theorem KHead.stable {a : Nat} : (rgC q).Stable (KHead q eb eo a) := by
  intro σ τ r k
  have r' : relyC σ τ := r
  exact ⟨KGet.stable (q := q) σ τ r k.1, by rw [r'.1]; exact k.2⟩
theorem KEmpty.stable : (rgC q).Stable (KEmpty eb eo) := by
  intro σ τ r k
  have r : relyC σ τ := r
  exact ⟨r.2.2.1.trans k.1, r.2.2.2.1.trans k.2⟩
theorem KEmptyAt.stable {a : Nat} : (rgC q).Stable (KEmptyAt q eb eo a) := by
  intro σ τ r k
  have r' : relyC σ τ := r
  exact ⟨KEmpty.stable (q := q) σ τ r k.1, by rw [r'.1]; exact k.2⟩
theorem KSome.stable : (rgC q).Stable (KSome eb eo) := by
  intro σ τ r k
  have r' : relyC σ τ := r
  refine ⟨KGet.stable (q := q) σ τ r k.1, fun e => k.2 ?_⟩
  have := r'.2.1
  rw [e] at this
  exact List.prefix_nil.mp this
theorem KSomeNe.stable {a : Nat} : (rgC q).Stable (KSomeNe q eb eo a) := by
  intro σ τ r k
  have r' : relyC σ τ := r
  exact ⟨KSome.stable (q := q) σ τ r k.1, by rw [r'.1]; exact k.2⟩
theorem KSomeAt.stable {a : Nat} : (rgC q).Stable (KSomeAt q eb eo a) := by
  intro σ τ r k
  have r' : relyC σ τ := r
  exact ⟨KSome.stable (q := q) σ τ r k.1, by rw [r'.1]; exact k.2⟩
theorem KOld.stable {x : CVal} : (rgC q).Stable (KOld eb eo x) := by
  intro σ τ r k
  have r' : relyC σ τ := r
  refine ⟨KGet.stable (q := q) σ τ r k.1, ?_⟩
  obtain ⟨l, hl⟩ := r'.2.1
  rw [← hl]
  have := k.2
  cases h : σ.obj.items with
  | nil => rw [h] at this; cases this
  | cons y ys => rw [h] at this; simpa using this
theorem KVar.stable {x : CVal} : (rgC q).Stable (KVar eb eo x) := by
  intro σ τ r k
  have r' : relyC σ τ := r
  exact ⟨KOld.stable (q := q) σ τ r k.1, r'.2.2.2.2.trans k.2⟩
theorem KVarAt.stable {x : CVal} {a : Nat} : (rgC q).Stable (KVarAt q eb eo x a) := by
  intro σ τ r k
  have r' : relyC σ τ := r
  exact ⟨KVar.stable (q := q) σ τ r k.1, by rw [r'.1]; exact k.2⟩
theorem KGot.stable {r w : CVal} : (rgC q).Stable (KGot r w) := by
  intro σ τ r k
  have r : relyC σ τ := r
  exact ⟨r.2.2.1.trans k.1, r.2.2.2.2.trans k.2⟩

/-- The consumer reads the head, and remembers it. -/
theorem rd_head_learn {L : G → Prop} {L' : Nat → G → Prop} {Q : CVal → (G → Prop) → Prop} (g : q.Ok) (hs : ∀ a, (rgC q).Stable (L' a))
    (hl : ∀ σ, L σ → L' (σ.d % q.N) σ) (H : ∀ a < q.N, (∃ σ, L σ ∧ σ.d % q.N = a) → Q (.int a) (L' a)) : (load (.ptr q.b (q.o + 1))).wp (rgC q) L Q := by
  refine wp_load fun σ h hk hr => ⟨_, σ, L' (σ.d % q.N), ?_, guarC σ, hr, hs _, hl σ hk, H _ (Nat.mod_lt _ g.pos) ⟨σ, hk, rfl⟩⟩
  have hr : Rep q σ h := hr
  exact Heap.load_some (by simp) hr.head

theorem empty_iff {N d n : Nat} (hn : n < N) : d % N = (d + n) % N ↔ n = 0 := by
  constructor
  · intro e
    by_contra hc
    exact slot_ne (N := N) (d := d) (i := 0) (n := n) (by omega) hn e
  · rintro rfl; rfl

/-- The queue is seen to be empty. -/
theorem Rep.empty (r : Rep q σ h) (hk : KGet eb eo σ) (he : σ.obj.items = []) :
    (rgC q).guar σ { σ with obj := { σ.obj with c := .done ⟨.int 1, some .null⟩ } } ∧
    Rep q { σ with obj := { σ.obj with c := .done ⟨.int 1, some .null⟩ } } h ∧
    KEmpty eb eo { σ with obj := { σ.obj with c := .done ⟨.int 1, some .null⟩ } } := by
  refine ⟨⟨.inr ⟨.get eb eo, hk.1, ?_⟩, ⟨rfl, Nat.le_refl _, rfl, rfl⟩, rfl⟩,
    ⟨r.mask, r.head, r.tail, r.store, r.len, r.items, r.nx, r.slots, r.var⟩, rfl, hk.2⟩
  simp [SCall.spec, he, Obj.set]

/-- The consumer, having read the head, reads the tail. -/
theorem rd_tail_get {a : Nat} {Q : CVal → (G → Prop) → Prop} (g : q.Ok) (H1 : Q (.int a) (KEmpty eb eo))
    (H2 : ∀ t < q.N, t ≠ a → Q (.int t) (KSome eb eo)) : (load (.ptr q.b (q.o + 2))).wp (rgC q) (KHead q eb eo a) Q := by
  refine wp_load fun σ h hk hr => ?_
  have hr' : Rep q σ h := hr
  obtain ⟨hk, rfl⟩ := hk
  have hf := empty_iff (d := σ.d) hr'.len
  have hl : h.load (.ptr q.b (q.o + 2)) = .ok (.int ((σ.d + σ.obj.items.length) % q.N : Nat)) := Heap.load_some (by simp) hr'.tail
  by_cases hc : σ.obj.items = []
  · obtain ⟨e1, e2, e3⟩ := hr'.empty hk hc
    refine ⟨_, _, _, hl, e1, e2, KEmpty.stable, e3, ?_⟩
    rw [← hf.mpr (by simp [hc])]; exact H1
  · refine ⟨_, σ, _, hl, guarC σ, hr, KSome.stable, ⟨hk, hc⟩, H2 _ (Nat.mod_lt _ g.pos) fun e => hc ?_⟩
    exact List.length_eq_zero_iff.mp (hf.mp e.symm)

/-- The consumer reads the tail first. -/
theorem rd_tail_get_first {Q : CVal → (G → Prop) → Prop} (g : q.Ok) (H1 : ∀ t < q.N, Q (.int t) (KEmptyAt q eb eo t))
    (H2 : ∀ t < q.N, Q (.int t) (KSomeNe q eb eo t)) : (load (.ptr q.b (q.o + 2))).wp (rgC q) (KGet eb eo) Q := by
  refine wp_load fun σ h hk hr => ?_
  have hr' : Rep q σ h := hr
  have hf := empty_iff (d := σ.d) hr'.len
  have hl : h.load (.ptr q.b (q.o + 2)) = .ok (.int ((σ.d + σ.obj.items.length) % q.N : Nat)) := Heap.load_some (by simp) hr'.tail
  by_cases hc : σ.obj.items = []
  · obtain ⟨e1, e2, e3⟩ := hr'.empty hk hc
    exact ⟨_, _, _, hl, e1, e2, KEmptyAt.stable, ⟨e3, hf.mpr (by simp [hc])⟩, H1 _ (Nat.mod_lt _ g.pos)⟩
  · refine ⟨_, σ, _, hl, guarC σ, hr, KSomeNe.stable, ⟨⟨hk, hc⟩, fun e => hc ?_⟩, H2 _ (Nat.mod_lt _ g.pos)⟩
    exact List.length_eq_zero_iff.mp (hf.mp e)

/-- The consumer reads the oldest item. -/
theorem rd_item {a : Nat} {Q : CVal → (G → Prop) → Prop} (H : ∀ x, x ≠ .undef → Q x (KOld eb eo x)) :
    (load (.ptr q.sb (q.so + a))).wp (rgC q) (KSomeAt q eb eo a) Q := by
  refine wp_load fun σ h hk hr => ?_
  have hr' : Rep q σ h := hr
  obtain ⟨⟨hk, hn⟩, rfl⟩ := hk
  cases hi : σ.obj.items with
  | nil => exact absurd hi hn
  | cons x l =>
    obtain ⟨h1, h2⟩ := hr'.items 0 x (by rw [hi]; rfl)
    exact ⟨x, σ, _, Heap.load_some h2 h1, guarC σ, hr, KOld.stable, ⟨hk, by rw [hi]; rfl⟩, H x h2⟩

/-- Writing the variable. -/
theorem Rep.set_var (r : Rep q σ h) (he : σ.var = some (eb, eo)) (x : CVal) :
    h.store (.ptr eb eo) x = .ok (h.upd eb eo x) ∧ Rep q { σ with w := x } (h.upd eb eo x) := by
  obtain ⟨h1, h2, h3⟩ := r.var eb eo he
  refine ⟨Heap.store_in h2 (by rw [h1]; rfl), ?_⟩
  have hc : ∀ j : Int, 0 ≤ j → j < 4 → (h.upd eb eo x).at q.b (q.o + j) = h.at q.b (q.o + j) := fun j j0 j4 =>
    Heap.at_upd_sep (fun e => h3 (.inl ⟨e.1, by have := e.2; omega, by have := e.2; omega⟩))
  have hs : ∀ i : Nat, i < q.N → (h.upd eb eo x).at q.sb (q.so + i) = h.at q.sb (q.so + i) := fun i hi =>
    Heap.at_upd_sep (fun e => h3 (.inr ⟨e.1, by have := e.2; omega, by have := e.2; omega⟩))
  have hN : 0 < q.N := Nat.lt_of_le_of_lt (Nat.zero_le _) r.len
  refine ⟨?_, (hc 1 (by omega) (by omega)).trans r.head, (hc 2 (by omega) (by omega)).trans r.tail,
    (hc 3 (by omega) (by omega)).trans r.store, r.len, ?_, ?_, ?_, ?_⟩
  · have := hc 0 (by omega) (by omega)
    rw [Int.add_zero] at this
    exact this.trans r.mask
  · intro i v hv
    rw [hs _ (Nat.mod_lt _ hN)]
    exact r.items i v hv
  · rw [hs _ (Nat.mod_lt _ hN)]
    exact r.nx
  · intro i hi
    rw [Heap.isSome_upd]
    exact r.slots i hi
  · intro eb' eo' he'
    obtain ⟨rfl, rfl⟩ := Prod.mk.inj (Option.some.inj (he.symm.trans he'))
    exact ⟨Heap.at_upd_same h2 (by rw [h1]; rfl), h2, h3⟩

theorem wr_null {Q : CVal → (G → Prop) → Prop} (H : Q .null (KGot (.int 1) .null)) :
    (store (.ptr eb eo) .null).wp (rgC q) (KEmpty eb eo) Q := by
  refine wp_store fun σ h hk hr => ?_
  have hr' : Rep q σ h := hr
  obtain ⟨h1, h2⟩ := hr'.set_var hk.2 .null
  exact ⟨_, { σ with w := .null }, _, h1, ⟨.inl rfl, ⟨rfl, Nat.le_refl _, rfl, rfl⟩, rfl⟩, h2, KGot.stable, ⟨hk.1, rfl⟩,
    ⟨_, _, rfl, .inr hk.2⟩, H⟩

theorem wr_var {x : CVal} {Q : CVal → (G → Prop) → Prop} (H : Q x (KVar eb eo x)) :
    (store (.ptr eb eo) x).wp (rgC q) (KOld eb eo x) Q := by
  refine wp_store fun σ h hk hr => ?_
  have hr' : Rep q σ h := hr
  obtain ⟨h1, h2⟩ := hr'.set_var hk.1.2 x
  exact ⟨_, { σ with w := x }, _, h1, ⟨.inl rfl, ⟨rfl, Nat.le_refl _, rfl, rfl⟩, rfl⟩, h2, KVar.stable, ⟨hk, rfl⟩,
    ⟨_, _, rfl, .inr hk.1.2⟩, H⟩

/-- The consumer stores the head. -/
theorem wr_head {x : CVal} {a : Nat} {Q : CVal → (G → Prop) → Prop} (g : q.Ok) (H : ∀ y, Q y (KGot (.int 0) x)) :
    (store (.ptr q.b (q.o + 1)) (.int ((a + 1) % q.N : Nat))).wp (rgC q) (KVarAt q eb eo x a) Q := by
  refine wp_store fun σ h hk hr => ?_
  have hr' : Rep q σ h := hr
  obtain ⟨⟨⟨hk, hh⟩, hw⟩, rfl⟩ := hk
  cases hi : σ.obj.items with
  | nil => rw [hi] at hh; cases hh
  | cons y l =>
    obtain rfl : y = x := by rw [hi] at hh; simpa using hh
    have hlen := hr'.len
    rw [hi, List.length_cons] at hlen
    have ho : ∀ i : Nat, i < q.N → (h.upd q.b (q.o + 1) (.int ((σ.d % q.N + 1) % q.N : Nat))).at q.sb (q.so + i) =
        h.at q.sb (q.so + i) := by
      intro i hi
      exact Heap.at_upd_sep (fun e => (g.sepAt hi).2.1 e)
    have hsum : ∀ i : Nat, σ.d + 1 + i = σ.d + (i + 1) := fun i => by omega
    refine ⟨_, { σ with d := σ.d + 1, obj := { σ.obj with c := .done ⟨.int 0, some y⟩, items := l } }, _,
      Heap.store_in g.wr (by rw [hr'.head]; rfl), ⟨.inr ⟨.get eb eo, hk.1, ?_⟩, ⟨?_, ?_, rfl, rfl⟩, rfl⟩, ?_, KGot.stable, ⟨rfl, hw⟩,
      ⟨_, _, rfl, .inl ⟨rfl, rfl⟩⟩, H _⟩
    · simp [SCall.spec, hi, Obj.set]
    · simp only [hi, List.length_cons]; omega
    · simp only [hi, List.length_cons]; omega
    refine ⟨?_, ?_, ?_, ?_, ?_, ?_, ?_, ?_, ?_⟩
    · rw [Heap.at_upd_sep (by rintro ⟨-, e⟩; omega)]; exact hr'.mask
    · rw [Heap.at_upd_same g.wr (by rw [hr'.head]; rfl), Nat.mod_add_mod]
    · rw [Heap.at_upd_sep (by rintro ⟨-, e⟩; omega), hr'.tail, hi]
      simp only [List.length_cons, hsum]
    · rw [Heap.at_upd_sep (by rintro ⟨-, e⟩; omega)]; exact hr'.store
    · exact Nat.lt_of_succ_lt hlen
    · intro i v hv
      simp only at hv ⊢
      rw [ho _ (Nat.mod_lt _ g.pos), hsum]
      exact hr'.items (i + 1) v (by rw [hi]; simpa using hv)
    · simp only
      rw [ho _ (Nat.mod_lt _ g.pos), hsum]
      have := hr'.nx
      rw [hi] at this
      exact this
    · intro i hi
      rw [Heap.isSome_upd]
      exact hr'.slots i hi
    · intro eb eo he
      obtain ⟨h1, h2, h3⟩ := hr'.var eb eo he
      refine ⟨?_, h2, h3⟩
      rw [Heap.at_upd_sep (fun e => h3 (.inl ⟨e.1.symm, by have := e.2; omega, by have := e.2; omega⟩))]
      exact h1

/-- `mu_spsc_get`: without a fault, whatever the producer does in between. -/
theorem get_wp' (g : q.Ok) (n : Nat) :
    (semA A Y prog (n + 1) .mu_spsc_get [.ptr q.b q.o, .ptr eb eo]).wp (rgC q) (KGet eb eo)
      fun r K => (r = .int 0 ∨ r = .int 1) ∧ ∀ σ, K σ → σ.obj.c = .done ⟨r, some σ.w⟩ := by
  have e : semA A Y prog (n + 1) .mu_spsc_get [.ptr q.b q.o, .ptr eb eo] =
    Src.mu_spsc_get.act A ⟨semA A Y prog n, Y.cb (semA A Y prog n)⟩ n [.ptr q.b q.o, .ptr eb eo] := rfl
  rw [e]
  generalize (⟨semA A Y prog n, Y.cb (semA A Y prog n)⟩ : ACalls) = K
  have hP : (rgC q).rep = Rep q := rfl
  obtain ⟨next, mask, cast, cmp⟩ := g.arith A
  have truth : ∀ b : Bool, lift (CVal.ofBool b).truth = .done b := by intro b; cases b <;> rfl
  have E : Src.mu_spsc_get.act A K n [.ptr q.b q.o, .ptr eb eo] = (execA A K n Src.mu_spsc_get.body [.ptr q.b q.o, .ptr eb eo, .undef]).bind
      fun x => .done x.1.result := rfl
  rw [E]
  refine wp_bind (wp_seq (wp_mono (Q := fun x K' => x = (.next, [.ptr q.b q.o, .ptr eb eo, .int 0]) ∧ K' = KGet eb eo) ⟨rfl, rfl⟩ ?_))
  rintro _ _ ⟨rfl, rfl⟩
  refine ⟨rfl, wp_seq (wp_mono (Q := fun x K' => (x = (.next, [.ptr q.b q.o, .ptr eb eo, .int 1]) ∧ K' = KGot (.int 1) .null) ∨
    ∃ y, x = (.next, [.ptr q.b q.o, .ptr eb eo, .int 0]) ∧ K' = KGot (.int 0) y) (wp_ite (wp_mono (Q := fun x K' =>
      (x = (true, [.ptr q.b q.o, .ptr eb eo, .int 0]) ∧ K' = KEmpty eb eo) ∨
      (x = (false, [.ptr q.b q.o, .ptr eb eo, .int 0]) ∧ K' = KSome eb eo)) ?_ ?_)) ?_)⟩
  · -- the comparison, in either order
    simp [evalA, evalCondA, bind_eq, wp_bind_iff, wp_done, wp_both, Locals.get, CVal.use, lift_ok]
    constructor
    · refine rd_head_learn (L' := KHead q eb eo) g (fun a => KHead.stable) (fun σ h => ⟨h, rfl⟩) fun a ha _ => ?_
      refine rd_tail_get g ?_ ?_
      · rw [cmp _ _ ha ha, wp_done, truth]
        simp [wp_done]
      · intro t ht hne
        rw [cmp _ _ ha ht, wp_done, truth]
        simp [wp_done, Ne.symm hne]
    · refine rd_tail_get_first g ?_ ?_
      · intro t ht
        refine rd_head_learn (L' := fun _ => KEmpty eb eo) g (fun a => KEmpty.stable) (fun σ h => h.1) fun a ha h => ?_
        obtain ⟨σ, h1, rfl⟩ := h
        rw [cmp _ _ ha ht, wp_done, truth]
        simp [wp_done, h1.2]
      · intro t ht
        refine rd_head_learn (L' := fun _ => KSome eb eo) g (fun a => KSome.stable) (fun σ h => h.1) fun a ha h => ?_
        obtain ⟨σ, h1, rfl⟩ := h
        rw [cmp _ _ ha ht, wp_done, truth]
        simp [wp_done, h1.2]
  · rintro _ _ (⟨rfl, rfl⟩ | ⟨rfl, rfl⟩)
    · refine ⟨fun _ => ?_, by simp⟩
      simp [execA, evalA, bind_eq, wp_bind_iff, wp_done, wp_both, Locals.get, CVal.use, lift_ok]
      exact wr_null rfl
    · refine ⟨by simp, fun _ => wp_seq (wp_mono (Q := fun x K' => ∃ y, x = (.next, [.ptr q.b q.o, .ptr eb eo, .int 0]) ∧
        K' = KVar eb eo y) ?_ ?_)⟩
      · simp [execA, evalA, bind_eq, wp_bind_iff, wp_done, wp_both, Locals.get, CVal.use, lift_ok]
        have item : ∀ a < q.N, (op A (.padd 1) (.ptr q.sb q.so) (.int (a : Nat))).wp (rgC q) (KSomeAt q eb eo a) fun p K' =>
            (load p).wp (rgC q) K' fun x K' => (store (.ptr eb eo) x).wp (rgC q) K' fun _ K' => ∃ y, K' = KVar eb eo y := by
          intro a ha
          refine rd_slot hP guarC ha KSomeAt.stable (rd_item fun x _ => wr_var ⟨x, rfl⟩)
        constructor
        · refine rd_store hP guarC KSome.stable ?_
          refine rd_head_learn (L' := KSomeAt q eb eo) g (fun a => KSomeAt.stable) (fun σ h => ⟨h, rfl⟩) fun a ha _ => item a ha
        · refine rd_head_learn (L' := KSomeAt q eb eo) g (fun a => KSomeAt.stable) (fun σ h => ⟨h, rfl⟩) fun a ha _ => ?_
          exact rd_store hP guarC KSomeAt.stable (item a ha)
      · rintro _ _ ⟨y, rfl, rfl⟩
        refine ⟨rfl, ?_⟩
        simp [execA, evalA, bind_eq, wp_bind_iff, wp_done, wp_both, Locals.get, CVal.use, lift_ok]
        constructor
        · refine rd_head_learn (L' := KVarAt q eb eo y) g (fun a => KVarAt.stable) (fun σ h => ⟨h, rfl⟩) fun a ha _ => ?_
          rw [next a ha, wp_done]
          refine rd_mask hP guarC KVarAt.stable ?_
          rw [mask a ha, wp_done, cast, lift_ok]
          exact wr_head g fun _ => ⟨y, rfl⟩
        · refine rd_mask hP guarC KVar.stable ?_
          refine rd_head_learn (L' := KVarAt q eb eo y) g (fun a => KVarAt.stable) (fun σ h => ⟨h, rfl⟩) fun a ha _ => ?_
          rw [next a ha, wp_done, mask a ha, wp_done, cast, lift_ok]
          exact wr_head g fun _ => ⟨y, rfl⟩
  · rintro _ _ (⟨rfl, rfl⟩ | ⟨y, rfl, rfl⟩)
    · exact ⟨rfl, .inr rfl, fun σ h => by rw [h.2]; exact h.1⟩
    · exact ⟨rfl, .inl rfl, fun σ h => by rw [h.2]; exact h.1⟩

theorem get_wp (g : q.Ok) (n : Nat) :
    (semA A Y prog (n + 1) .mu_spsc_get [.ptr q.b q.o, .ptr eb eo]).wp (rgC q) (KGet eb eo)
      fun r K => ∀ σ, K σ → σ.obj.c = .done ⟨r, some σ.w⟩ := wp_mono (get_wp' g n) fun _ _ h => h.2

end Mu.CS.Conc
