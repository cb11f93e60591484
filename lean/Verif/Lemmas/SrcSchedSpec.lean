import Verif.Lemmas.SrcSchedStep

/-! # mu_sched.c from the parsed source: memory and the agenda -/

namespace Mu.CS

open Mu.Sched (Sched Entry Cfg LSt)

variable {A : Arch} {X : Ext} {prec : CVal → CVal → Bool} {off : CVal → CVal → CVal}

/-- The agenda with the numbers of the tasks. -/
noncomputable def Due.num (d : Due) : Entry CVal := ⟨d.time, enc d.task⟩

noncomputable def Agenda.num (σ : Agenda) : LSt CVal :=
  ⟨σ.irq.map enc, σ.due.map Due.num, σ.immed.map enc, enc σ.cur, enc σ.idle⟩

theorem schedCfg_wf (A : Arch) : (schedCfg A prec off).Wf := by
  have := szMod_ge A.toPlat
  have := A.toPlat.intMax_ge
  exact ⟨⟨3, by decide, rfl⟩, by simp only [schedCfg]; omega, by simp only [schedCfg]; omega⟩

section
variable {h h' : Heap} {σ σ' : Agenda} {hd ix : Nat}

theorem Heap.at_nat (h : Heap) (b : Base) (i : Nat) : h.at b (i : Int) = (h.cells b)[i]? := by
  rw [Heap.at_eq _ _ (by omega)]; rfl

/-- Memory with an agenda holds a state of the model. -/
theorem Heap.Scheduler.model (q : h.Scheduler hd ix σ) :
    ∃ s, SchedRep A h s ∧ Mu.Sched.Rep (schedCfg A prec off) s σ.num ∧ s.count ≤ 20 := by
  have h16 := szMod_ge A.toPlat
  have hv := q.vars
  obtain ⟨d, k1, k2, k3⟩ := exists_flat 20 (h.cells (.glob .s_deferred_tasks)) hv.deferred (hv.defd _ (by simp [SchedVar]))
  have gcur : Good (enc σ.cur) := Good.enc (hv.defd _ (Or.inl rfl) _ (by
    have := q.cur
    rw [show (9 : Int) = ((9 : Nat) : Int) from rfl, Heap.at_nat] at this
    exact List.mem_of_getElem? this))
  have gidle : Good (enc σ.idle) := Good.enc (hv.defd _ (Or.inl rfl) _ (by
    have := q.idle
    rw [show (10 : Int) = ((10 : Nat) : Int) from rfl, Heap.at_nat] at this
    exact List.mem_of_getElem? this))
  refine ⟨⟨⟨7, hd, (hd + σ.irq.length) % 8, (h.cells (.glob .s_irq_store)).map enc⟩,
    ⟨(h.cells (.glob .s_immed_store)).map enc, 20, σ.immed.length, ix⟩, d, σ.due.length, enc σ.cur, enc σ.idle⟩,
    ⟨⟨rfl, rfl, ?_, q.head, q.tail, q.irqStore, ?_, ?_, by simp, ?_, ?_⟩,
      ⟨rfl, rfl, q.immedStore, q.immedCap, q.immedCnt, q.immedIdx, ?_, ?_, ?_, ?_, ?_⟩, q.cnt, by simpa using q.cur,
      by simpa using q.idle, k2, by simpa using hv.irq, by simpa using hv.immed, ?_, ?_, k3, gcur, gidle, k1⟩,
    ⟨⟨hd, ⟨⟨by simp [schedCfg], ⟨3, rfl⟩, rfl, by simp [schedCfg, hv.irq]⟩, ?_, ?_, ?_, ?_⟩⟩,
      ⟨?_, ?_, ?_, ?_, ?_⟩, rfl, ?_, ?_, k1, ?_, rfl, rfl⟩, q.dueLe⟩
  · simpa using q.mask
  · intro i v hi
    rw [List.getElem?_map, Option.map_eq_some_iff] at hi
    obtain ⟨w, hw, rfl⟩ := hi
    rw [Int.zero_add, Heap.at_nat, hw, code_enc]
  · intro i _ k _ hx; simp at hx
  · have := q.hdLt; show hd < 32768; omega
  · show (hd + σ.irq.length) % 8 < 32768; omega
  · intro i v hi
    rw [List.getElem?_map, Option.map_eq_some_iff] at hi
    obtain ⟨w, hw, rfl⟩ := hi
    rw [Int.zero_add, Heap.at_nat, hw, code_enc]
  · intro i _ k _ hx; simp at hx
  · show 20 < A.szMod; omega
  · have := q.immedLe; show σ.immed.length < A.szMod; omega
  · have := q.ixLt; show ix < A.szMod; omega
  · intro x hx
    obtain ⟨w, hw, rfl⟩ := List.mem_map.mp hx
    exact Good.enc (hv.defd _ (by simp [SchedVar]) w hw)
  · intro x hx
    obtain ⟨w, hw, rfl⟩ := List.mem_map.mp hx
    exact Good.enc (hv.defd _ (by simp [SchedVar]) w hw)
  · exact (Nat.mod_eq_of_lt q.hdLt).symm
  · simp [Agenda.num, schedCfg]
  · have := q.irqLe; simpa [Agenda.num, schedCfg] using this
  · intro i hi
    simp only [Agenda.num, List.length_map] at hi
    have := q.irqItems i _ (List.getElem?_eq_getElem hi)
    rw [Heap.at_nat] at this
    simp only [Agenda.num, schedCfg, List.getElem?_map, this, List.getElem?_eq_getElem hi]
  · simp [Agenda.num]
  · exact q.immedLe
  · simp [hv.immed]
  · exact Or.inl q.ixLt
  · intro i hi
    simp only at hi
    have := q.immedItems i _ (List.getElem?_eq_getElem hi)
    rw [Heap.at_nat] at this
    simp only [Agenda.num, List.getElem?_map, List.getElem?_eq_getElem hi]
    have hix := q.ixLt
    have hle := q.immedLe
    have e : (if ix + 20 - σ.immed.length + i < 20 then ix + 20 - σ.immed.length + i else ix + i - σ.immed.length) =
        (ix + 20 - σ.immed.length + i) % 20 := by
      split <;> omega
    rw [e, this]
  · simp [Agenda.num]
  · simpa [Agenda.num, schedCfg] using q.dueLe
  · simp only [Agenda.num]
    apply List.ext_getElem?
    intro i
    have hle := q.dueLe
    by_cases hi : i < σ.due.length
    · rw [List.getElem?_take, if_pos hi, List.getElem?_reverse (by simpa using hi)]
      simp only [List.length_map, List.getElem?_map]
      have hj : σ.due.length - 1 - i < σ.due.length := by omega
      obtain ⟨a1, a2⟩ := q.dueItems (σ.due.length - 1 - i) _ (List.getElem?_eq_getElem hj)
      rw [show σ.due.length - 1 - (σ.due.length - 1 - i) = i by omega] at a1 a2
      rw [Heap.at_nat, k2, flat_get0] at a1
      rw [Heap.at_nat, k2, flat_get1] at a2
      rw [List.getElem?_eq_getElem hj]
      obtain ⟨e, e1, e2⟩ := Option.map_eq_some_iff.mp a1
      rw [e1] at a2 ⊢
      simp only [Option.map_some, Option.some.injEq] at a2 ⊢
      have := (k3 e (List.mem_of_getElem? e1)).2.1
      rw [a2] at this
      simp only [Due.num, ← e2, this]
    · rw [List.getElem?_take, if_neg hi]
      symm
      apply List.getElem?_eq_none
      simp; omega

/-- The sizes of the variables. -/
def Heap.SchedSizes (h : Heap) : Prop :=
  (h.cells (.glob .s_sched)).length = 11 ∧ (h.cells (.glob .s_irq_store)).length = 8 ∧
  (h.cells (.glob .s_immed_store)).length = 20

theorem Heap.SchedVars.sizes (v : h.SchedVars) : h.SchedSizes := ⟨v.sched, v.irq, v.immed⟩

theorem Heap.SchedSizes.only {W : Base → Int → Prop} (v : h.SchedSizes) (e : Heap.Only W h h') : h'.SchedSizes := by
  obtain ⟨a, b, c⟩ := v
  exact ⟨(e.size _).trans a, (e.size _).trans b, (e.size _).trans c⟩

/-- A state of the model in memory is an agenda. -/
theorem Heap.Scheduler.of_model {s : Sched CVal} (sz : h.SchedSizes) (r : SchedRep A h s)
    (m : Mu.Sched.Rep (schedCfg A prec off) s σ.num) : ∃ hd ix, h.Scheduler hd ix σ := by
  obtain ⟨z1, z2, z3⟩ := sz
  obtain ⟨⟨d, m1⟩, m2, m3, m4, m5, m6, m7, m8, m9⟩ := m
  obtain ⟨w, w1, w2, w3, w4⟩ := m1
  have m2' : Ring s.immed.storage s.immed.capacity s.immed.count s.immed.index (σ.immed.map enc) := m2
  have wmask : s.irq.mask = 7 := w.mask
  simp only [schedCfg, Agenda.num, List.length_map] at w1 w2 w3 w4 m3 m4 m5 m6 m7 m8 m9
  obtain ⟨g1, g2, g3, g4, g5⟩ := m2'
  rw [List.length_map] at g1
  rw [m3] at g2 g3 g4 g5
  have c0 := r.irq.mask
  have c1 := r.irq.head
  have c2 := r.irq.tail
  have c3 := r.irq.store
  have c4 := r.immed.storage
  have c5 := r.immed.cap
  have c6 := r.immed.cnt
  have c7 := r.immed.idx
  have c8 := r.cnt
  have c9 := r.curr
  have c10 := r.idle
  have gc := r.currDef.2
  have gi := r.idleDef.2
  rw [m8, code_enc] at c9 gc
  rw [m9, code_enc] at c10 gi
  rw [wmask] at c0
  rw [m3] at c5
  rw [← g1] at c6
  rw [m4] at c8
  have it1 : ∀ i : Nat, i < 8 → ∃ x, s.irq.store[i]? = some x ∧ (h.cells (.glob .s_irq_store))[i]? = some (code x) := by
    intro i hi
    have hi' : i < s.irq.store.length := by rw [r.irqLen]; exact hi
    have := r.irq.items i _ (List.getElem?_eq_getElem hi')
    rw [Int.zero_add, Heap.at_nat] at this
    exact ⟨_, List.getElem?_eq_getElem hi', this⟩
  have it2 : ∀ i : Nat, i < 20 → ∃ x, s.immed.storage[i]? = some x ∧
      (h.cells (.glob .s_immed_store))[i]? = some (code x) := by
    intro i hi
    have hi' : i < s.immed.storage.length := by rw [r.immedLen]; exact hi
    have := r.immed.items i _ (List.getElem?_eq_getElem hi')
    rw [Int.zero_add, Heap.at_nat] at this
    exact ⟨_, List.getElem?_eq_getElem hi', this⟩
  have good : ∀ b, SchedVar b → ∀ v ∈ h.cells b, v ≠ .undef := by
    rintro b (rfl | rfl | rfl | rfl) v hv
    · obtain ⟨i, hi⟩ := List.mem_iff_getElem?.mp hv
      have hlt := (List.getElem?_eq_some_iff.mp hi).1
      rw [z1] at hlt
      rw [← Heap.at_nat] at hi
      have hi' : i = 0 ∨ i = 1 ∨ i = 2 ∨ i = 3 ∨ i = 4 ∨ i = 5 ∨ i = 6 ∨ i = 7 ∨ i = 8 ∨ i = 9 ∨ i = 10 := by omega
      rcases hi' with rfl | rfl | rfl | rfl | rfl | rfl | rfl | rfl | rfl | rfl | rfl
      · have := c0.symm.trans hi; injection this with this; simp [← this]
      · have := c1.symm.trans hi; injection this with this; simp [← this]
      · have := c2.symm.trans hi; injection this with this; simp [← this]
      · have := c3.symm.trans hi; injection this with this; simp [← this]
      · have := c4.symm.trans hi; injection this with this; simp [← this]
      · have := c5.symm.trans hi; injection this with this; simp [← this]
      · have := c6.symm.trans hi; injection this with this; simp [← this]
      · have := c7.symm.trans hi; injection this with this; simp [← this]
      · have := c8.symm.trans hi; injection this with this; simp [← this]
      · have := c9.symm.trans hi; injection this with this; rw [← this]; exact gc
      · have := c10.symm.trans hi; injection this with this; rw [← this]; exact gi
    · obtain ⟨i, hi⟩ := List.mem_iff_getElem?.mp hv
      have hlt := (List.getElem?_eq_some_iff.mp hi).1
      obtain ⟨x, x1, x2⟩ := it1 i (by omega)
      rw [x2] at hi
      injection hi with hi
      rw [← hi]
      exact (r.irqDef x (List.mem_of_getElem? x1)).2
    · obtain ⟨i, hi⟩ := List.mem_iff_getElem?.mp hv
      have hlt := (List.getElem?_eq_some_iff.mp hi).1
      obtain ⟨x, x1, x2⟩ := it2 i (by omega)
      rw [x2] at hi
      injection hi with hi
      rw [← hi]
      exact (r.immedDef x (List.mem_of_getElem? x1)).2
    · rw [r.arr] at hv
      obtain ⟨e, he, hv⟩ := List.mem_flatMap.mp hv
      have := r.defDef e he
      simp only [List.mem_cons, List.not_mem_nil, or_false] at hv
      rcases hv with rfl | rfl
      · exact this.1
      · exact this.2.2
  have hh : s.irq.head < 8 := by omega
  refine ⟨s.irq.head, s.immed.index, ⟨z1, z2, z3, r.size, good⟩, c0, c1, ?_, c3, c4, c5, c6, c7, c8, c9, c10,
    hh, by omega, w3, by omega, m5, ?_, ?_, ?_⟩
  · refine c2.trans ?_
    rw [w2, w1]
    congr 3
    omega
  · intro i v hi
    have hl := (List.getElem?_eq_some_iff.mp hi).1
    have := w4 i hl
    rw [Heap.at_nat]
    have e : (s.irq.head + i) % 8 = (d + i) % 8 := by omega
    rw [e]
    obtain ⟨x, x1, x2⟩ := it1 ((d + i) % 8) (by omega)
    rw [x1, List.getElem?_map, hi] at this
    simp only [Option.map_some, Option.some.injEq] at this
    rw [x2, this, code_enc]
  · intro i v hi
    have hl := (List.getElem?_eq_some_iff.mp hi).1
    have := g5 i (by omega)
    rw [Heap.at_nat]
    have e : (if s.immed.index + 20 - s.immed.count + i < 20 then s.immed.index + 20 - s.immed.count + i
        else s.immed.index + i - s.immed.count) = (s.immed.index + 20 - σ.immed.length + i) % 20 := by
      split <;> omega
    rw [e] at this
    obtain ⟨x, x1, x2⟩ := it2 ((s.immed.index + 20 - σ.immed.length + i) % 20) (by omega)
    rw [x1, List.getElem?_map, hi] at this
    simp only [Option.map_some, Option.some.injEq] at this
    rw [x2, this, code_enc]
  · intro i dd hi
    have hl := (List.getElem?_eq_some_iff.mp hi).1
    have e : s.deferred[σ.due.length - 1 - i]? = some dd.num := by
      have := congrArg (fun l => l[σ.due.length - 1 - i]?) m7
      rw [List.getElem?_take, if_pos (by omega), List.getElem?_reverse (by simp; omega)] at this
      rw [this]
      simp only [List.length_map, List.getElem?_map]
      rw [show σ.due.length - 1 - (σ.due.length - 1 - i) = i by omega, hi]
      rfl
    obtain ⟨l1, l2, -, -⟩ := r.ld e
    refine ⟨?_, ?_⟩
    · have e : ((2 * (σ.due.length - 1 - i) : Nat) : Int) = 2 * ((σ.due.length - 1 - i : Nat) : Int) := by omega
      rw [e]; exact l1
    · have e : ((2 * (σ.due.length - 1 - i) + 1 : Nat) : Int) = 2 * ((σ.due.length - 1 - i : Nat) : Int) + 1 := by omega
      rw [e, l2]
      simp [Due.num]

end
end Mu.CS
