import Verif.Lemmas.SrcSpscHist
import Verif.Lemmas.SrcQueueHist
import Verif.Lemmas.SrcTask
import Verif.Lemmas.SrcArray
import Verif.Lemmas.SchedProps

/-! # mu_sched.c from the parsed source: the state of the model in memory -/

namespace Mu.CS

open Mu.Sched (Sched Entry Cfg)

variable {A : Arch} {X : Ext}

/-- The cells of an array of deferred tasks. -/
noncomputable def flat (l : List (Entry CVal)) : List CVal := l.flatMap (fun e => [e.time, code e.task])

/-- The number of a value that is not indeterminate. -/
def Good (x : Val) : Prop := enc (code x) = x ∧ code x ≠ .undef

theorem Good.enc {v : CVal} (hv : v ≠ .undef) : Good (enc v) := by simp [Good, hv]

theorem Good.null : Good NULL := by simp [Good, NULL]

theorem Good.eq {x : Val} (g : Good x) {v : CVal} : x = CS.enc v ↔ code x = v := by
  constructor
  · rintro rfl; simp
  · rintro rfl; exact g.1.symm

theorem Good.ne_null {x : Val} (g : Good x) : x = NULL ↔ code x = .null := by
  have := g.eq (v := .null)
  simpa [NULL] using this

/-- The variables of mu_sched.c hold the state `s` of the model. -/
structure SchedRep (A : Arch) (h : Heap) (s : Sched CVal) : Prop where
  irq : SRep h (.glob .s_sched) 0 (.glob .s_irq_store) 0 s.irq
  immed : QRep A h (.glob .s_sched) 4 (.glob .s_immed_store) 0 s.immed
  cnt : h.at (.glob .s_sched) 8 = some (.int s.count)
  curr : h.at (.glob .s_sched) 9 = some (code s.curr)
  idle : h.at (.glob .s_sched) 10 = some (code s.idle)
  arr : h.cells (.glob .s_deferred_tasks) = flat s.deferred
  irqLen : s.irq.store.length = 8
  immedLen : s.immed.storage.length = 20
  irqDef : ∀ x ∈ s.irq.store, Good x
  immedDef : ∀ x ∈ s.immed.storage, Good x
  defDef : ∀ e ∈ s.deferred, e.time ≠ .undef ∧ Good e.task
  currDef : Good s.curr
  idleDef : Good s.idle
  len : s.deferred.length = 20

/-- The variables of mu_sched.c. -/
def schedOwn (b : Base) (_ : Int) : Prop :=
  b = .glob .s_sched ∨ b = .glob .s_irq_store ∨ b = .glob .s_immed_store ∨ b = .glob .s_deferred_tasks

theorem Heap.Only.cells_eq {W : Base → Int → Prop} {h h' : Heap} (e : Heap.Only W h h') {b : Base}
    (hb : ∀ o, ¬ W b o) : h'.cells b = h.cells b := by
  refine List.ext_getElem? fun i => ?_
  have := e.cell b i (hb i)
  simpa [Heap.at] using this

theorem SRep.only {h h' : Heap} {b o sb so m} (q : SRep h b o sb so m) {W : Base → Int → Prop} (e : Heap.Only W h h')
    (hw : ∀ b' o', W b' o' → ¬ SCells b o sb so m.store.length b' o') : SRep h' b o sb so m := by
  have k : ∀ j : Int, 0 ≤ j → j < 4 → h'.at b (o + j) = h.at b (o + j) := fun j h0 h1 =>
    e.cell _ _ (fun hx => hw _ _ hx (Or.inl ⟨rfl, by omega, by omega⟩))
  have k0 := k 0 (by omega) (by omega)
  rw [Int.add_zero] at k0
  refine ⟨q.wr, q.swr, k0.trans q.mask, (k 1 (by omega) (by omega)).trans q.head,
    (k 2 (by omega) (by omega)).trans q.tail, (k 3 (by omega) (by omega)).trans q.store, ?_, q.sep,
    q.maskLt, q.headLt, q.tailLt⟩
  intro i w hw'
  have hl := (List.getElem?_eq_some_iff.mp hw').1
  rw [e.cell _ _ (fun hx => hw _ _ hx (Or.inr ⟨rfl, by omega, by omega⟩))]
  exact q.items i w hw'

theorem QRep.only {h h' : Heap} {b o sb so m} (q : QRep A h b o sb so m) {W : Base → Int → Prop} (e : Heap.Only W h h')
    (hw : ∀ b' o', W b' o' → ¬ QCells b o sb so m.storage.length b' o') : QRep A h' b o sb so m := by
  have k : ∀ j : Int, 0 ≤ j → j < 4 → h'.at b (o + j) = h.at b (o + j) := fun j h0 h1 =>
    e.cell _ _ (fun hx => hw _ _ hx (Or.inl ⟨rfl, by omega, by omega⟩))
  have k0 := k 0 (by omega) (by omega)
  rw [Int.add_zero] at k0
  refine ⟨q.wr, q.swr, k0.trans q.storage, (k 1 (by omega) (by omega)).trans q.cap,
    (k 2 (by omega) (by omega)).trans q.cnt, (k 3 (by omega) (by omega)).trans q.idx, ?_, q.sep,
    q.capLt, q.cntLt, q.idxLt⟩
  intro i w hw'
  have hl := (List.getElem?_eq_some_iff.mp hw').1
  rw [e.cell _ _ (fun hx => hw _ _ hx (Or.inr ⟨rfl, by omega, by omega⟩))]
  exact q.items i w hw'

section
variable {h h' : Heap} {s : Sched CVal}

/-- Changes elsewhere keep the scheduler. -/
theorem SchedRep.frame (r : SchedRep A h s) (e : Heap.Only (fun b o => ¬ schedOwn b o) h h') : SchedRep A h' s := by
  have k : ∀ o, h'.at (.glob .s_sched) o = h.at (.glob .s_sched) o := fun o =>
    e.cell _ _ (fun hx => hx (Or.inl rfl))
  refine ⟨r.irq.only e ?_, r.immed.only e ?_, (k 8).trans r.cnt, (k 9).trans r.curr, (k 10).trans r.idle,
    (e.cells_eq (fun o hx => hx (by simp [schedOwn]))).trans r.arr, r.irqLen, r.immedLen, r.irqDef, r.immedDef, r.defDef,
    r.currDef, r.idleDef, r.len⟩
  · rintro b' o' hx (hc | hc) <;> exact hx (by simp [schedOwn, hc.1])
  · rintro b' o' hx (hc | hc) <;> exact hx (by simp [schedOwn, hc.1])

/-- The members of the scheduler that are not part of a queue may change. -/
theorem SchedRep.setCurr (r : SchedRep A h s) {v : CVal} (hv : v ≠ .undef) :
    SchedRep A (h.upd (.glob .s_sched) 9 v) { s with curr := enc v } := by
  refine ⟨r.irq.upd_other ?_, r.immed.upd_other ?_, ?_, ?_, ?_, ?_, r.irqLen, r.immedLen, r.irqDef, r.immedDef,
    r.defDef, Good.enc hv, r.idleDef, r.len⟩
  · rintro (hc | hc)
    · omega
    · simp at hc
  · rintro (hc | hc)
    · omega
    · simp at hc
  · simp [csrc, r.cnt]
  · rw [Heap.at_upd_same rfl (by rw [r.curr]; rfl)]; simp
  · simp [csrc, r.idle]
  · refine Eq.trans ?_ r.arr
    simp [Heap.upd, Heap.cells, Heap.put]

theorem SchedRep.setIdle (r : SchedRep A h s) {v : CVal} (hv : v ≠ .undef) :
    SchedRep A (h.upd (.glob .s_sched) 10 v) { s with idle := enc v } := by
  refine ⟨r.irq.upd_other ?_, r.immed.upd_other ?_, ?_, ?_, ?_, ?_, r.irqLen, r.immedLen, r.irqDef, r.immedDef,
    r.defDef, r.currDef, Good.enc hv, r.len⟩
  · rintro (hc | hc)
    · omega
    · simp at hc
  · rintro (hc | hc)
    · omega
    · simp at hc
  · simp [csrc, r.cnt]
  · simp [csrc, r.curr]
  · rw [Heap.at_upd_same rfl (by rw [r.idle]; rfl)]; simp
  · refine Eq.trans ?_ r.arr
    simp [Heap.upd, Heap.cells, Heap.put]

theorem SchedRep.setCount (r : SchedRep A h s) (c : Nat) :
    SchedRep A (h.upd (.glob .s_sched) 8 (.int c)) { s with count := c } := by
  refine ⟨r.irq.upd_other ?_, r.immed.upd_other ?_, ?_, ?_, ?_, ?_, r.irqLen, r.immedLen, r.irqDef, r.immedDef,
    r.defDef, r.currDef, r.idleDef, r.len⟩
  · rintro (hc | hc)
    · omega
    · simp at hc
  · rintro (hc | hc)
    · omega
    · simp at hc
  · rw [Heap.at_upd_same rfl (by rw [r.cnt]; rfl)]
  · simp [csrc, r.curr]
  · simp [csrc, r.idle]
  · refine Eq.trans ?_ r.arr
    simp [Heap.upd, Heap.cells, Heap.put]

/-- Another immediate queue. -/
theorem SchedRep.setImmed (r : SchedRep A h s) {W : Base → Int → Prop} (e : Heap.Only W h h')
    (hw : ∀ b o, W b o → QCells (.glob .s_sched) 4 (.glob .s_immed_store) 0 s.immed.storage.length b o) {m : Queue.Queue}
    (q : QRep A h' (.glob .s_sched) 4 (.glob .s_immed_store) 0 m) (hl : m.storage.length = 20)
    (hd : ∀ x ∈ m.storage, Good x) : SchedRep A h' { s with immed := m } := by
  have k : ∀ o, 8 ≤ o → h'.at (.glob .s_sched) o = h.at (.glob .s_sched) o := fun o ho =>
    e.cell _ _ (fun hx => by rcases hw _ _ hx with hc | hc <;> simp at hc; omega)
  refine ⟨r.irq.only e ?_, q, (k 8 (by omega)).trans r.cnt, (k 9 (by omega)).trans r.curr, (k 10 (by omega)).trans r.idle,
    (e.cells_eq (fun o hx => by rcases hw _ _ hx with hc | hc <;> simp at hc)).trans r.arr, r.irqLen, hl, r.irqDef, hd,
    r.defDef, r.currDef, r.idleDef, r.len⟩
  rintro b' o' hx (hc | hc) <;> rcases hw _ _ hx with hd | hd
  · omega
  · simp [hc.1] at hd
  · simp [hc.1] at hd
  · simp [hc.1] at hd

/-- Another interrupt queue. -/
theorem SchedRep.setIrq (r : SchedRep A h s) {W : Base → Int → Prop} (e : Heap.Only W h h')
    (hw : ∀ b o, W b o → SCells (.glob .s_sched) 0 (.glob .s_irq_store) 0 s.irq.store.length b o) {m : Spsc.Spsc}
    (q : SRep h' (.glob .s_sched) 0 (.glob .s_irq_store) 0 m) (hl : m.store.length = 8)
    (hd : ∀ x ∈ m.store, Good x) : SchedRep A h' { s with irq := m } := by
  have k : ∀ o, 8 ≤ o → h'.at (.glob .s_sched) o = h.at (.glob .s_sched) o := fun o ho =>
    e.cell _ _ (fun hx => by rcases hw _ _ hx with hc | hc <;> simp at hc; omega)
  refine ⟨q, r.immed.only e ?_, (k 8 (by omega)).trans r.cnt, (k 9 (by omega)).trans r.curr, (k 10 (by omega)).trans r.idle,
    (e.cells_eq (fun o hx => by rcases hw _ _ hx with hc | hc <;> simp at hc)).trans r.arr, hl, r.immedLen, hd, r.immedDef,
    r.defDef, r.currDef, r.idleDef, r.len⟩
  rintro b' o' hx (hc | hc) <;> rcases hw _ _ hx with hd | hd
  · omega
  · simp [hc.1] at hd
  · simp [hc.1] at hd
  · simp [hc.1] at hd

end
end Mu.CS
