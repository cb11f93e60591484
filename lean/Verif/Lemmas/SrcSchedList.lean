import Verif.Lemmas.SrcSchedSpec

/-! # mu_sched.c from the parsed source: the agenda and the lists of the model -/

namespace Mu.CS

open Mu.Sched (Sched Entry Cfg LSt)

variable {A : Arch} {X : Ext} {prec : CVal → CVal → Bool} {off : CVal → CVal → CVal} {σ : Agenda}

/-- The error codes of the model. -/
def SErr.model : SErr → Mu.Sched.Err
  | .none => .none
  | .full => .full
  | .notFound => .notFound

@[simp] theorem SErr.val_model (e : SErr) : schedErr e.model = e.val := by cases e <;> rfl

theorem num_schedule (σ : Agenda) (t : CVal) :
    Mu.Sched.limmed (schedCfg A prec off) σ.num (enc t) = ((σ.schedule t).1.model, (σ.schedule t).2.num) := by
  by_cases hc : σ.immed.length < 20 <;> simp [Mu.Sched.limmed, Agenda.schedule, schedCfg, Agenda.num, hc, SErr.model]

theorem num_interrupt (σ : Agenda) (t : CVal) :
    Mu.Sched.lisr (schedCfg A prec off) σ.num (enc t) = ((σ.interrupt t).1.model, (σ.interrupt t).2.num) := by
  by_cases hc : σ.irq.length < 7 <;> simp [Mu.Sched.lisr, Agenda.interrupt, schedCfg, Agenda.num, hc, SErr.model]

theorem num_insert (d : Due) (l : List Due) :
    Mu.Sched.ins (schedCfg A prec off) d.num (l.map Due.num) = (insertDue prec d l).map Due.num := by
  induction l with
  | nil => rfl
  | cons x l ih =>
    simp only [List.map_cons, Mu.Sched.ins, insertDue]
    rw [ih]
    have e : (schedCfg A prec off).precedes d.num.time x.num.time = prec d.time x.time := rfl
    rw [e]
    split <;> simp

theorem num_defer (σ : Agenda) (t time : CVal) :
    Mu.Sched.ldefer (schedCfg A prec off) σ.num (enc t) time =
      ((σ.defer prec t time).1.model, (σ.defer prec t time).2.num) := by
  have e := num_insert (A := A) (prec := prec) (off := off) ⟨time, t⟩ σ.due
  simp only [Due.num] at e
  by_cases hc : σ.due.length < 20
  · simp only [Mu.Sched.ldefer, Agenda.defer, Agenda.num, List.length_map, hc, if_true, schedCfg]
    simp only [SErr.model, Prod.mk.injEq, LSt.mk.injEq, true_and, and_true]
    exact e
  · simp [Mu.Sched.ldefer, Agenda.defer, schedCfg, Agenda.num, hc, SErr.model]

theorem num_cancel (σ : Agenda) (t : CVal) :
    Mu.Sched.lremove σ.num (enc t) = ((σ.cancel t).1.model, (σ.cancel t).2.num) := by
  have e : (∃ d ∈ σ.num.dq, d.task = enc t) ↔ ∃ d ∈ σ.due, d.task = t := by
    simp only [Agenda.num, List.mem_map]
    constructor
    · rintro ⟨_, ⟨d, hd, rfl⟩, h2⟩
      exact ⟨d, hd, enc_inj.mp h2⟩
    · rintro ⟨d, hd, rfl⟩
      exact ⟨_, ⟨d, hd, rfl⟩, rfl⟩
  have e2 : σ.num.dq.filter (fun d => d.task ≠ enc t) = (σ.due.filter (fun d => d.task ≠ t)).map Due.num := by
    simp only [Agenda.num, List.filter_map]
    congr 1
    apply List.filter_congr
    intro d _
    simp [Function.comp, Due.num, enc_inj]
  unfold Mu.Sched.lremove Agenda.cancel
  rw [e2]
  simp only [e]
  refine Prod.ext ?_ rfl
  dsimp only
  split <;> rfl

theorem num_reset (σ : Agenda) : Mu.Sched.lreset σ.num = σ.reset.num := by
  simp [Mu.Sched.lreset, Agenda.reset, Agenda.num, NULL]

theorem num_next (σ : Agenda) : Mu.Sched.lnext σ.num = enc σ.next := by
  unfold Mu.Sched.lnext Agenda.next Agenda.num
  cases σ.due <;> simp [Due.num, NULL]

theorem num_irq (now : CVal) {t l} (hi : σ.irq = t :: l) :
    (Mu.Sched.lselect (schedCfg A prec off) now σ.num).2 = ({ σ with irq := l, cur := t } : Agenda).num := by
  simp [Mu.Sched.lselect, Agenda.num, hi]

theorem num_choose (now : CVal) (hi : σ.irq = []) :
    (Mu.Sched.lselect (schedCfg A prec off) now σ.num).2 = (σ.choose prec now).num := by
  have en : ∀ t : CVal, enc t = NULL ↔ t = .null := by
    intro t
    rw [show NULL = enc .null by simp [NULL], enc_inj]
  unfold Mu.Sched.lselect Agenda.choose Agenda.num
  simp only [hi, List.map_nil]
  cases hd : σ.due with
  | nil =>
    simp only [Mu.Sched.lfetch, List.map_nil, ne_eq, not_true, if_false]
    cases hm : σ.immed <;> simp [Agenda.queued, hm, hi, hd]
  | cons d l =>
    simp only [Mu.Sched.lfetch, List.map_cons]
    have e : (schedCfg A prec off).precedes now d.num.time = prec now d.time := rfl
    simp only [e]
    by_cases hp : prec now d.time = true
    · simp only [hp, Bool.true_eq_false, if_false, ne_eq, not_true, if_true]
      cases hm : σ.immed <;> simp [Agenda.queued, hm, hi, hd]
    · have hp' : prec now d.time = false := by simpa using hp
      simp only [hp', if_true, Bool.false_eq_true, if_false]
      by_cases ht : d.task = .null
      · have : d.num.task = NULL := (en _).mpr ht
        simp only [this, ne_eq, not_true, if_false, ht, if_true]
        cases hm : σ.immed <;> simp [Agenda.queued, hm, hi]
      · have : ¬ d.num.task = NULL := fun hx => ht ((en _).mp hx)
        simp only [this, ne_eq, not_false_iff, if_true, ht, if_false]
        simp [hi, Due.num]

end Mu.CS
