import Verif.Lemmas.SchedIsr
import Verif.Spec.Preempt

/-! # Foreground and interrupts interleaved: the simulation -/

namespace Mu.Sched.Smp
open Mu.Sched.Spec Mu.Sched.Isr

variable {T R : Type} [DecidableEq T] {cfg : Cfg T R}

/-! ## Traces of the atomic scheduler -/

theorem visible_append (a b : List (LEv T)) : visible (a ++ b) = visible a ++ visible b := by
  induction a with
  | nil => rfl
  | cons e a ih => cases e <;> simp [visible, ih]

theorem runs_append (a b : List (LEv T)) : ∀ {P P' P'' : PSt T} {h h' : List (Ev T)},
    runs P a = some (P', h) → runs P' b = some (P'', h') → runs P (a ++ b) = some (P'', h ++ h') := by
  induction a with
  | nil => intro P P' P'' h h' h1 h2; cases h1; simpa using h2
  | cons e a ih =>
    intro P P' P'' h h' h1 h2
    simp only [List.cons_append, runs] at h1 ⊢
    cases he : atomic P e with
    | none => rw [he] at h1; cases h1
    | some x =>
      rw [he] at h1
      simp only at h1 ⊢
      cases hr : runs x.1 a with
      | none => rw [hr] at h1; cases h1
      | some y =>
        rw [hr] at h1
        cases h1
        rw [ih hr h2]
        simp

theorem Looks.append {log l2 : List (Obs T)} {h h2 : List (Ev T)} {P P2 : PSt T}
    (hl : Looks log h P) (w : List (LEv T)) (hv : visible w = l2)
    (hr : runs P w = some (P2, h2)) : Looks (log ++ l2) (h ++ h2) P2 := by
  obtain ⟨w0, e1, e2⟩ := hl
  exact ⟨w0 ++ w, by rw [visible_append, e1, hv], runs_append _ _ e2 hr⟩

/-- Events that other functions than `mu_sched_step` produce. -/
def plain : Ev T → Prop
  | .stepEnter | .called _ | .stepRet => False
  | _ => True

theorem runs_plain {P : PSt T} (hP : P.main = .running) (evs : List (Ev T))
    (h : ∀ e ∈ evs, plain e) : runs P (evs.map fun e => .vis (.main e)) = some (P, evs) := by
  induction evs with
  | nil => rfl
  | cons e evs ih =>
    have h1 := h e (by simp)
    have h2 := ih fun e he => h e (List.mem_cons_of_mem _ he)
    have h3 : atomic P (.vis (.main e)) = some (P, [e]) := by
      cases e <;> simp_all [atomic, plain]
    simp only [List.map_cons, runs, h3, h2, List.singleton_append]

theorem visible_plain (evs : List (Ev T)) :
    visible (evs.map fun e => .vis (.main e)) = evs.map .main := by
  induction evs with
  | nil => rfl
  | cons e evs ih => simp [visible, ih]

/-! ## Single calls -/

theorem split_plain {p op next : Prog T R} (h : split p = some (op, next)) (L : LSt T) :
    ∀ e ∈ (lrun cfg L op).1, plain e := by
  cases p <;> simp only [split, reduceCtorEq, Option.some.injEq, Prod.mk.injEq] at h <;>
    obtain ⟨rfl, rfl⟩ := h <;> simp [lrun, plain]

theorem split_fg {p op next : Prog T R} (h : split p = some (op, next)) (hf : Foreground p) :
    Foreground next ∧ ∀ L : LSt T, (lrun cfg L op).2.irq = L.irq := by
  cases p <;> simp only [split, reduceCtorEq, Option.some.injEq, Prod.mk.injEq] at h <;>
    obtain ⟨rfl, rfl⟩ := h <;> simp only [Foreground] at hf <;>
    refine ⟨hf, fun L => ?_⟩ <;> simp only [lrun, limmed, ldefer, lremove] <;> (try split) <;> rfl

theorem immed_irq {s s' : Sched T} {t : Val} {e : Err} (h : immed cfg s t = .ok (e, s')) :
    s'.irq = s.irq := by
  unfold immed at h
  obtain ⟨⟨b, q⟩, e1, h⟩ := C.bind_eq_ok h
  simp only at h
  split at h <;> cases h <;> rfl

theorem defer_irq {s s' : Sched T} {t : Val} {time : T} {e : Err}
    (h : deferAux cfg s t time = .ok (e, s')) : s'.irq = s.irq := by
  unfold deferAux at h
  split at h
  · cases h; rfl
  · obtain ⟨i, e1, h⟩ := C.bind_eq_ok h
    simp only at h
    split at h <;>
    · obtain ⟨D, e2, h⟩ := C.bind_eq_ok h
      obtain ⟨D', e3, h⟩ := C.bind_eq_ok h
      cases h; rfl

theorem removeLoop_irq {t : Val} (n : Nat) : ∀ {s s' : Sched T} {e e' : Err},
    removeLoop cfg t n e s = .ok (e', s') → s'.irq = s.irq := by
  induction n with
  | zero => intro s s' e e' h; cases h; rfl
  | succ n ih =>
    intro s s' e e' h
    unfold removeLoop at h
    obtain ⟨d, e1, h⟩ := C.bind_eq_ok h
    simp only at h
    split at h
    · split at h <;>
      · obtain ⟨D, e2, h⟩ := C.bind_eq_ok h
        exact (ih h).trans rfl
    · exact ih h

theorem split_irq {p op next : Prog T R} (h : split p = some (op, next)) (hf : Foreground p)
    {s s' : Sched T} {evs : List (Ev T)} (hr : run cfg s op = .ok (evs, s')) : s'.irq = s.irq := by
  cases p <;> simp only [split, reduceCtorEq, Option.some.injEq, Prod.mk.injEq] at h <;>
    obtain ⟨rfl, rfl⟩ := h <;> simp only [Foreground] at hf
  case immed t p =>
    simp only [run] at hr
    obtain ⟨⟨e, s1⟩, e1, hr⟩ := C.bind_eq_ok hr
    cases hr; exact immed_irq e1
  case deferUntil =>
    simp only [run] at hr
    obtain ⟨⟨e, s1⟩, e1, hr⟩ := C.bind_eq_ok hr
    cases hr; exact defer_irq e1
  case deferFor =>
    simp only [run] at hr
    obtain ⟨⟨e, s1⟩, e1, hr⟩ := C.bind_eq_ok hr
    cases hr; exact defer_irq e1
  case remove =>
    simp only [run] at hr
    obtain ⟨⟨e, s1⟩, e1, hr⟩ := C.bind_eq_ok hr
    cases hr; exact removeLoop_irq _ e1
  case nextTask =>
    simp only [run] at hr
    obtain ⟨v, e1, hr⟩ := C.bind_eq_ok hr
    cases hr; rfl
  all_goals (cases hr; rfl)

theorem fetch_keeps (now : T) {s s' : Sched T} {t : Val} {evs : List (Ev T)}
    (h : fetch cfg now s = .ok (t, evs, s')) : s'.irq = s.irq := by
  unfold fetch at h
  split at h
  · cases hd : ldN s.deferred (cfg.P.szSub s.count 1) with
    | error e => rw [hd] at h; cases h
    | ok d =>
      rw [hd] at h
      simp only [C.ok_bind] at h
      split at h <;> cases h <;> rfl
  · cases h; rfl

/-! ## The choice as one instant -/

theorem lfetch_shape (now : T) (dq : List (Entry T)) :
    (lfetch cfg now dq).2.1 = [.clock now] ∧ (lfetch cfg now dq).1 = NULL ∨
    ∃ d, (lfetch cfg now dq).2.1 = [.clock now, .sel (.deferred d) (lfetch cfg now dq).1] := by
  unfold lfetch
  split
  · exact .inl ⟨rfl, rfl⟩
  · split
    · exact .inr ⟨_, rfl⟩
    · exact .inl ⟨rfl, rfl⟩

theorem lselect_chosen (now : T) (L : LSt T) :
    chosenBy (lselect cfg now L).1 = some (lselect cfg now L).2.curr ∧
    clockOf (lselect cfg now L).1 = if L.irq = [] then some now else none := by
  unfold lselect
  cases hi : L.irq with
  | cons t r => simp [chosenBy, clockOf]
  | nil =>
    simp only [if_true]
    rcases lfetch_shape (cfg := cfg) now L.dq with ⟨e1, e2⟩ | ⟨d, e1⟩
    · simp only [e1, e2, ne_eq, not_true_eq_false, if_false]
      cases L.immed <;> simp [chosenBy, clockOf]
    · simp only [e1]
      by_cases hn : (lfetch cfg now L.dq).1 = NULL
      · simp only [hn, ne_eq, not_true_eq_false, if_false]
        cases L.immed <;> simp [chosenBy, clockOf]
      · simp only [ne_eq, hn, not_false_eq_true, if_true]
        simp [chosenBy, clockOf]

/-- The step in progress has called `t`, or it is over if `t` is NULL. -/
def stepsAfter (t : Val) (steps : List Phase) : List Phase :=
  if t = NULL then steps else .running t :: steps

theorem choose_ok (hw : cfg.Wf) {sA : Sched T} {h : List (Ev T)} {L : LSt T}
    (hr : Reach cfg sA h) (hi : Inv cfg sA h L) (now : T) :
    ∃ blk sA', blk = .stepEnter :: (lselect cfg now L).1 ++
        (if (lselect cfg now L).2.curr = NULL then [.stepRet] else [.called (lselect cfg now L).2.curr]) ∧
      Reach cfg sA' (h ++ blk) ∧ Inv cfg sA' (h ++ blk) (lselect cfg now L).2 ∧
      (books (h ++ blk)).steps = stepsAfter (lselect cfg now L).2.curr (books h).steps := by
  by_cases hn : (lselect cfg now L).2.curr = NULL
  · obtain ⟨s', e1, e2⟩ := hi.run hw (.step now .done .done)
    have hl : lrun cfg L (.step now .done .done) =
        (.stepEnter :: (lselect cfg now L).1 ++ [.stepRet], (lselect cfg now L).2) := by
      simp only [lrun, lstep, hn, ne_eq, not_true_eq_false, if_false, List.append_nil]
      congr 1
      exact congrArg (fun c => ({ (lselect cfg now L).2 with curr := c } : LSt T)) hn.symm
    have hb := (lrun_good (cfg := cfg) (.step now .done .done) hi.sim hi.cur).2.2.1
    rw [hl] at e1 e2 hb
    refine ⟨_, s', rfl, ?_, ?_, ?_⟩
    · rw [if_pos hn]; exact .calls _ hr e1
    · rw [if_pos hn]; exact e2
    · rw [if_pos hn, books_append, stepsAfter, if_pos hn]; exact hb
  · obtain ⟨s', e1, e2, e3⟩ := hi.enter hw now
    rw [← e2] at hn
    refine ⟨_, s', rfl, ?_, ?_, ?_⟩
    · rw [← e2, if_neg hn, ← List.append_assoc]; exact .inTask now hr e1 hn
    · rw [← e2, if_neg hn, ← List.append_assoc]; exact e3 hn
    · rw [← e2, if_neg hn, stepsAfter, if_neg hn, books_append, track_append]
      have := (select_sim (cfg := cfg) (σ := next (books h) .stepEnter) (L := L)
        now ⟨hi.sim.irq, hi.sim.immed, hi.sim.idle, hi.sim.dq⟩ rfl).2.2.1
      show (next (track (next (books h) .stepEnter) (lselect cfg now L).1) (.called s'.curr)).steps = _
      show Phase.running s'.curr :: (track (next (books h) .stepEnter) (lselect cfg now L).1).steps.tail = _
      rw [this]
      rfl

/-! ## The relation -/

/-- What the rest of `mu_sched_step` does once the interrupt queue has been found empty. -/
def finQueue (L : LSt T) : LSt T := match L.immed with
  | t :: r => { L with immed := r, curr := t }
  | [] => { L with curr := L.idle }

def finFetch (cfg : Cfg T R) (now : T) (L : LSt T) : LSt T :=
  if (lfetch cfg now L.dq).1 ≠ NULL then
    { L with dq := (lfetch cfg now L.dq).2.2, curr := (lfetch cfg now L.dq).1 }
  else finQueue { L with dq := (lfetch cfg now L.dq).2.2 }

theorem lselect_empty (now : T) {L : LSt T} (h : L.irq = []) :
    (lselect cfg now L).2 = finFetch cfg now L := by
  unfold lselect finFetch finQueue
  rw [h]
  simp only
  split
  · rfl
  · cases hm : L.immed <;> simp [hm]

/-- Equal but for the interrupt queue. -/
structure RestEq (L X : LSt T) : Prop where
  dq : L.dq = X.dq
  immed : L.immed = X.immed
  curr : L.curr = X.curr
  idle : L.idle = X.idle

def setIrq (L : LSt T) (l : List Val) : LSt T := { L with irq := l }

theorem finQueue_setIrq (L : LSt T) (l : List Val) :
    RestEq (finQueue (setIrq L l)) (finQueue L) := by
  unfold finQueue setIrq
  cases L.immed <;> exact ⟨rfl, rfl, rfl, rfl⟩

theorem finFetch_setIrq (now : T) (L : LSt T) (l : List Val) :
    RestEq (finFetch cfg now (setIrq L l)) (finFetch cfg now L) := by
  unfold finFetch
  have hd : (setIrq L l).dq = L.dq := rfl
  rw [hd]
  by_cases hn : (lfetch cfg now L.dq).1 ≠ NULL
  · rw [if_pos hn, if_pos hn]; exact ⟨rfl, rfl, rfl, rfl⟩
  · rw [if_neg hn, if_neg hn]; exact finQueue_setIrq { L with dq := (lfetch cfg now L.dq).2.2 } l

theorem RestEq.symm {L X : LSt T} (h : RestEq L X) : RestEq X L :=
  ⟨h.dq.symm, h.immed.symm, h.curr.symm, h.idle.symm⟩

theorem RestEq.trans {L X Y : LSt T} (h : RestEq L X) (g : RestEq X Y) : RestEq L Y :=
  ⟨h.dq.trans g.dq, h.immed.trans g.immed, h.curr.trans g.curr, h.idle.trans g.idle⟩

theorem RestEq.eq {L X : LSt T} (h : RestEq L X) (hi : L.irq = X.irq) : L = X := by
  obtain ⟨a, b, c, d, e⟩ := L
  obtain ⟨a', b', c', d', e'⟩ := X
  obtain ⟨h1, h2, h3, h4⟩ := h
  simp only at h1 h2 h3 h4 hi
  subst h1 h2 h3 h4 hi; rfl

theorem RestEq.set {L X : LSt T} (h : RestEq L X) (l : List Val) : RestEq (setIrq L l) X :=
  ⟨h.dq, h.immed, h.curr, h.idle⟩

/-- The steps in progress are those whose tasks are on the stack. -/
inductive Steps : List Phase → List (Frame T R) → Prop
  | nil : Steps [] []
  | task {ps st next} (t : Val) : Steps ps st → Steps (.running t :: ps) (.task next :: st)
  | hook {ps st t next} : Steps ps st → Steps ps (.hook t next :: st)

def frameFg : Frame T R → Prop
  | .task next => Foreground next
  | .hook _ next => Foreground next

/-- The interrupt side. -/
def ProdOk (N : Nat) (q : Spsc.Spsc) (l : List Val) (i : IsrSt) : Spsc.PPc → Prop
  | .idle => i = .idle
  | .loadTail t => i = .pending t
  | .loadHead t n => i = .pending t ∧ n = (q.tail + 1) &&& q.mask
  | .loadSlot t n => i = .pending t ∧ n = (q.tail + 1) &&& q.mask ∧ l.length < N - 1
  | .storeItem t n slot => i = .pending t ∧ n = (q.tail + 1) &&& q.mask ∧ l.length < N - 1 ∧
      slot = q.tail
  | .storeTail t n => i = .pending t ∧ n = (q.tail + 1) &&& q.mask ∧ l.length < N - 1 ∧
      q.store[q.tail]? = some t

/-- The foreground inside `mu_sched_step`, before and after the instant of the choice. -/
def Before (mn : MainSt T) (steps : List Phase) (stack : List (Frame T R)) (L L0 : LSt T) : Prop :=
  mn = .choosing ∧ L0 = L ∧ Steps steps stack

def After (mn : MainSt T) (steps : List Phase) (stack : List (Frame T R)) (L : LSt T)
    (clk : Option T) (X : LSt T) : Prop :=
  ∃ ps, mn = .chosen L.curr clk ∧ steps = stepsAfter L.curr ps ∧ Steps ps stack ∧ RestEq L X

def PcOk (cfg : Cfg T R) (now : T) (mn : MainSt T) (steps : List Phase) (stack : List (Frame T R))
    (L L0 : LSt T) (head : Nat) : Pc → Prop
  | .get .idle | .get (.compare _) => Before mn steps stack L L0
  | .get (.loadTail x) => Before mn steps stack L L0 ∧ x = head
  | .get (.loadHead u) =>
    (u = head → After mn steps stack L (some now) (finFetch cfg now L0)) ∧
    (u ≠ head → Before mn steps stack L L0 ∧ L.irq ≠ [])
  | .get .loadSlot => Before mn steps stack L L0 ∧ L.irq ≠ []
  | .get (.loadItem slot) => Before mn steps stack L L0 ∧ L.irq ≠ [] ∧ slot = head
  | .get (.loadHead2 x) => Before mn steps stack L L0 ∧ L.irq.head? = some x
  | .get (.storeHead x k) => Before mn steps stack L L0 ∧ L.irq.head? = some x ∧ k = head
  | .fetch => After mn steps stack L (some now) (finFetch cfg now L0)
  | .queue => After mn steps stack L none (finQueue L0)
  | .idle => After mn steps stack L none { L0 with curr := L0.idle }
  | .chosen => After mn steps stack L none L0

def ModeOk (cfg : Cfg T R) (mn : MainSt T) (steps : List Phase) (stack : List (Frame T R))
    (L L0 : LSt T) (head : Nat) : Mode T R → Prop
  | .user code => mn = .running ∧ L0 = L ∧ Steps steps stack ∧ Foreground code
  | .step now body next pc => Foreground body ∧ Foreground next ∧
      PcOk cfg now mn steps stack L L0 head pc

/-- Machine and atomic scheduler; `L` is what the atomic scheduler holds, `L0` what the machine
holds. -/
structure Rel (cfg : Cfg T R) (m : M T R) (P : PSt T) (h : List (Ev T)) (sA : Sched T) (L L0 : LSt T) :
    Prop where
  looks : Looks m.log h P
  reach : Reach cfg sA h
  inv : Inv cfg sA h L
  rep : Rep cfg m.s L0
  irq : L0.irq = L.irq
  prod : ProdOk cfg.maxIrq m.s.irq L.irq P.isr m.p
  mode : ModeOk cfg P.main (books h).steps m.stack L L0 m.s.irq.head m.mode
  fg : ∀ f ∈ m.stack, frameFg f

theorem Rep.withIrq {s : Sched T} {L : LSt T} (h : Rep cfg s L) {q : Spsc.Spsc} {d : Nat}
    {l : List Val} (hq : Spsc.Rep q cfg.maxIrq d l) :
    Rep cfg { s with irq := q } (setIrq L l) :=
  ⟨⟨d, hq⟩, h.immed, h.immedCap, h.count, h.le, h.alloc, h.dq, h.curr, h.idle⟩

/-- The foreground does not notice a longer interrupt queue. -/
theorem After.grow {mn : MainSt T} {steps : List Phase} {stack : List (Frame T R)} {L X X' : LSt T}
    {clk : Option T} (h : After mn steps stack L clk X) (l : List Val) (hx : RestEq X' X) :
    After mn steps stack (setIrq L l) clk X' := by
  obtain ⟨ps, h1, h2, h3, h4⟩ := h
  exact ⟨ps, h1, h2, h3, (h4.set l).trans hx.symm⟩

theorem Before.grow {mn : MainSt T} {steps : List Phase} {stack : List (Frame T R)} {L L0 : LSt T}
    (h : Before mn steps stack L L0) (l : List Val) :
    Before mn steps stack (setIrq L l) (setIrq L0 l) := by
  obtain ⟨h1, h2, h3⟩ := h
  exact ⟨h1, by rw [h2], h3⟩

theorem ModeOk.grow {mn : MainSt T} {steps : List Phase} {stack : List (Frame T R)} {L L0 : LSt T}
    {head : Nat} {mode : Mode T R} (h : ModeOk cfg mn steps stack L L0 head mode) (t : Val) :
    ModeOk cfg mn steps stack (setIrq L (L.irq ++ [t])) (setIrq L0 (L.irq ++ [t])) head mode := by
  cases mode with
  | user code =>
    obtain ⟨h1, h2, h3, h4⟩ := h
    exact ⟨h1, by rw [h2], h3, h4⟩
  | step now body next pc =>
    obtain ⟨h1, h2, h3⟩ := h
    refine ⟨h1, h2, ?_⟩
    have hne : ∀ l : List Val, (setIrq L (l ++ [t])).irq ≠ [] := by intro l; simp [setIrq]
    cases pc with
    | get c =>
      cases c with
      | idle => exact Before.grow h3 _
      | compare b => exact Before.grow h3 _
      | loadTail x => exact ⟨h3.1.grow _, h3.2⟩
      | loadHead u =>
        exact ⟨fun hu => (h3.1 hu).grow _ (finFetch_setIrq ..),
          fun hu => ⟨(h3.2 hu).1.grow _, hne _⟩⟩
      | loadSlot => exact ⟨h3.1.grow _, hne _⟩
      | loadItem slot => exact ⟨h3.1.grow _, hne _, h3.2.2⟩
      | loadHead2 x =>
        refine ⟨h3.1.grow _, ?_⟩
        simp [setIrq, h3.2]
      | storeHead x k =>
        refine ⟨h3.1.grow _, ?_, h3.2.2⟩
        simp [setIrq, h3.2.1]
    | fetch => exact h3.grow _ (finFetch_setIrq ..)
    | queue => exact h3.grow _ (finQueue_setIrq ..)
    | idle => exact h3.grow _ ⟨rfl, rfl, rfl, rfl⟩
    | chosen => exact h3.grow _ ⟨rfl, rfl, rfl, rfl⟩

/-- The interrupt side acts without effect on the queue's content. -/
theorem Rel.quiet {m : M T R} {P : PSt T} {h : List (Ev T)} {sA : Sched T} {L L0 : LSt T}
    (hr : Rel cfg m P h sA L L0) {q : Spsc.Spsc} {d : Nat} (hq : Spsc.Rep q cfg.maxIrq d L.irq)
    (hh : q.head = m.s.irq.head) {p : Spsc.PPc} {i : IsrSt} {log : List (Obs T)}
    (hl : Looks log h { P with isr := i }) (hp : ProdOk cfg.maxIrq q L.irq i p) :
    Rel cfg { m with s := { m.s with irq := q }, p := p, log := log } { P with isr := i } h sA L L0 := by
  refine ⟨hl, hr.reach, hr.inv, ?_, hr.irq, hp, ?_, hr.fg⟩
  · have := Rep.withIrq hr.rep hq
    have e : setIrq L0 L.irq = L0 := RestEq.eq ⟨rfl, rfl, rfl, rfl⟩ hr.irq.symm
    rwa [e] at this
  · have := hr.mode
    rw [← hh] at this
    exact this

theorem isr_reach (hw : cfg.Wf) {sA : Sched T} {h : List (Ev T)} {L : LSt T} (hr : Reach cfg sA h)
    (hi : Inv cfg sA h L) (t : Val) : ∃ sA', Reach cfg sA' (h ++ [.isrRet t (lisr cfg L t).1]) ∧
      Inv cfg sA' (h ++ [.isrRet t (lisr cfg L t).1]) (lisr cfg L t).2 := by
  obtain ⟨sA', e1, e2⟩ := hi.run hw (.fromIsr t .done)
  exact ⟨sA', .calls _ hr e1, e2⟩

theorem prod_ok (hw : cfg.Wf) {m : M T R} {P : PSt T} {h : List (Ev T)} {sA : Sched T} {L L0 : LSt T}
    (hr : Rel cfg m P h sA L L0) (t : Val) : ∃ m' P' h' sA' L' L0', prod t m = .ok m' ∧
      Rel cfg m' P' h' sA' L' L0' := by
  obtain ⟨d, hq⟩ := hr.rep.irq
  rw [hr.irq] at hq
  have hp := hr.prod
  have key : ∀ r : Spsc.Sys, Spsc.micro ⟨m.s.irq, m.p, .idle, []⟩ (.prod t) = .ok r →
      prod t m = .ok { m with
        s := { m.s with irq := r.q }
        p := r.p
        log := m.log ++ (if m.p = .idle then [.isrCall t] else []) ++
          r.log.filterMap fun
            | .putRet u ok => some (.isrRet u (if ok then .none else .full))
            | .getRet _ _ => none } := by
    intro r hm; simp only [prod, hm, C.ok_bind]; rfl
  cases hpc : m.p with
  | idle =>
    rw [hpc] at hp key
    refine ⟨_, { P with isr := .pending t }, h, sA, L, L0, key _ rfl, ?_⟩
    refine Rel.quiet hr hq rfl (i := .pending t) ?_ rfl
    rw [if_pos rfl]
    simp only [List.filterMap_nil, List.append_nil]
    have := hr.looks.append (P2 := { P with isr := .pending t }) [.vis (.isrCall t)] rfl
      (h2 := []) (by simp only [runs, atomic]; rw [if_pos (show P.isr = .idle from hp)]; rfl)
    simpa [visible] using this
  | loadTail u =>
    rw [hpc] at hp key
    refine ⟨_, P, h, sA, L, L0, key _ rfl, ?_⟩
    refine Rel.quiet hr hq rfl (i := P.isr) ?_ ⟨hp, rfl⟩
    rw [if_neg (by simp)]
    simpa using hr.looks
  | loadHead u n =>
    rw [hpc] at hp key
    obtain ⟨h1, h2⟩ := hp
    by_cases hf : n = m.s.irq.head
    · have hlen := hq.full_iff.mp (h2 ▸ hf)
      obtain ⟨sA', g1, g2⟩ := isr_reach hw hr.reach hr.inv u
      have hls : lisr cfg L u = (.full, L) := by simp [lisr, hlen]
      rw [hls] at g1 g2
      refine ⟨_, { P with isr := .idle }, h ++ [.isrRet u .full], sA', L, L0, key _
        (by simp only [Spsc.micro, if_pos hf]; rfl), ?_⟩
      have hb : (books (h ++ [.isrRet u .full])).steps = (books h).steps := by
        rw [books_append]; rfl
      refine ⟨?_, g1, g2, hr.rep, hr.irq, rfl, ?_, hr.fg⟩
      · have := hr.looks.append (P2 := { P with isr := .idle }) (h2 := [.isrRet u .full])
          [.effect .full, .vis (.isrRet u .full)] rfl
          (by simp only [runs, atomic, h1]; simp)
        simpa [visible] using this
      · rw [hb]; exact hr.mode
    · have hlen : L.irq.length < cfg.maxIrq - 1 := by
        have := hq.len
        have : L.irq.length ≠ cfg.maxIrq - 1 := fun e => hf (h2 ▸ hq.full_iff.mpr e)
        omega
      refine ⟨_, P, h, sA, L, L0, key _ (by simp only [Spsc.micro, if_neg hf]; rfl), ?_⟩
      refine Rel.quiet hr hq rfl (i := P.isr) ?_ ⟨h1, h2, hlen⟩
      rw [if_neg (by simp)]
      simpa using hr.looks
  | loadSlot u n =>
    rw [hpc] at hp key
    obtain ⟨h1, h2, h3⟩ := hp
    refine ⟨_, P, h, sA, L, L0, key _ rfl, ?_⟩
    refine Rel.quiet hr hq rfl (i := P.isr) ?_ ⟨h1, h2, h3, rfl⟩
    rw [if_neg (by simp)]
    simpa using hr.looks
  | storeItem u n slot =>
    rw [hpc] at hp key
    obtain ⟨h1, h2, h3, rfl⟩ := hp
    refine ⟨_, P, h, sA, L, L0, key _ (by
      simp only [Spsc.micro, stN_ok hq.tail_lt, C.ok_bind]; rfl), ?_⟩
    refine Rel.quiet hr (hq.set_tail u (by omega)) rfl (i := P.isr) ?_ ⟨h1, h2, h3, ?_⟩
    · rw [if_neg (by simp)]
      simpa using hr.looks
    · simp [hq.tail_lt]
  | storeTail u n =>
    rw [hpc] at hp key
    obtain ⟨h1, rfl, h3, h4⟩ := hp
    obtain ⟨sA', g1, g2⟩ := isr_reach hw hr.reach hr.inv u
    have hls : lisr cfg L u = (.none, setIrq L (L.irq ++ [u])) := by simp [lisr, h3, setIrq]
    rw [hls] at g1 g2
    refine ⟨_, { P with isr := .idle }, h ++ [.isrRet u .none], sA', setIrq L (L.irq ++ [u]),
      setIrq L0 (L.irq ++ [u]), key _ rfl, ?_⟩
    have hb : (books (h ++ [.isrRet u .none])).steps = (books h).steps := by
      rw [books_append]; rfl
    refine ⟨?_, g1, g2, Rep.withIrq hr.rep (hq.push u h3 h4), rfl, rfl, ?_, hr.fg⟩
    · have := hr.looks.append (P2 := { P with isr := .idle }) (h2 := [.isrRet u .none])
        [.effect .none, .vis (.isrRet u .none)] rfl
        (by simp only [runs, atomic, h1]; simp)
      simpa [visible] using this
    · rw [hb]; exact hr.mode.grow u

/-! ## The foreground -/

/-- A call by user code that takes effect at once. -/
theorem Rel.op (hw : cfg.Wf) {m : M T R} {P : PSt T} {h : List (Ev T)} {sA : Sched T} {L : LSt T}
    (hr : Rel cfg m P h sA L L) (hm : P.main = .running) (op : Prog T R)
    (hpl : ∀ e ∈ (lrun cfg L op).1, plain e) (hirq : (lrun cfg L op).2.irq = L.irq)
    (hs : ∀ evs s', run cfg m.s op = .ok (evs, s') → s'.irq = m.s.irq)
    {code : Prog T R} {stack : List (Frame T R)} (hf : Foreground code)
    (hst : Steps (books h).steps stack) (hfg : ∀ f ∈ stack, frameFg f) :
    ∃ s' sA', run cfg m.s op = .ok ((lrun cfg L op).1, s') ∧
      Rel cfg { m with s := s', mode := .user code, stack := stack,
                       log := m.log ++ (lrun cfg L op).1.map .main } P
        (h ++ (lrun cfg L op).1) sA' (lrun cfg L op).2 (lrun cfg L op).2 := by
  obtain ⟨s', e1, e2⟩ := run_refines hw op hr.rep
  obtain ⟨sA', e3, e4⟩ := hr.inv.run hw op
  have hb := (lrun_good (cfg := cfg) op hr.inv.sim hr.inv.cur).2.2.1
  have hq := hs _ _ e1
  refine ⟨s', sA', e1, ?_⟩
  refine ⟨?_, .calls _ hr.reach e3, e4, e2, rfl, ?_, ?_, hfg⟩
  · exact hr.looks.append _ (visible_plain _) (runs_plain hm _ hpl)
  · show ProdOk cfg.maxIrq s'.irq (lrun cfg L op).2.irq P.isr m.p
    rw [hq, hirq]; exact hr.prod
  · refine ⟨hm, rfl, ?_, hf⟩
    rw [books_append, hb]; exact hst

theorem main_user (hw : cfg.Wf) {m : M T R} {P : PSt T} {h : List (Ev T)} {sA : Sched T} {L L0 : LSt T}
    (hr : Rel cfg m P h sA L L0) (tf : Bool) {code : Prog T R} (hc : m.mode = .user code) :
    ∃ m' P' h' sA' L' L0', main cfg tf m = .ok m' ∧ Rel cfg m' P' h' sA' L' L0' := by
  have hm := hr.mode
  rw [hc] at hm
  obtain ⟨h1, rfl, h3, h4⟩ := hm
  unfold main
  rw [hc]
  simp only
  cases hsp : split code with
  | some x =>
    obtain ⟨op, next⟩ := x
    obtain ⟨f1, f2⟩ := split_fg (cfg := cfg) hsp h4
    obtain ⟨s', sA', e1, e2⟩ := hr.op hw h1 op (split_plain hsp _) (f2 _)
      (fun evs s' he => split_irq hsp h4 he) (code := next) f1 h3 hr.fg
    simp only [e1, C.ok_bind]
    exact ⟨_, _, _, _, _, _, rfl, e2⟩
  | none =>
    cases code with
    | done =>
      simp only
      cases hst : m.stack with
      | nil => exact ⟨_, _, _, _, _, _, rfl, hr⟩
      | cons f st =>
        rw [hst] at h3
        have hfg := hr.fg
        rw [hst] at hfg
        cases f with
        | task next =>
          obtain ⟨ps, hps⟩ : ∃ ps, ps = (books h).steps := ⟨_, rfl⟩
          rw [← hps] at h3
          cases h3 with
          | @task ps _ _ t h3 =>
            have hh : (books h).steps.head? = some (.running t) := by rw [← hps]; rfl
            refine ⟨_, P, h ++ [.stepRet], { sA with curr := NULL }, { L0 with curr := NULL },
              { L0 with curr := NULL }, rfl, ?_⟩
            refine ⟨?_, .leave hr.reach hh, hr.inv.leave hh,
              ⟨hr.rep.irq, hr.rep.immed, hr.rep.immedCap, hr.rep.count,
                hr.rep.le, hr.rep.alloc, hr.rep.dq, rfl, hr.rep.idle⟩, rfl, hr.prod, ?_,
              fun g hg => hfg g (List.mem_cons_of_mem _ hg)⟩
            · refine hr.looks.append [.vis (.main .stepRet)] rfl ?_
              simp [runs, atomic, h1]
            · refine ⟨h1, rfl, ?_, hfg _ (List.mem_cons_self ..)⟩
              rw [books_append]
              show Steps (books h).steps.tail st
              rw [← hps]; exact h3
        | hook t next =>
          have h3' : Steps (books h).steps st := by
            obtain ⟨ps, hps⟩ : ∃ ps, ps = (books h).steps := ⟨_, rfl⟩
            rw [← hps] at h3 ⊢
            cases h3 with
            | hook h3 => exact h3
          obtain ⟨s', sA', e1, e2⟩ := hr.op hw h1 (.immed t .done) (by simp [lrun, plain])
            (by simp only [lrun, limmed]; split <;> rfl)
            (fun evs s' he => split_irq (p := .immed t .done) rfl trivial he) (code := next)
            (stack := st)
            (hfg _ (List.mem_cons_self ..)) h3' (fun g hg => hfg g (List.mem_cons_of_mem _ hg))
          simp only [run] at e1
          obtain ⟨⟨e, s1⟩, e3, e1⟩ := C.bind_eq_ok e1
          simp only [e3, C.ok_bind]
          simp only [C.ok_bind, Except.ok.injEq, Prod.mk.injEq] at e1
          obtain ⟨e4, rfl⟩ := e1
          rw [← e4] at e2
          exact ⟨_, _, _, _, _, _, rfl, e2⟩
    | step now body next =>
      refine ⟨_, { P with main := .choosing }, h, sA, L0, L0, rfl, ?_⟩
      refine ⟨?_, hr.reach, hr.inv, hr.rep, rfl, hr.prod, ?_, hr.fg⟩
      · have := hr.looks.append (P2 := { P with main := .choosing }) (h2 := [])
          [.vis (.main .stepEnter)] rfl (by simp [runs, atomic, h1])
        simpa [visible] using this
      · exact ⟨h4.1, h4.2, rfl, rfl, h3⟩
    | transfer t hook next =>
      refine ⟨_, P, h ++ [.transferHook t], sA, L0, L0, rfl, ?_⟩
      refine ⟨?_, .inHook t hr.reach, hr.inv.hook t, hr.rep, rfl, hr.prod, ?_, ?_⟩
      · exact hr.looks.append [.vis (.main (.transferHook t))] rfl (by simp [runs, atomic, h1])
      · refine ⟨h1, rfl, ?_, h4.1⟩
        rw [books_append]
        exact .hook h3
      · intro f hf
        rcases List.mem_cons.mp hf with rfl | hf
        · exact h4.2
        · exact hr.fg f hf
    | _ => simp [split] at hsp

theorem Rel.inner {m : M T R} {P : PSt T} {h : List (Ev T)} {sA : Sched T} {L L0 : LSt T}
    (hr : Rel cfg m P h sA L L0) {s' : Sched T} {L0' : LSt T} {mode : Mode T R}
    {stack : List (Frame T R)} {log : List (Obs T)} {mn : MainSt T}
    (hrep : Rep cfg s' L0') (hi : L0'.irq = L.irq) (hq : s'.irq = m.s.irq)
    (hl : Looks log h { P with main := mn })
    (hm : ModeOk cfg mn (books h).steps stack L L0' m.s.irq.head mode)
    (hfg : ∀ f ∈ stack, frameFg f) :
    Rel cfg { m with s := s', mode := mode, stack := stack, log := log } { P with main := mn } h sA
      L L0' := by
  refine ⟨hl, hr.reach, hr.inv, hrep, hi, ?_, ?_, hfg⟩
  · show ProdOk cfg.maxIrq s'.irq L.irq P.isr m.p
    rw [hq]; exact hr.prod
  · show ModeOk cfg mn (books h).steps stack L L0' s'.irq.head mode
    rw [hq]; exact hm

/-- Going on inside `mu_sched_step` without effect. -/
theorem Rel.on {m : M T R} {P : PSt T} {h : List (Ev T)} {sA : Sched T} {L L0 : LSt T}
    (hr : Rel cfg m P h sA L L0) {now : T} {body next : Prog T R} {pc : Pc}
    (hm : ModeOk cfg P.main (books h).steps m.stack L L0 m.s.irq.head (.step now body next pc)) :
    Rel cfg { m with mode := .step now body next pc } P h sA L L0 :=
  ⟨hr.looks, hr.reach, hr.inv, hr.rep, hr.irq, hr.prod, hm, hr.fg⟩

/-- The instant of the choice. -/
theorem Rel.choose (hw : cfg.Wf) {m : M T R} {P : PSt T} {h : List (Ev T)} {sA : Sched T} {L L0 : LSt T}
    (hr : Rel cfg m P h sA L L0) (hm : P.main = .choosing) (now : T) : ∃ sA' h',
      Reach cfg sA' h' ∧ Inv cfg sA' h' (lselect cfg now L).2 ∧
      (books h').steps = stepsAfter (lselect cfg now L).2.curr (books h).steps ∧
      Looks m.log h' ⟨.chosen (lselect cfg now L).2.curr (if L.irq = [] then some now else none), P.isr⟩ := by
  obtain ⟨blk, sA', hblk, e1, e2, e3⟩ := choose_ok hw hr.reach hr.inv now
  refine ⟨sA', h ++ blk, e1, e2, e3, ?_⟩
  obtain ⟨c1, c2⟩ := lselect_chosen (cfg := cfg) now L
  have := hr.looks.append (P2 := ⟨.chosen (lselect cfg now L).2.curr (if L.irq = [] then some now else none), P.isr⟩)
    (h2 := blk) [.choose (lselect cfg now L).1] rfl
    (by simp only [runs, atomic, hm, if_true, c1, c2, hblk, List.append_nil])
  simpa [visible] using this

theorem finFetch_irq (now : T) (L : LSt T) : (finFetch cfg now L).irq = L.irq := by
  unfold finFetch finQueue
  split
  · rfl
  · split <;> rfl

theorem finQueue_curr (L : LSt T) (c : Val) : finQueue { L with curr := c } = finQueue L := by
  unfold finQueue
  cases hm : L.immed <;> simp [hm]

theorem finFetch_curr (now : T) (L : LSt T) (c : Val) :
    finFetch cfg now { L with curr := c } = finFetch cfg now L := by
  have := finQueue_curr { L with dq := (lfetch cfg now L.dq).2.2 } c
  unfold finFetch
  by_cases hn : (lfetch cfg now L.dq).1 ≠ NULL
  · simp [hn]
  · simp only [hn, if_false]; exact this

@[simp] theorem seen_sel (src : Src T) (t : Val) :
    [(.sel src t : Ev T)].filterMap seen = ([] : List (Obs T)) := rfl

theorem main_get (hw : cfg.Wf) {m : M T R} {P : PSt T} {h : List (Ev T)} {sA : Sched T} {L L0 : LSt T}
    (hr : Rel cfg m P h sA L L0) (tf : Bool) {now : T} {body next : Prog T R} {c : Spsc.CPc}
    (hc : m.mode = .step now body next (.get c)) :
    ∃ m' P' h' sA' L' L0', main cfg tf m = .ok m' ∧ Rel cfg m' P' h' sA' L' L0' := by
  have hm := hr.mode
  rw [hc] at hm
  obtain ⟨f1, f2, hpc⟩ := hm
  obtain ⟨d, hq⟩ := hr.rep.irq
  rw [hr.irq] at hq
  have key : ∀ r : Isr.M T, Isr.main cfg now tf ⟨m.s, .get c, []⟩ = .ok r →
      main cfg tf m = .ok { m with
        s := r.s, mode := .step now body next r.pc, log := m.log ++ r.log.filterMap seen } := by
    intro r hm; simp only [main, hc, reduceCtorEq, if_false, hm, C.ok_bind]
  have sil : m.log ++ ([] : List (Ev T)).filterMap seen = m.log := by simp
  have repNull : Rep cfg { m.s with curr := NULL } { L0 with curr := NULL } :=
    ⟨hr.rep.irq, hr.rep.immed, hr.rep.immedCap, hr.rep.count,
      hr.rep.le, hr.rep.alloc, hr.rep.dq, rfl, hr.rep.idle⟩
  cases c with
  | idle =>
    refine ⟨_, P, h, sA, L, L0, key ⟨m.s, .get (.compare tf), []⟩ rfl, ?_⟩
    rw [sil]
    exact hr.on (pc := .get (.compare tf)) ⟨f1, f2, hpc⟩
  | compare b =>
    cases b with
    | false =>
      refine ⟨_, P, h, sA, L, L0, key ⟨m.s, .get (.loadTail m.s.irq.head), []⟩ rfl, ?_⟩
      rw [sil]
      exact hr.on (pc := .get (.loadTail m.s.irq.head)) ⟨f1, f2, hpc, rfl⟩
    | true =>
      have hk := key ⟨m.s, .get (.loadHead m.s.irq.tail), []⟩ rfl
      rw [sil] at hk
      by_cases he : m.s.irq.head = m.s.irq.tail
      · have hL := hq.empty_iff.mp he
        obtain ⟨b1, rfl, b3⟩ := hpc
        obtain ⟨sA', h', e1, e2, e3, e4⟩ := hr.choose hw b1 now
        rw [if_pos hL] at e4
        rw [lselect_empty now hL] at e2 e3 e4
        refine ⟨_, ⟨.chosen (finFetch cfg now L0).curr (some now), P.isr⟩, h', sA', finFetch cfg now L0, L0, hk, ?_⟩
        refine ⟨e4, e1, e2, hr.rep, (finFetch_irq ..).symm, ?_, ?_, hr.fg⟩
        · rw [finFetch_irq]; exact hr.prod
        · exact ⟨f1, f2, fun _ => ⟨_, rfl, e3, b3, ⟨rfl, rfl, rfl, rfl⟩⟩, fun hu => absurd he.symm hu⟩
      · have hL : L.irq ≠ [] := fun e => he (hq.empty_iff.mpr e)
        exact ⟨_, P, h, sA, L, L0, hk, hr.on
          ⟨f1, f2, fun hu => absurd hu.symm he, fun _ => ⟨hpc, hL⟩⟩⟩
  | loadTail x =>
    obtain ⟨hb, rfl⟩ := hpc
    by_cases he : m.s.irq.head = m.s.irq.tail
    · have hL := hq.empty_iff.mp he
      have hk := key ⟨{ m.s with curr := NULL }, .fetch, []⟩ (by simp [Isr.main, Spsc.micro, he])
      rw [sil] at hk
      obtain ⟨b1, rfl, b3⟩ := hb
      obtain ⟨sA', h', e1, e2, e3, e4⟩ := hr.choose hw b1 now
      rw [if_pos hL] at e4
      rw [lselect_empty now hL] at e2 e3 e4
      refine ⟨_, ⟨.chosen (finFetch cfg now L0).curr (some now), P.isr⟩, h', sA', finFetch cfg now L0, { L0 with curr := NULL }, hk, ?_⟩
      refine ⟨e4, e1, e2, repNull, (finFetch_irq ..).symm, ?_, ?_, hr.fg⟩
      · rw [finFetch_irq]; exact hr.prod
      · refine ⟨f1, f2, _, rfl, e3, b3, ?_⟩
        rw [finFetch_curr]; exact ⟨rfl, rfl, rfl, rfl⟩
    · have hL : L.irq ≠ [] := fun e => he (hq.empty_iff.mpr e)
      have hk := key ⟨m.s, .get .loadSlot, []⟩ (by simp [Isr.main, Spsc.micro, he])
      rw [sil] at hk
      exact ⟨_, P, h, sA, L, L0, hk, hr.on ⟨f1, f2, hb, hL⟩⟩
  | loadHead u =>
    obtain ⟨g1, g2⟩ := hpc
    by_cases he : m.s.irq.head = u
    · have hk := key ⟨{ m.s with curr := NULL }, .fetch, []⟩ (by simp [Isr.main, Spsc.micro, he])
      rw [sil] at hk
      refine ⟨_, P, h, sA, L, { L0 with curr := NULL }, hk, ?_⟩
      refine hr.inner (mn := P.main) (stack := m.stack) repNull hr.irq rfl hr.looks ⟨f1, f2, ?_⟩ hr.fg
      show After _ _ _ _ _ _
      rw [finFetch_curr]; exact g1 he.symm
    · have hk := key ⟨m.s, .get .loadSlot, []⟩ (by simp [Isr.main, Spsc.micro, he])
      rw [sil] at hk
      exact ⟨_, P, h, sA, L, L0, hk, hr.on ⟨f1, f2, g2 (fun e => he e.symm)⟩⟩
  | loadSlot =>
    have hk := key ⟨m.s, .get (.loadItem m.s.irq.head), []⟩ rfl
    rw [sil] at hk
    exact ⟨_, P, h, sA, L, L0, hk, hr.on ⟨f1, f2, hpc.1, hpc.2, rfl⟩⟩
  | loadItem slot =>
    obtain ⟨hb, hL, rfl⟩ := hpc
    cases hl : L.irq with
    | nil => exact absurd hl hL
    | cons x r =>
      rw [hl] at hq
      have hk := key ⟨m.s, .get (.loadHead2 x), []⟩ (by
        simp only [Isr.main, Spsc.micro]; rw [ldN_some hq.front]; rfl)
      rw [sil] at hk
      exact ⟨_, P, h, sA, L, L0, hk, hr.on ⟨f1, f2, hb, by rw [hl]; rfl⟩⟩
  | loadHead2 x =>
    have hk := key ⟨m.s, .get (.storeHead x m.s.irq.head), []⟩ rfl
    rw [sil] at hk
    exact ⟨_, P, h, sA, L, L0, hk, hr.on ⟨f1, f2, hpc.1, hpc.2, rfl⟩⟩
  | storeHead x k =>
    obtain ⟨⟨b1, rfl, b3⟩, hx, rfl⟩ := hpc
    cases hl : L0.irq with
    | nil => rw [hl] at hx; cases hx
    | cons y r =>
      rw [hl] at hx hq
      cases hx
      obtain ⟨sA', h', e1, e2, e3, e4⟩ := hr.choose hw b1 now
      have hsel : lselect cfg now L0 = ([.sel .irq x], { L0 with irq := r, curr := x }) := by
        simp [lselect, hl]
      rw [hsel] at e2 e3 e4
      rw [hl, if_neg (by simp)] at e4
      have hk := key ⟨{ m.s with
        irq := { m.s.irq with head := (m.s.irq.head + 1) &&& m.s.irq.mask }, curr := x },
        .chosen, [.sel .irq x]⟩ rfl
      refine ⟨_, ⟨.chosen x none, P.isr⟩, h', sA', { L0 with irq := r, curr := x }, { L0 with irq := r, curr := x }, hk, ?_⟩
      refine ⟨by simpa [seen] using e4, e1, e2, ⟨⟨_, hq.pop⟩, hr.rep.immed, hr.rep.immedCap, hr.rep.count,
        hr.rep.le, hr.rep.alloc, hr.rep.dq, rfl, hr.rep.idle⟩, rfl, ?_, ?_, hr.fg⟩
      · have hp := hr.prod
        rw [hl] at hp
        revert hp
        cases hpp : m.p with
        | idle => exact id
        | loadTail t => exact id
        | loadHead t n => exact id
        | loadSlot t n =>
          exact fun ⟨a, b, c⟩ => ⟨a, b, by simp only [List.length_cons] at c ⊢; omega⟩
        | storeItem t n slot =>
          exact fun ⟨a, b, c, d⟩ => ⟨a, b, by simp only [List.length_cons] at c ⊢; omega, d⟩
        | storeTail t n =>
          exact fun ⟨a, b, c, d⟩ => ⟨a, b, by simp only [List.length_cons] at c ⊢; omega, d⟩
      · exact ⟨f1, f2, _, rfl, e3, b3, ⟨rfl, rfl, rfl, rfl⟩⟩

theorem seen_fetch (now : T) (dq : List (Entry T)) :
    (lfetch cfg now dq).2.1.filterMap seen = [Obs.main (.clock now)] := by
  rcases lfetch_shape (cfg := cfg) now dq with ⟨e1, _⟩ | ⟨d, e1⟩ <;> rw [e1] <;> rfl

/-- The clock has been seen. -/
theorem Rel.clock {m : M T R} {P : PSt T} {h : List (Ev T)} {sA : Sched T} {L L0 : LSt T}
    (hr : Rel cfg m P h sA L L0) {t : Val} {now : T} (hm : P.main = .chosen t (some now)) :
    Looks (m.log ++ [.main (.clock now)]) h { P with main := .chosen t none } := by
  have := hr.looks.append (P2 := { P with main := .chosen t none }) (h2 := [])
    [.vis (.main (.clock now))] rfl (by simp [runs, atomic, hm])
  simpa [visible] using this

theorem main_rest (hw : cfg.Wf) {m : M T R} {P : PSt T} {h : List (Ev T)} {sA : Sched T} {L L0 : LSt T}
    (hr : Rel cfg m P h sA L L0) (tf : Bool) {now : T} {body next : Prog T R} {pc : Pc}
    (hc : m.mode = .step now body next pc) (hpc : ∀ c, pc ≠ .get c) :
    ∃ m' P' h' sA' L' L0', main cfg tf m = .ok m' ∧ Rel cfg m' P' h' sA' L' L0' := by
  have hm := hr.mode
  rw [hc] at hm
  obtain ⟨f1, f2, hp⟩ := hm
  have key : ∀ r : Isr.M T, pc ≠ .chosen → Isr.main cfg now tf ⟨m.s, pc, []⟩ = .ok r →
      main cfg tf m = .ok { m with
        s := r.s, mode := .step now body next r.pc, log := m.log ++ r.log.filterMap seen } := by
    intro r hn hm; simp only [main, hc, if_neg hn, hm, C.ok_bind]
  cases pc with
  | get c => exact absurd rfl (hpc c)
  | fetch =>
    obtain ⟨ps, a1, a2, a3, a4⟩ := hp
    obtain ⟨s', e1, e2⟩ := fetch_ok (cfg := cfg) hw hr.rep now
    have hq := fetch_keeps now e1
    have hl := hr.clock a1
    by_cases hn : (lfetch cfg now L0.dq).1 = NULL
    · have hk := key ⟨{ s' with curr := NULL }, .queue, (lfetch cfg now L0.dq).2.1⟩ (by simp)
        (by simp [Isr.main, e1, hn])
      rw [seen_fetch] at hk
      refine ⟨_, ⟨.chosen L.curr none, P.isr⟩, h, sA, L, { L0 with dq := (lfetch cfg now L0.dq).2.2, curr := NULL }, hk, ?_⟩
      refine hr.inner (stack := m.stack) ?_ hr.irq hq hl ⟨f1, f2, ps, rfl, a2, a3, ?_⟩ hr.fg
      · exact ⟨e2.irq, e2.immed, e2.immedCap, e2.count, e2.le, e2.alloc, e2.dq, rfl, e2.idle⟩
      · have : finFetch cfg now L0 =
            finQueue { L0 with dq := (lfetch cfg now L0.dq).2.2, curr := NULL } := by
          rw [finFetch, if_neg (by simp [hn])]
          exact (finQueue_curr { L0 with dq := (lfetch cfg now L0.dq).2.2 } NULL).symm
        rw [← this]; exact a4
    · have hk := key ⟨{ s' with curr := (lfetch cfg now L0.dq).1 }, .chosen,
        (lfetch cfg now L0.dq).2.1⟩ (by simp) (by simp [Isr.main, e1, hn])
      rw [seen_fetch] at hk
      refine ⟨_, ⟨.chosen L.curr none, P.isr⟩, h, sA, L, { L0 with
        dq := (lfetch cfg now L0.dq).2.2, curr := (lfetch cfg now L0.dq).1 }, hk, ?_⟩
      refine hr.inner (stack := m.stack) ?_ hr.irq hq hl ⟨f1, f2, ps, rfl, a2, a3, ?_⟩ hr.fg
      · exact ⟨e2.irq, e2.immed, e2.immedCap, e2.count, e2.le, e2.alloc, e2.dq, rfl, e2.idle⟩
      · have : finFetch cfg now L0 = { L0 with
            dq := (lfetch cfg now L0.dq).2.2, curr := (lfetch cfg now L0.dq).1 } := by
          rw [finFetch, if_pos hn]
        rw [← this]; exact a4
  | queue =>
    obtain ⟨ps, a1, a2, a3, a4⟩ := hp
    have himm := hr.rep.immed
    cases hl : L0.immed with
    | nil =>
      rw [hl] at himm
      have ga : Queue.get cfg.P m.s.immed = _ := Queue.access_nil (P := cfg.P) himm true
      have hk := key _ (by simp) (by simp only [Isr.main, ga, C.ok_bind]; rfl)
      refine ⟨_, P, h, sA, L, { L0 with curr := NULL }, hk, ?_⟩
      refine hr.inner (mn := P.main) (stack := m.stack) ?_ hr.irq rfl (by simpa using hr.looks)
        ⟨f1, f2, ps, a1, a2, a3, ?_⟩ hr.fg
      · exact ⟨hr.rep.irq, by rw [hl]; exact himm, hr.rep.immedCap, hr.rep.count, hr.rep.le,
          hr.rep.alloc, hr.rep.dq, rfl, hr.rep.idle⟩
      · have : finQueue L0 = { L0 with curr := L0.idle } := by simp [finQueue, hl]
        rw [this] at a4; exact a4
    | cons t r =>
      rw [hl] at himm
      have ga : Queue.get cfg.P m.s.immed = _ := Queue.access_cons (P := cfg.P) himm
        (by rw [hr.rep.immedCap]; exact hw.immed) true
      have hk := key _ (by simp) (by simp only [Isr.main, ga, C.ok_bind]; rfl)
      refine ⟨_, P, h, sA, L, { L0 with immed := r, curr := t }, hk, ?_⟩
      refine hr.inner (mn := P.main) (stack := m.stack) ?_ hr.irq rfl
        (by simpa [seen] using hr.looks)
        ⟨f1, f2, ps, a1, a2, a3, ?_⟩ hr.fg
      · exact ⟨hr.rep.irq, Queue.rep_pop himm, hr.rep.immedCap, hr.rep.count, hr.rep.le,
          hr.rep.alloc, hr.rep.dq, rfl, hr.rep.idle⟩
      · have : finQueue L0 = { L0 with immed := r, curr := t } := by simp [finQueue, hl]
        rw [this] at a4; exact a4
  | idle =>
    obtain ⟨ps, a1, a2, a3, a4⟩ := hp
    have hk := key _ (by simp) rfl
    refine ⟨_, P, h, sA, L, { L0 with curr := L0.idle }, hk, ?_⟩
    refine hr.inner (mn := P.main) (stack := m.stack) ?_ hr.irq rfl (by simpa [seen] using hr.looks)
      ⟨f1, f2, ps, a1, a2, a3, a4⟩ hr.fg
    exact ⟨hr.rep.irq, hr.rep.immed, hr.rep.immedCap, hr.rep.count, hr.rep.le,
      hr.rep.alloc, hr.rep.dq, hr.rep.idle, hr.rep.idle⟩
  | chosen =>
    obtain ⟨ps, a1, a2, a3, a4⟩ := hp
    have hLL : L = L0 := a4.eq hr.irq.symm
    subst hLL
    have hcur := hr.rep.curr
    by_cases hn : m.s.curr = NULL
    · have hln : L.curr = NULL := by rw [← hcur]; exact hn
      have hk : main cfg tf m = .ok { m with
          s := { m.s with curr := NULL }, mode := .user next,
          log := m.log ++ [.main .stepRet] } := by simp [main, hc, hn]
      refine ⟨_, { P with main := .running }, h, sA, L, L, hk, ?_⟩
      refine hr.inner (mn := .running) (stack := m.stack) ?_ rfl rfl ?_ ⟨rfl, rfl, ?_, f2⟩ hr.fg
      · exact ⟨hr.rep.irq, hr.rep.immed, hr.rep.immedCap, hr.rep.count, hr.rep.le,
          hr.rep.alloc, hr.rep.dq, hln.symm, hr.rep.idle⟩
      · have := hr.looks.append (P2 := { P with main := .running }) (h2 := [])
          [.vis (.main .stepRet)] rfl (by simp [runs, atomic, a1, hln])
        simpa [visible] using this
      · rw [a2, stepsAfter, if_pos hln]; exact a3
    · have hln : L.curr ≠ NULL := by rw [← hcur]; exact hn
      have hk : main cfg tf m = .ok { m with
          mode := .user body, stack := .task next :: m.stack,
          log := m.log ++ [.main (.called m.s.curr)] } := by simp [main, hc, hn]
      refine ⟨_, { P with main := .running }, h, sA, L, L, hk, ?_⟩
      refine hr.inner (s' := m.s) (mn := .running) hr.rep rfl rfl ?_ ⟨rfl, rfl, ?_, f1⟩ ?_
      · have := hr.looks.append (P2 := { P with main := .running }) (h2 := [])
          [.vis (.main (.called m.s.curr))] rfl (by simp [runs, atomic, a1, hln, hcur])
        simpa [visible] using this
      · rw [a2, stepsAfter, if_neg hln]; exact .task _ a3
      · intro f hf
        rcases List.mem_cons.mp hf with rfl | hf
        · exact f2
        · exact hr.fg f hf

theorem act_ok (hw : cfg.Wf) {m : M T R} {P : PSt T} {h : List (Ev T)} {sA : Sched T} {L L0 : LSt T}
    (hr : Rel cfg m P h sA L L0) (a : Act) :
    ∃ m' P' h' sA' L' L0', act cfg m a = .ok m' ∧ Rel cfg m' P' h' sA' L' L0' := by
  cases a with
  | prod t => exact prod_ok hw hr t
  | main tf =>
    cases hm : m.mode with
    | user code => exact main_user hw hr tf hm
    | step now body next pc =>
      cases pc with
      | get c => exact main_get hw hr tf hm
      | _ => exact main_rest hw hr tf hm (by intro c; simp)

theorem exec_ok (hw : cfg.Wf) (as : List Act) : ∀ {m : M T R} {P : PSt T} {h : List (Ev T)}
    {sA : Sched T} {L L0 : LSt T}, Rel cfg m P h sA L L0 →
    ∃ m' P' h' sA' L' L0', exec cfg m as = .ok m' ∧ Rel cfg m' P' h' sA' L' L0' := by
  induction as with
  | nil => intro m P h sA L L0 hr; exact ⟨m, P, h, sA, L, L0, rfl, hr⟩
  | cons a as ih =>
    intro m P h sA L L0 hr
    obtain ⟨m1, P1, h1, s1, L1, L01, e1, e2⟩ := act_ok hw hr a
    obtain ⟨m2, P2, h2, s2, L2, L02, g1, g2⟩ := ih e2
    exact ⟨m2, P2, h2, s2, L2, L02, by simp [exec, e1, g1], g2⟩

theorem start_ok (hw : cfg.Wf) {s : Sched T} (hb : Boot cfg s) {p : Prog T R} (hf : Foreground p) :
    Rel cfg (start s p) PSt.start [] s ⟨[], [], [], NULL, NULL⟩ ⟨[], [], [], NULL, NULL⟩ :=
  ⟨⟨[], rfl, rfl⟩, .boot hb, boot_inv hw hb, (boot_inv hw hb).rep, rfl, rfl,
    ⟨rfl, rfl, .nil, hf⟩, by simp [start]⟩

end Mu.Sched.Smp
