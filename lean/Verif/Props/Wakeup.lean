import Verif.Props.SystemQueue

/-! # C103: a consumer that is woken for every message never sleeps while there is one

The usual way to use the modules together: whoever stores a message into a queue (or the queue's on_put
task) makes the consumer runnable with `mu_sched_immed` or `mu_sched_from_isr`, and whenever the
consumer is run, it takes messages out until `mu_mqueue_get` says there are none. -/

namespace Mu.System
open Mu Mu.System.Spec

variable {T R : Type}

/-! ## The discipline, as seen in a trace -/

/-- The scheduler chooses a task. -/
def isChoice : Ev T → Bool
  | .sched (.sel _ _) => true
  | _ => false

/-- The scheduler chooses `c`. -/
def isChoiceOf (c : Val) : Ev T → Bool
  | .sched (.sel _ t) => t = c
  | _ => false

/-- A message is stored in `q`. -/
def isStore (q : Val) : Ev T → Bool
  | .queue r (.stored _) => r = q
  | _ => false

/-- `c` is made runnable: `mu_sched_immed(c)` or `mu_sched_from_isr(c)` succeeds. -/
def isWake (c : Val) : Ev T → Bool
  | .sched (.immedRet t .none) => t = c
  | .sched (.isrRet t .none) => t = c
  | _ => false

/-- Someone is told that `q` is empty. -/
def isDrain (q : Val) : Ev T → Bool
  | .queue r (.getRet false _) => r = q
  | _ => false

/-- A `y` comes before the next choice of the scheduler, if there is one. -/
def soon (y : Ev T → Bool) : List (Ev T) → Bool
  | [] => true
  | e :: l => y e || (!isChoice e && soon y l)

/-- Every `x` is followed by a `y` before the next choice of the scheduler. -/
def Answered (x y : Ev T → Bool) : List (Ev T) → Prop
  | [] => True
  | e :: l => (x e = true → soon y l = true) ∧ Answered x y l

instance (x y : Ev T → Bool) : (l : List (Ev T)) → Decidable (Answered x y l)
  | [] => inferInstanceAs (Decidable True)
  | e :: l => by
    have := instDecidableAnswered x y l
    exact inferInstanceAs (Decidable (_ ∧ _))

/-- What `Answered` says, without recursion: between an `x` and any later choice there is a `y`. -/
theorem answered_iff (x y : Ev T → Bool) (tr : List (Ev T)) : Answered x y tr ↔
    ∀ (a b d : List (Ev T)) (e f : Ev T), tr = a ++ e :: b ++ f :: d → x e = true →
      isChoice f = true → ∃ g ∈ b ++ [f], y g = true := by
  have hs : ∀ l : List (Ev T), soon y l = true ↔
      ∀ b d f, l = b ++ f :: d → isChoice f = true → ∃ g ∈ b ++ [f], y g = true := by
    intro l
    induction l with
    | nil => simp [soon]
    | cons e l ih =>
      simp only [soon, Bool.or_eq_true, Bool.and_eq_true, Bool.not_eq_true', ih]
      constructor
      · rintro (h | ⟨h1, h2⟩) b d f hl hf
        · cases b with
          | nil => cases hl; exact ⟨_, by simp, h⟩
          | cons e' b => cases hl; exact ⟨_, by simp, h⟩
        · cases b with
          | nil => cases hl; rw [hf] at h1; cases h1
          | cons e' b =>
            cases hl
            obtain ⟨g, hg, h⟩ := h2 b d f rfl hf
            exact ⟨g, List.mem_cons_of_mem _ hg, h⟩
      · intro h
        by_cases hy : y e = true
        · exact .inl hy
        · refine .inr ⟨?_, ?_⟩
          · cases hc : isChoice e with
            | false => rfl
            | true =>
              obtain ⟨g, hg, h'⟩ := h [] l e rfl hc
              simp only [List.nil_append, List.mem_singleton] at hg
              subst hg; exact absurd h' hy
          · intro b d f hl hf
            obtain ⟨g, hg, h'⟩ := h (e :: b) d f (by rw [hl]; rfl) hf
            rcases List.mem_cons.mp hg with rfl | hg
            · exact absurd h' hy
            · exact ⟨g, hg, h'⟩
  induction tr with
  | nil => simp [Answered]
  | cons e0 tr ih =>
    simp only [Answered, ih, hs]
    constructor
    · rintro ⟨h1, h2⟩ a b d e f hl he hf
      cases a with
      | nil => cases hl; exact h1 he b d f rfl hf
      | cons _ a => cases hl; exact h2 a b d e f rfl he hf
    · intro h
      exact ⟨fun he b d f hl hf => h [] b d e0 f (by rw [hl]; rfl) he hf,
        fun a b d e f hl => h (e0 :: a) b d e f (by rw [hl]; rfl)⟩

/-! ## Proof -/

variable [DecidableEq T] {cfg : Sched.Cfg T R}

theorem replay_tally {cap : Nat} {onPut onGet : Val} : ∀ (tr : List Mqueue.Ev) (m m' : Mqueue.Spec.Mon),
    Mqueue.Spec.replay cap onPut onGet m tr = some m' →
    Mqueue.Spec.tally m.content.length tr = m'.content.length := by
  intro tr
  induction tr with
  | nil => intro m m' h; cases h; rfl
  | cons e tr ih =>
    intro m m' h
    rw [Mqueue.replay_cons] at h
    obtain ⟨y, h1, h2⟩ := Option.bind_eq_some_iff.mp h
    have := ih _ _ h2
    obtain ⟨mc, mp⟩ := m
    cases e <;> simp only [Mqueue.Spec.tally] <;> simp only [Mqueue.Spec.next] at h1 <;>
      (rw [← this]; congr 1) <;> first | grind | (cases mc <;> grind)

/-- The queue is empty, or the consumer is on its way. -/
def Fine (c : Val) (σ : Sched.Spec.St T) (m : Mqueue.Spec.Mon) : Prop :=
  m.content = [] ∨ c ∈ σ.irq ∨ c ∈ σ.immed

theorem wakeup_aux {cap : Nat} {onPut onGet : Val} (q c : Val) : ∀ (tr : List (Ev T))
    (σ : Sched.Spec.St T) (m : Mqueue.Spec.Mon),
    Sched.Spec.Always (Sched.Spec.legal cfg) σ (schedPart tr) →
    (∃ m', Mqueue.Spec.replay cap onPut onGet m (queuePart q tr) = some m') →
    Answered (isStore q) (isWake c) tr → Answered (isChoiceOf c) (isDrain q) tr →
    .sched .resetRet ∉ tr →
    (Fine c σ m ∨ soon (isWake c) tr = true ∨ soon (isDrain q) tr = true) →
    ∀ a b src t, tr = a ++ .sched (.sel src t) :: b →
      ∃ m', Mqueue.Spec.replay cap onPut onGet m (queuePart q a) = some m' ∧
        Fine c (Sched.Spec.track σ (schedPart a)) m' := by
  intro tr
  induction tr with
  | nil => intro σ m _ _ _ _ _ _ a b src t h; simp at h
  | cons e tr ih =>
    intro σ m hl hr h1 h2 hn hf a b src t h
    obtain ⟨h1a, h1⟩ := h1
    obtain ⟨h2a, h2⟩ := h2
    simp only [List.mem_cons, not_or] at hn
    cases a with
    | nil =>
      cases h
      refine ⟨m, rfl, ?_⟩
      simpa [soon, isWake, isDrain, isChoice, schedPart, Sched.Spec.track] using hf
    | cons e' a =>
      simp only [List.cons_append, List.cons.injEq] at h
      obtain ⟨rfl, h⟩ := h
      cases e with
      | task k =>
        have := ih σ m hl hr h1 h2 hn.2 (by simpa [soon, isWake, isDrain, isChoice] using hf) a b src t h
        exact this
      | queue r k =>
        by_cases hq : r = q
        · subst hq
          have e1 : ∀ l : List (Ev T), queuePart r (.queue r k :: l) = k :: queuePart r l := by
            intro l; simp [queuePart]
          rw [e1] at hr ⊢
          obtain ⟨m', hr⟩ := hr
          rw [Mqueue.replay_cons] at hr ⊢
          obtain ⟨m1, hm1, hr⟩ := Option.bind_eq_some_iff.mp hr
          rw [hm1]
          refine ih σ m1 hl ⟨m', hr⟩ h1 h2 hn.2 ?_ a b src t h
          obtain ⟨mc, mp⟩ := m
          by_cases hs : isStore r (.queue r k : Ev T) = true
          · exact .inr (.inl (h1a hs))
          · by_cases hd : isDrain r (.queue r k : Ev T) = true
            · refine .inl (.inl ?_)
              cases k with
              | getRet b v =>
                cases b with
                | false => simp only [Mqueue.Spec.next] at hm1; grind
                | true => simp [isDrain] at hd
              | _ => simp [isDrain] at hd
            · have hf : Fine c σ ⟨mc, mp⟩ ∨ soon (isWake c) tr = true ∨ soon (isDrain r) tr = true := by
                have hw : isWake c (.queue r k : Ev T) = false := rfl
                have hc : isChoice (.queue r k : Ev T) = false := rfl
                simpa [soon, hd, hw, hc] using hf
              rcases hf with (hf | hf) | hf
              · refine .inl (.inl ?_)
                simp only at hf
                subst hf
                cases k <;> simp only [Mqueue.Spec.next] at hm1 <;> simp [isStore] at hs <;> grind
              · exact .inl (.inr hf)
              · exact .inr hf
        · have e1 : ∀ l : List (Ev T), queuePart q (.queue r k :: l) = queuePart q l := by
            intro l; simp [queuePart, hq]
          rw [e1] at hr ⊢
          refine ih σ m hl hr h1 h2 hn.2 ?_ a b src t h
          have hw : isWake c (.queue r k : Ev T) = false := rfl
          have hc : isChoice (.queue r k : Ev T) = false := rfl
          have hd : isDrain q (.queue r k : Ev T) = false := by
            cases k with
            | getRet b v => cases b <;> simp [isDrain, hq]
            | _ => rfl
          simpa [soon, hd, hw, hc] using hf
      | sched k =>
        obtain ⟨hl1, hl⟩ := hl
        refine ih (Sched.Spec.next σ k) m hl hr h1 h2 hn.2 ?_ a b src t h
        by_cases hw : isWake c (.sched k : Ev T) = true
        · refine .inl (.inr ?_)
          cases k with
          | immedRet u er => cases er <;> simp [isWake] at hw; subst hw; simp [Sched.Spec.next]
          | isrRet u er => cases er <;> simp [isWake] at hw; subst hw; simp [Sched.Spec.next]
          | _ => simp [isWake] at hw
        · have hd : isDrain q (.sched k : Ev T) = false := rfl
          cases hc : isChoice (.sched k : Ev T) with
          | false =>
            replace hf : Fine c σ m ∨ soon (isWake c) tr = true ∨ soon (isDrain q) tr = true := by
              simpa [soon, hd, hw, hc] using hf
            refine hf.imp_left ?_
            clear hf
            rintro (hf | hf)
            · exact .inl hf
            · refine .inr ?_
              cases k with
              | immedRet u er => cases er <;> simp [Sched.Spec.next] <;> grind
              | isrRet u er => cases er <;> simp [Sched.Spec.next] <;> grind
              | deferRet u ti er => cases er <;> simpa [Sched.Spec.next] using hf
              | sel s u => simp [isChoice] at hc
              | resetRet => exact absurd rfl hn.1
              | _ => simpa [Sched.Spec.next] using hf
          | true =>
            replace hf : Fine c σ m := by simpa [soon, hd, hw, hc] using hf
            cases k with
            | sel s u =>
              by_cases hu : u = c
              · exact .inr (.inr (h2a (by simp [isChoiceOf, hu])))
              · refine .inl ?_
                rcases hf with hf | hf | hf
                · exact .inl hf
                · refine .inr (.inl ?_)
                  cases s with
                  | irq =>
                    have := hl1.2
                    simp only [Sched.Spec.next]
                    cases hi : σ.irq with
                    | nil => rw [hi] at hf; cases hf
                    | cons v w => rw [hi] at this hf; simp at this; grind
                  | _ => simpa [Sched.Spec.next] using hf
                · refine .inr (.inr ?_)
                  cases s with
                  | immed =>
                    have := hl1.2.2
                    simp only [Sched.Spec.next]
                    cases hi : σ.immed with
                    | nil => rw [hi] at hf; cases hf
                    | cons v w => rw [hi] at this hf; simp at this; grind
                  | _ => simpa [Sched.Spec.next] using hf
            | _ => simp [isChoice] at hc

/-! ## C103 -/

/-- **C103.**  Suppose that in an execution of a program, every time a message is stored in queue `q` the
consumer `c` is made runnable (successfully) before the scheduler next chooses a task, that every time
the scheduler has chosen `c`, it is found that the queue is empty before the scheduler next
chooses a task, and that the scheduler is not reset.  Then whenever the scheduler chooses a task, the
queue is empty or `c` is waiting among the interrupt or the immediate tasks. -/
theorem C103_consumer_on_its_way (hw : cfg.Wf) {mem : Val → Task.Task} {qs : Val → QConf} {x x' : Sys T}
    (hb : Boot cfg mem qs x) (p : Prog T R) {a b : List (Ev T)} {src : Sched.Src T} {t : Val}
    (h : run cfg x p = .ok (a ++ .sched (.sel src t) :: b, x')) (q c : Val) (hq : (qs q).Wf cfg.P)
    (hwake : Answered (isStore q) (isWake c) (a ++ .sched (.sel src t) :: b))
    (hdrain : Answered (isChoiceOf c) (isDrain q) (a ++ .sched (.sel src t) :: b))
    (hreset : .sched .resetRet ∉ a ++ .sched (.sel src t) :: b) :
    Mqueue.Spec.tally 0 (queuePart q a) = 0 ∨ c ∈ (Sched.Spec.books (schedPart a)).irq ∨
      c ∈ (Sched.Spec.books (schedPart a)).immed := by
  obtain ⟨L, hi⟩ := Sched.reach_inv hw (C83_scheduler_view hb p h)
  obtain ⟨l, hr, -⟩ := C99_queue_view hb p h q hq
  obtain ⟨m', g1, g2⟩ := wakeup_aux q c _ (Sched.Spec.St.start T) ⟨[], []⟩ hi.legal ⟨_, hr⟩ hwake hdrain
    hreset (.inl (.inl rfl)) a b src t rfl
  rcases g2 with g2 | g2
  · refine .inl ?_
    have := replay_tally _ _ _ g1
    rw [g2] at this
    exact this
  · exact .inr g2

/-- **C103, no lost wakeups.**  Under the same conditions, whenever the scheduler goes idle the queue is
empty: since its last reset as many messages have been taken out as were stored. -/
theorem C103_idle_means_empty (hw : cfg.Wf) {mem : Val → Task.Task} {qs : Val → QConf} {x x' : Sys T}
    (hb : Boot cfg mem qs x) (p : Prog T R) {a b : List (Ev T)} {t : Val}
    (h : run cfg x p = .ok (a ++ .sched (.sel .idle t) :: b, x')) (q c : Val) (hq : (qs q).Wf cfg.P)
    (hwake : Answered (isStore q) (isWake c) (a ++ .sched (.sel .idle t) :: b))
    (hdrain : Answered (isChoiceOf c) (isDrain q) (a ++ .sched (.sel .idle t) :: b))
    (hreset : .sched .resetRet ∉ a ++ .sched (.sel .idle t) :: b) :
    Mqueue.Spec.tally 0 (queuePart q a) = 0 := by
  rcases C103_consumer_on_its_way hw hb p h q c hq hwake hdrain hreset with g | g
  · exact g
  · obtain ⟨L, hi⟩ := Sched.reach_inv hw (C83_scheduler_view hb p h)
    have hl := hi.legal
    rw [schedPart_append] at hl
    have hl := Sched.always_at (a := schedPart a) (e := .sel .idle t) (b := schedPart b) hl
    obtain ⟨-, h1, h2, -⟩ := hl
    change (Sched.Spec.books (schedPart a)).irq = [] at h1
    change (Sched.Spec.books (schedPart a)).immed = [] at h2
    rw [h1, h2] at g
    simp at g

/-! ## A concrete case -/

namespace Example

/-- Queue 42 notifies its task 22 of every put; 22 makes the consumer 26 runnable.  Task 21 stores two
messages; the consumer takes both, and another one that is stored while it runs wakes it once more. -/
def wprog : Prog Nat Nat :=
  .immed 21 <|
  .step 4 .done (.qPut 42 100 .done (.immed 26 .done) .done) <|
  .step 5 .done (.qGet 42 .done .done <| .qPut 42 101 .done (.immed 26 .done) <| .qGet 42 .done .done <|
    .qGet 42 .done .done .done) <|
  .qPut 42 102 .done (.fromIsr 26 .done) <|
  .step 6 .done (.qGet 42 .done .done <| .qGet 42 .done .done .done) <|
  .step 7 .done (.qGet 42 .done .done .done) <|
  .step 8 .done .done .done

/-- Its trace. -/
def wtrace : List (Ev Nat) :=
  match run cfg0 boot wprog with
  | .ok (tr, _) => tr
  | .error _ => []

/-- The conditions are met, and the scheduler goes idle once, at the end. -/
example : (∃ x', run cfg0 boot wprog = .ok (wtrace, x')) ∧
    Answered (isStore 42) (isWake 26) wtrace ∧ Answered (isChoiceOf 26) (isDrain 42) wtrace ∧
    .sched .resetRet ∉ wtrace ∧
    Mqueue.Spec.tally 0 ((queuePart 42 wtrace).take 1) = 1 ∧ Sane wprog ∧
    (Sched.Spec.sels (schedPart wtrace)).map (·.2) = [21, 26, 26, 26, NULL] := by
  refine ⟨?_, by decide +kernel, by decide +kernel, by decide +kernel, by decide +kernel,
    by simp [Sane, wprog, NULL], by decide +kernel⟩
  have : ∃ tr x', run cfg0 boot wprog = .ok (tr, x') :=
    C83_safe Sched.Example.wf (mem := mem) (by intro t h; simp [mem, h]; decide) qsWf isBoot wprog
      (by simp [Sane, wprog, NULL])
  obtain ⟨tr, x', h⟩ := this
  exact ⟨x', by simp only [wtrace, h]⟩

end Example

end Mu.System
