import Verif.Lemmas.SchedProps
import Verif.Model.SchedIsr

/-! # Interrupts inside `mu_sched_step` -/

namespace Mu.Sched.Isr
open Spec

variable {T R : Type} {cfg : Cfg T R}

/-- Interrupt puts on the queue alone. -/
def putsQ (q : Spsc.Spsc) : List Val → C (List (Ev T) × Spsc.Spsc)
  | [] => .ok ([], q)
  | t :: ts => do
    let (e, q) ← Spsc.put q t
    let (evs, q) ← putsQ q ts
    .ok (.isrRet t (if e = .full then .full else .none) :: evs, q)

theorem fromIsr_eq (s : Sched T) (t : Val) : fromIsr s t = (do
    let (e, q) ← Spsc.put s.irq t
    .ok (if e = .full then .full else .none, { s with irq := q })) := by
  unfold fromIsr
  cases Spsc.put s.irq t with
  | error e => rfl
  | ok x =>
    obtain ⟨e, q⟩ := x
    simp only [C.ok_bind]
    split <;> rfl

theorem run_isrs (ts : List Val) : ∀ s : Sched T, run cfg s (isrs ts) = (do
    let (evs, q) ← putsQ s.irq ts
    .ok (evs, { s with irq := q })) := by
  induction ts with
  | nil => intro s; rfl
  | cons t ts ih =>
    intro s
    simp only [isrs, run, putsQ, fromIsr_eq]
    cases Spsc.put s.irq t with
    | error e => rfl
    | ok x =>
      simp only [C.ok_bind, ih]
      cases putsQ (T := T) x.2 ts with
      | error e => rfl
      | ok y => rfl

theorem putsQ_snoc {q q1 q2 : Spsc.Spsc} {ts : List Val} {evs : List (Ev T)} {t : Val}
    {e : Spsc.Err} (h1 : putsQ q ts = .ok (evs, q1)) (h2 : Spsc.put q1 t = .ok (e, q2)) :
    putsQ q (ts ++ [t]) = .ok (evs ++ [.isrRet t (if e = .full then .full else .none)], q2) := by
  induction ts generalizing q evs with
  | nil =>
    cases h1
    simp [putsQ, h2]
  | cons u ts ih =>
    simp only [List.cons_append, putsQ] at h1 ⊢
    cases hp : Spsc.put q u with
    | error e => rw [hp] at h1; cases h1
    | ok x =>
      rw [hp] at h1
      simp only [C.ok_bind] at h1 ⊢
      cases hq : putsQ (T := T) x.2 ts with
      | error e => rw [hq] at h1; cases h1
      | ok y =>
        rw [hq] at h1
        simp only [C.ok_bind] at h1
        cases h1
        rw [ih hq]
        rfl

/-- The queue stays well-formed. -/
theorem put_rep' {q : Spsc.Spsc} {N d : Nat} {l : List Val} (h : Spsc.Rep q N d l) (t : Val) :
    ∃ e q' l', Spsc.put q t = .ok (e, q') ∧ Spsc.Rep q' N d (l ++ l') ∧ q'.head = q.head := by
  by_cases hc : l.length < N - 1
  · obtain ⟨q', h1, h2⟩ := (Spsc.put_rep h t).1 hc
    refine ⟨_, q', [t], h1, h2, ?_⟩
    rw [h2.head, h.head]
  · exact ⟨_, q, [], (Spsc.put_rep h t).2 hc, by simpa using h, rfl⟩

theorem fetch_irq (now : T) (s : Sched T) (q : Spsc.Spsc) :
    fetch cfg now { s with irq := q } = (do
      let (t, evs, s') ← fetch cfg now s
      .ok (t, evs, { s' with irq := q })) := by
  unfold fetch
  simp only
  split
  · cases ldN s.deferred (cfg.P.szSub s.count 1) with
    | error e => rfl
    | ok d =>
      simp only [C.ok_bind]
      split <;> rfl
  · rfl

/-- Log so far: the interrupts' part and the step's part. -/
def LogIs (log evsI evsM : List (Ev T)) : Prop :=
  log.filter isIsr = evsI ∧ log.filter (fun e => !isIsr e) = evsM

theorem LogIs.isr {log a b : List (Ev T)} (h : LogIs log a b) (t : Val) (e : Err) :
    LogIs (log ++ [.isrRet t e]) (a ++ [.isrRet t e]) b := by
  obtain ⟨h1, h2⟩ := h
  have hi : isIsr (.isrRet t e : Ev T) = true := rfl
  constructor
  · rw [List.filter_append, h1]; simp [hi]
  · rw [List.filter_append, h2]; simp [hi]

theorem LogIs.main {log a b c : List (Ev T)} (h : LogIs log a b) (hc : ∀ e ∈ c, isIsr e = false) :
    LogIs (log ++ c) a (b ++ c) := by
  obtain ⟨h1, h2⟩ := h
  have e1 : c.filter isIsr = [] := List.filter_eq_nil_iff.mpr (by intro e he; simp [hc e he])
  have e2 : c.filter (fun e => !isIsr e) = c :=
    List.filter_eq_self.mpr (by intro e he; simp [hc e he])
  simp [LogIs, List.filter_append, h1, h2, e1, e2]

theorem fetch_log (now : T) {s s' : Sched T} {t : Val} {evs : List (Ev T)}
    (h : fetch cfg now s = .ok (t, evs, s')) : ∀ e ∈ evs, isIsr e = false := by
  unfold fetch at h
  split at h
  · cases hd : ldN s.deferred (cfg.P.szSub s.count 1) with
    | error e => rw [hd] at h; cases h
    | ok d =>
      rw [hd] at h
      simp only [C.ok_bind] at h
      split at h <;> cases h <;> simp [isIsr]
  · cases h; simp [isIsr]

theorem fetch_immed (now : T) {s s' : Sched T} {t : Val} {evs : List (Ev T)}
    (h : fetch cfg now s = .ok (t, evs, s')) : s'.immed = s.immed := by
  unfold fetch at h
  split at h
  · cases hd : ldN s.deferred (cfg.P.szSub s.count 1) with
    | error e => rw [hd] at h; cases h
    | ok d =>
      rw [hd] at h
      simp only [C.ok_bind] at h
      split at h <;> cases h <;> rfl
  · cases h; rfl

/-- The invariant of an interrupted step that was called in state `s0`; `ts` are the tasks queued by
interrupts since. -/
inductive J (cfg : Cfg T R) (now : T) (s0 : Sched T) (N : Nat) : M T → List Val → Prop
  /-- still inside `mu_spsc_get` -/
  | get {q : Spsc.Spsc} {d : Nat} {l ts : List Val} {evs log : List (Ev T)} {c : Spsc.CPc}
      (hp : putsQ s0.irq ts = .ok (evs, q)) (hr : Spsc.Rep q N d l) (hl : LogIs log evs [])
      (hc : match c with
        | .idle => True
        | .compare _ => True
        | .loadTail h => h = q.head
        | .loadHead t => (t = q.head → ∃ A B evA evB q1, ts = A ++ B ∧
              putsQ s0.irq A = .ok (evA, q1) ∧ q1.head = q1.tail ∧ putsQ q1 B = .ok (evB, q) ∧
              evs = evA ++ evB) ∧ (t ≠ q.head → l ≠ [])
        | .loadSlot => l ≠ []
        | .loadItem slot => l ≠ [] ∧ slot = q.head
        | .loadHead2 x => l.head? = some x
        | .storeHead x h => l.head? = some x ∧ h = q.head) :
      J cfg now s0 N ⟨{ s0 with irq := q }, .get c, log⟩ ts
  /-- no interrupt task found -/
  | rest {A B : List Val} {evA evB evM log : List (Ev T)} {q1 q2 : Spsc.Spsc} {d2 : Nat}
      {l2 : List Val} {x : Sched T} {pc : Pc}
      (hA : putsQ s0.irq A = .ok (evA, q1)) (hE : q1.head = q1.tail)
      (hB : putsQ q1 B = .ok (evB, q2)) (hr : Spsc.Rep q2 N d2 l2)
      (hl : LogIs log (evA ++ evB) evM)
      (hx : match pc with
        | .fetch => x = { s0 with irq := q1, curr := NULL } ∧ evM = []
        | .queue => ∃ x', fetch cfg now { s0 with irq := q1, curr := NULL } = .ok (NULL, evM, x') ∧
            x = { x' with curr := NULL }
        | .idle => ∃ x' e im, fetch cfg now { s0 with irq := q1, curr := NULL } =
              .ok (NULL, evM, x') ∧ Queue.get cfg.P x'.immed = .ok (false, e, im) ∧
              x = { x' with immed := im, curr := e }
        | _ => False) :
      J cfg now s0 N ⟨{ x with irq := q2 }, pc, log⟩ (A ++ B)
  /-- chosen -/
  | done {A B : List Val} {evA evB evM log : List (Ev T)} {q1 q3 : Spsc.Spsc} {d3 : Nat}
      {l3 : List Val} {s2 : Sched T}
      (hA : putsQ s0.irq A = .ok (evA, q1))
      (hS : select cfg now { s0 with irq := q1 } = .ok (evM, s2))
      (hB : putsQ s2.irq B = .ok (evB, q3)) (hr : Spsc.Rep q3 N d3 l3)
      (hl : LogIs log (evA ++ evB) evM) :
      J cfg now s0 N ⟨{ s2 with irq := q3 }, .chosen, log⟩ (A ++ B)

theorem J.isr {now : T} {s0 : Sched T} {N : Nat} {m : M T} {ts : List Val}
    (h : J cfg now s0 N m ts) (t : Val) :
    ∃ m', isr t m = .ok m' ∧ J cfg now s0 N m' (ts ++ [t]) := by
  cases h with
  | @get q d l _ evs log c hp hr hl hc =>
    obtain ⟨e, q', l', h1, h2, h3⟩ := put_rep' hr t
    refine ⟨_, by simp only [Isr.isr, fromIsr_eq, h1, C.ok_bind]; rfl, ?_⟩
    refine J.get (l := l ++ l') (putsQ_snoc hp h1) h2 (hl.isr t _) ?_
    cases c with
    | idle => trivial
    | compare b => trivial
    | loadTail h => simp only at hc ⊢; rw [hc, h3]
    | loadHead u =>
      simp only at hc ⊢
      rw [h3]
      refine ⟨fun hu => ?_, fun hu => ?_⟩
      · obtain ⟨A, B, evA, evB, q1, e1, e2, e3, e4, e5⟩ := hc.1 hu
        exact ⟨A, B ++ [t], evA, _, q1, by simp [e1], e2, e3, putsQ_snoc e4 h1, by simp [e5]⟩
      · have := hc.2 hu
        simp [this]
    | loadSlot => simp only at hc ⊢; simp [hc]
    | loadItem s => simp only at hc ⊢; simp [hc, h3]
    | loadHead2 x => simp only at hc ⊢; simp [hc]
    | storeHead x h => simp only at hc ⊢; simp [hc, h3]
  | @rest A B evA evB evM log q1 q2 d2 l2 x pc hA hE hB hr hl hx =>
    obtain ⟨e, q', l', h1, h2, h3⟩ := put_rep' hr t
    refine ⟨_, by simp only [Isr.isr, fromIsr_eq, h1, C.ok_bind]; rfl, ?_⟩
    rw [List.append_assoc]
    refine J.rest (x := x) hA hE (putsQ_snoc hB h1) h2 ?_ hx
    rw [← List.append_assoc]
    exact hl.isr t _
  | @done A B evA evB evM log q1 q3 d3 l3 s2 hA hS hB hr hl =>
    obtain ⟨e, q', l', h1, h2, h3⟩ := put_rep' hr t
    refine ⟨_, by simp only [Isr.isr, fromIsr_eq, h1, C.ok_bind]; rfl, ?_⟩
    rw [List.append_assoc]
    refine J.done (s2 := s2) hA hS (putsQ_snoc hB h1) h2 ?_
    rw [← List.append_assoc]
    exact hl.isr t _

/-- Distance of the step from the choice. -/
def dist : Pc → Nat
  | .get .idle => 10
  | .get (.compare _) => 9
  | .get (.loadTail _) => 8
  | .get (.loadHead _) => 8
  | .get .loadSlot => 7
  | .get (.loadItem _) => 6
  | .get (.loadHead2 _) => 5
  | .get (.storeHead _ _) => 4
  | .fetch => 3
  | .queue => 2
  | .idle => 1
  | .chosen => 0

theorem J.main {now : T} {s0 : Sched T} {N : Nat} {m : M T} {ts : List Val} {L0 : LSt T}
    (hw : cfg.Wf) (hs0 : Rep cfg s0 L0)
    (h : J cfg now s0 N m ts) (tf : Bool) :
    ∃ m', main cfg now tf m = .ok m' ∧ J cfg now s0 N m' ts ∧ dist m'.pc ≤ dist m.pc - 1 := by
  cases h with
  | @get q d l _ evs log c hp hr hl hc =>
    have toRest : ∀ (A B : List Val) evA evB q1, ts = A ++ B →
        putsQ s0.irq A = .ok (evA, q1) → q1.head = q1.tail → putsQ q1 B = .ok (evB, q) →
        evs = evA ++ evB → 
        J cfg now s0 N ⟨{ s0 with irq := q, curr := NULL }, .fetch, log⟩ ts := by
      intro A B evA evB q1 e1 e2 e3 e4 e5
      subst e1 e5
      exact J.rest (x := { s0 with irq := q1, curr := NULL }) e2 e3 e4 hr hl ⟨rfl, rfl⟩
    cases c with
    | idle => exact ⟨_, rfl, J.get hp hr hl trivial, by simp [dist]⟩
    | compare b =>
      cases b with
      | false => exact ⟨_, rfl, J.get hp hr hl rfl, by simp [dist]⟩
      | true =>
        refine ⟨_, rfl, J.get (c := .loadHead q.tail) hp hr hl ⟨fun ht => ?_, fun ht => ?_⟩,
          by simp [dist]⟩
        · exact ⟨ts, [], evs, [], q, by simp, hp, ht.symm, rfl, by simp⟩
        · intro hl0
          exact ht (hr.empty_iff.mpr hl0).symm
    | loadTail hh =>
      simp only at hc
      subst hc
      by_cases he : q.head = q.tail
      · refine ⟨⟨{ s0 with irq := q, curr := NULL }, .fetch, log⟩, ?_,
          toRest ts [] evs [] q (by simp) hp he rfl (by simp), by simp [dist]⟩
        simp [Isr.main, Spsc.micro, he]
      · refine ⟨⟨{ s0 with irq := q }, .get .loadSlot, log⟩, ?_, J.get hp hr hl ?_, by simp [dist]⟩
        · simp [Isr.main, Spsc.micro, he]
        · exact fun hn => he (hr.empty_iff.mpr hn)
    | loadHead u =>
      simp only at hc
      by_cases he : q.head = u
      · obtain ⟨A, B, evA, evB, q1, e1, e2, e3, e4, e5⟩ := hc.1 he.symm
        refine ⟨⟨{ s0 with irq := q, curr := NULL }, .fetch, log⟩, ?_,
          toRest A B evA evB q1 e1 e2 e3 e4 e5, by simp [dist]⟩
        simp [Isr.main, Spsc.micro, he]
      · refine ⟨⟨{ s0 with irq := q }, .get .loadSlot, log⟩, ?_, J.get hp hr hl
          (hc.2 (fun e => he e.symm)), by simp [dist]⟩
        simp [Isr.main, Spsc.micro, he]
    | loadSlot => exact ⟨_, rfl, J.get hp hr hl ⟨hc, rfl⟩, by simp [dist]⟩
    | loadItem slot =>
      obtain ⟨h1, rfl⟩ := hc
      cases l with
      | nil => exact absurd rfl h1
      | cons x r =>
        refine ⟨⟨{ s0 with irq := q }, .get (.loadHead2 x), log⟩, ?_, J.get hp hr hl rfl,
          by simp [dist]⟩
        simp only [Isr.main, Spsc.micro]
        rw [ldN_some hr.front]
        rfl
    | loadHead2 x => exact ⟨_, rfl, J.get hp hr hl ⟨hc, rfl⟩, by simp [dist]⟩
    | storeHead x hh =>
      obtain ⟨h1, rfl⟩ := hc
      cases l with
      | nil => cases h1
      | cons y r =>
        cases h1
        have hne : ¬ q.head = q.tail := by
          intro e; have := hr.empty_iff.mp e; cases this
        have hget : Spsc.get q = .ok (.none, x, { q with head := (q.head + 1) &&& q.mask }) := by
          simp only [Spsc.get, if_neg hne]
          rw [ldN_some hr.front]; rfl
        have hsel : select cfg now { s0 with irq := q } = .ok ([.sel .irq x],
            { s0 with irq := { q with head := (q.head + 1) &&& q.mask }, curr := x }) := by
          simp [select, hget]
        have := J.done (B := []) (log := log ++ [.sel .irq x]) hp hsel rfl hr.pop
          (by simpa using hl.main (c := [.sel .irq x]) (by simp [isIsr]))
        rw [List.append_nil] at this
        exact ⟨_, rfl, this, by simp [dist]⟩
  | @rest A B evA evB evM log q1 q2 d2 l2 x pc hA hE hB hr hl hx =>
    have hempty : Spsc.get q1 = .ok (.empty, NULL, q1) := by simp [Spsc.get, hE]
    have hsel0 : select cfg now { s0 with irq := q1 } = (do
        let (task, evs, s) ← fetch cfg now { s0 with irq := q1, curr := NULL }
        let s := { s with curr := task }
        if task ≠ NULL then .ok (evs, s)
        else do
          let (b, e, immed) ← Queue.get cfg.P s.immed
          let s := { s with immed := immed, curr := e }
          if b then .ok (evs ++ [.sel .immed e], s)
          else .ok (evs ++ [.sel .idle s.idle], { s with curr := s.idle })) := by
      simp [select, hempty]
    -- `fetch` and the queue succeed
    obtain ⟨q0, hq0⟩ : ∃ q0, q0 = s0.irq := ⟨_, rfl⟩
    obtain ⟨t, evf, x', hf, hkeep, himm⟩ : ∃ t evf x',
        fetch cfg now { s0 with irq := q1, curr := NULL } = .ok (t, evf, x') ∧ x'.irq = q1 ∧
        x'.immed = s0.immed := by
      have hrep : Rep cfg { s0 with curr := NULL } { L0 with curr := NULL } :=
        ⟨hs0.irq, hs0.immed, hs0.immedCap, hs0.count, hs0.le, hs0.alloc, hs0.dq, rfl, hs0.idle⟩
      obtain ⟨s', f1, _⟩ := fetch_ok (cfg := cfg) hw hrep now
      have him : s'.immed = s0.immed := fetch_immed (s := { s0 with curr := NULL }) now f1
      have := fetch_irq (cfg := cfg) now { s0 with curr := NULL } q1
      rw [f1] at this
      exact ⟨_, _, _, this, rfl, him⟩
    cases pc with
    | fetch =>
      obtain ⟨rfl, rfl⟩ := hx
      have hf2 := fetch_irq (cfg := cfg) now { s0 with irq := q1, curr := NULL } q2
      rw [hf] at hf2
      simp only [C.ok_bind] at hf2
      have hlog := hl.main (fetch_log now hf)
      by_cases hn : t = NULL
      · refine ⟨⟨{ x' with curr := NULL, irq := q2 }, .queue, log ++ evf⟩, ?_, ?_, by simp [dist]⟩
        · simp [Isr.main, hf2, hn]
        · refine J.rest (x := { x' with curr := NULL }) hA hE hB hr hlog ?_
          exact ⟨x', by rw [hf, hn]; rfl, rfl⟩
      · refine ⟨⟨{ x' with curr := t, irq := q2 }, .chosen, log ++ evf⟩, ?_, ?_, by simp [dist]⟩
        · simp [Isr.main, hf2, hn]
        · have hs : select cfg now { s0 with irq := q1 } = .ok (evf, { x' with curr := t }) := by
            rw [hsel0, hf]; simp [hn]
          refine J.done (s2 := { x' with curr := t }) hA hs ?_ hr hlog
          simp only [hkeep]; exact hB
    | queue =>
      obtain ⟨x'', hf', rfl⟩ := hx
      rw [hf] at hf'
      cases hf'
      obtain ⟨b, e, im, hq⟩ : ∃ b e im, Queue.get cfg.P s0.immed = .ok (b, e, im) := by
        cases hl0 : L0.immed with
        | nil =>
          have := hs0.immed
          rw [hl0] at this
          exact ⟨_, _, _, Queue.access_nil (P := cfg.P) this true⟩
        | cons y r =>
          have := hs0.immed
          rw [hl0] at this
          exact ⟨_, _, _, Queue.access_cons (P := cfg.P) this
            (by rw [hs0.immedCap]; exact hw.immed) true⟩
      rw [← himm] at hq
      cases b with
      | true =>
        refine ⟨⟨{ x' with immed := im, curr := e, irq := q2 }, .chosen, log ++ [.sel .immed e]⟩,
          ?_, ?_, by simp [dist]⟩
        · simp [Isr.main, hq]
        · have hs : select cfg now { s0 with irq := q1 } =
              .ok (evM ++ [.sel .immed e], { x' with immed := im, curr := e }) := by
            rw [hsel0, hf]; simp [hq]
          refine J.done (s2 := { x' with immed := im, curr := e }) hA hs ?_ hr
            (hl.main (by simp [isIsr]))
          simp only [hkeep]; exact hB
      | false =>
        refine ⟨⟨{ x' with immed := im, curr := e, irq := q2 }, .idle, log⟩, ?_, ?_,
          by simp [dist]⟩
        · simp [Isr.main, hq]
        · exact J.rest (x := { x' with immed := im, curr := e }) hA hE hB hr hl
            ⟨x', e, im, hf, hq, rfl⟩
    | idle =>
      obtain ⟨x'', e, im, hf', hq, rfl⟩ := hx
      rw [hf] at hf'
      cases hf'
      refine ⟨⟨{ x' with immed := im, curr := x'.idle, irq := q2 }, .chosen,
        log ++ [.sel .idle x'.idle]⟩, ?_, ?_, by simp [dist]⟩
      · simp [Isr.main]
      · have hs : select cfg now { s0 with irq := q1 } =
            .ok (evM ++ [.sel .idle x'.idle], { x' with immed := im, curr := x'.idle }) := by
          rw [hsel0, hf]; simp [hq]
        refine J.done (s2 := { x' with immed := im, curr := x'.idle }) hA hs ?_ hr
          (hl.main (by simp [isIsr]))
        simp only [hkeep]; exact hB
    | get c => exact absurd hx (by simp)
    | chosen => exact absurd hx (by simp)
  | @done A B evA evB evM log q1 q3 d3 l3 s2 hA hS hB hr hl =>
    exact ⟨_, rfl, J.done hA hS hB hr hl, Nat.le_refl _⟩

theorem exec_J {now : T} {s0 : Sched T} {L0 : LSt T} {N : Nat} (hw : cfg.Wf)
    (hs0 : Rep cfg s0 L0) : ∀ (as : List Act) (m : M T) (ts : List Val),
    J cfg now s0 N m ts → ∃ m', exec cfg now m as = .ok m' ∧
      J cfg now s0 N m' (ts ++ isrTasks as) ∧ dist m'.pc ≤ dist m.pc - mains as := by
  intro as
  induction as with
  | nil => intro m ts h; exact ⟨m, rfl, by simpa [isrTasks] using h, by simp [mains]⟩
  | cons a as ih =>
    intro m ts h
    cases a with
    | main tf =>
      obtain ⟨m1, h1, h2, h3⟩ := h.main hw hs0 tf
      obtain ⟨m2, g1, g2, g3⟩ := ih m1 ts h2
      refine ⟨m2, by simp [exec, h1, g1], by simpa [isrTasks] using g2, ?_⟩
      simp only [mains, List.countP_cons] at g3 ⊢
      simp only [if_true]; omega
    | isr t =>
      obtain ⟨m1, h1, h2⟩ := h.isr t
      have hpc : m1.pc = m.pc := by
        simp only [Isr.isr] at h1
        cases hf : fromIsr m.s t with
        | error e => rw [hf] at h1; cases h1
        | ok x => rw [hf] at h1; simp only [C.ok_bind] at h1; cases h1; rfl
      obtain ⟨m2, g1, g2, g3⟩ := ih m1 _ h2
      refine ⟨m2, by simp [exec, h1, g1], by simpa [isrTasks] using g2, ?_⟩
      rw [hpc] at g3
      simpa [mains, List.countP_cons] using g3

end Mu.Sched.Isr
