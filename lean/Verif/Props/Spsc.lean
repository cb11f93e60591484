import Verif.Lemmas.Spsc

/-! # Properties C11–C15: mu_spsc -/

namespace Mu.Spsc
open Spec (accepted delivered queued)

/-- **C15a.**  For every store_size (in particular all 65536 values of a `uint16_t`) init succeeds
iff it is a power of two and at least 2. -/
theorem C15_init_iff_power_of_two (q0 : Spsc) (store : List Val) (n : Nat) :
    (init q0 store n).1 = .none ↔ (∃ k, n = 2 ^ k) ∧ 2 ≤ n := by
  rw [init_ok_iff]
  constructor
  · rintro ⟨k, hk, rfl⟩
    refine ⟨⟨k, rfl⟩, ?_⟩
    have : 2 ^ 1 ≤ 2 ^ k := Nat.pow_le_pow_right (by decide) hk
    omega
  · rintro ⟨⟨k, rfl⟩, h⟩
    refine ⟨k, ?_, rfl⟩
    cases k with
    | zero => simp at h
    | succ k => omega

/-- **C15b.**  Otherwise it returns MU_SPSC_ERR_SIZE and leaves the object untouched. -/
theorem C15_init_failure (q0 : Spsc) (store : List Val) (n : Nat)
    (h : ¬ ((∃ k, n = 2 ^ k) ∧ 2 ≤ n)) : init q0 store n = (.size, q0) := by
  have h1 := mt (C15_init_iff_power_of_two q0 store n).1 h
  unfold init at h1 ⊢
  split
  · rfl
  · rename_i h2; simp [h2, reset] at h1

/-- On success the queue is empty and its capacity is store_size - 1. -/
theorem C15_init_success (q0 : Spsc) (store : List Val) (n : Nat)
    (h : (init q0 store n).1 = .none) :
    (init q0 store n).2 = { mask := n - 1, head := 0, tail := 0, store := store } ∧
      capacity (init q0 store n).2 = n - 1 := by
  have : (init q0 store n).2 = { mask := n - 1, head := 0, tail := 0, store := store } := by
    unfold init at h ⊢
    split
    · rename_i h2; simp [h2] at h
    · rfl
  exact ⟨this, by rw [this]; rfl⟩

example : (init ⟨9, 9, 9, []⟩ [0, 0, 0, 0] 4).1 = .none ∧
    init ⟨9, 9, 9, []⟩ [0, 0, 0, 0] 6 = (.size, ⟨9, 9, 9, []⟩) ∧
    (init ⟨9, 9, 9, []⟩ [] 32768).1 = .none ∧ (init ⟨9, 9, 9, []⟩ [] 1).1 = .size := by decide

/-- **C11.**  After a successful init with store_size `N`, every sequential history behaves as a
FIFO list bounded by `N - 1` (and never faults). -/
theorem C11_sequential_fifo (q0 : Spsc) (store : List Val) (N : Nat)
    (hok : (init q0 store N).1 = .none) (halloc : N ≤ store.length) (ops : List Op) :
    ∃ q', run (init q0 store N).2 ops = .ok ((Spec.run N [] ops).1, q') := by
  obtain ⟨q', d, h, _⟩ := run_refines ops (init_rep hok halloc)
  exact ⟨q', h⟩

example : (run (init ⟨9, 9, 9, []⟩ [0, 0, 0, 0] 4).2
    [.put 1, .put 2, .put 3, .put 4, .get, .put 5, .get, .get, .get, .get]).map Prod.fst
    = .ok [.err .none, .err .none, .err .none, .err .full, .item .none 1, .err .none,
           .item .none 2, .item .none 3, .item .none 5, .item .empty 0] := by decide

/-- **C12.**  Under every interleaving of the individual shared accesses of put and get, no
execution faults, and the sequence of delivered items is a prefix of the sequence of accepted
items, with at most `N - 1` items in between. -/
theorem C12_fifo_all_interleavings (q0 : Spsc) (store : List Val) (N : Nat)
    (hok : (init q0 store N).1 = .none) (halloc : N ≤ store.length) (sched : List Act) :
    ∃ s, exec (Sys.start (init q0 store N).2) sched = .ok s ∧
      delivered s.log <+: accepted s.log ∧
      (accepted s.log).length - (delivered s.log).length ≤ N - 1 := by
  obtain ⟨s, h1, h2⟩ := exec_inv sched (start_inv hok halloc)
  refine ⟨s, h1, ⟨_, h2.pre⟩, ?_⟩
  have := h2.rep.len
  rw [h2.queued_eq] at this
  exact this

/-- rank used to show that the consumer makes progress -/
private def rank : CPc → Nat
  | .compare true => 9
  | .loadHead _ => 8
  | .idle => 7
  | .compare false => 6
  | .loadTail _ => 5
  | .loadSlot => 4
  | .loadItem _ => 3
  | .loadHead2 _ => 2
  | .storeHead _ _ => 1

private theorem drain_step {N : Nat} {s : Sys} (h : Inv N s) (hq : 0 < queued s.log) :
    ∃ s', micro s (.cons false) = .ok s' ∧ Inv N s' ∧ accepted s'.log = accepted s.log ∧
      10 * queued s'.log + rank s'.c < 10 * queued s.log + rank s.c := by
  obtain ⟨s', h1, h2, _, h4, _, h6⟩ := micro_cons_inv h false
  refine ⟨s', h1, h2, h4, ?_⟩
  have hne : s.q.head ≠ s.q.tail := by
    intro e
    have := h.rep.empty_iff.1 e
    have hl := h.queued_eq
    rw [this] at hl; simp at hl; omega
  obtain ⟨q, p, c, log⟩ := s
  have hc := h.cons
  simp only at hc hq hne h6 ⊢
  cases c with
  | idle => simp [micro] at h1; subst h1; simp [rank]
  | compare b => cases b <;> (simp [micro] at h1; subst h1; simp [rank])
  | loadTail hh =>
    simp only at hc; subst hc
    simp only [micro, hne, if_false] at h1
    cases h1; simp [rank]
  | loadHead t =>
    simp only [micro] at h1
    split at h1
    · cases h1; simp only [rank] at *; omega
    · cases h1; simp [rank]
  | loadSlot => simp [micro] at h1; subst h1; simp [rank]
  | loadItem slot =>
    simp only [micro] at h1
    cases hl : ldN q.store slot with
    | error e => rw [hl] at h1; simp at h1
    | ok v => rw [hl] at h1; simp at h1; subst h1; simp [rank]
  | loadHead2 x => simp [micro] at h1; subst h1; simp [rank]
  | storeHead x hh =>
    simp [micro] at h1; subst h1
    simp only [rank]
    have : queued (log ++ [.getRet true x]) = queued log - 1 := by
      simp [queued, Spec.queued, accepted_append, delivered_append, Spec.accepted, Spec.delivered]
      omega
    omega

/-- **C12, nothing is lost.**  In every reachable state, letting the consumer run on by itself
delivers, in order, exactly the items accepted but not yet delivered. -/
theorem C12_nothing_lost (q0 : Spsc) (store : List Val) (N : Nat)
    (hok : (init q0 store N).1 = .none) (halloc : N ≤ store.length) (sched : List Act) (s : Sys)
    (hs : exec (Sys.start (init q0 store N).2) sched = .ok s) :
    ∃ m s', exec s (List.replicate m (.cons false)) = .ok s' ∧
      accepted s'.log = accepted s.log ∧ delivered s'.log = accepted s.log := by
  obtain ⟨s0, h1, h2⟩ := exec_inv sched (start_inv hok halloc)
  rw [hs] at h1; cases h1
  suffices H : ∀ k (s : Sys), Inv N s → 10 * queued s.log + rank s.c ≤ k →
      ∃ m s', exec s (List.replicate m (.cons false)) = .ok s' ∧
        accepted s'.log = accepted s.log ∧ delivered s'.log = accepted s.log from
    H _ s h2 (Nat.le_refl _)
  intro k
  induction k with
  | zero =>
    intro s h hk
    have : 0 < rank s.c := by cases s.c <;> (try rename_i b; cases b) <;> simp [rank]
    omega
  | succ k ih =>
    intro s h hk
    by_cases hq : 0 < queued s.log
    · obtain ⟨s1, g1, g2, g3, g4⟩ := drain_step h hq
      obtain ⟨m, s', f1, f2, f3⟩ := ih s1 g2 (by omega)
      refine ⟨m + 1, s', ?_, f2.trans g3, f3.trans g3⟩
      simp [List.replicate_succ, exec, g1, f1]
    · refine ⟨0, s, rfl, rfl, ?_⟩
      have := h.pre
      have hl := h.queued_eq
      have : (accepted s.log).drop (delivered s.log).length = [] :=
        List.length_eq_zero_iff.1 (by rw [h.queued_eq]; omega)
      have hp := h.pre
      rw [this, List.append_nil] at hp
      exact hp

/-- Non-vacuity of C12: an interleaving in which a put and a get overlap step by step. -/
example : (exec (Sys.start (init ⟨0, 0, 0, []⟩ [0, 0] 2).2)
    [.prod 5, .cons true, .prod 0, .cons false, .prod 0, .prod 0, .prod 0, .prod 0, .cons false,
     .cons false, .cons false, .prod 6, .prod 0, .prod 0, .cons false, .cons false, .cons false,
     .cons false, .cons false]).map Sys.log
    = .ok [.putRet 5 true, .getRet false 0, .putRet 6 false, .getRet true 5] := by decide

/-- **C13a.**  Whenever put returns FULL, at the instant of the load that decides it (inside the
call) exactly `N - 1` items are queued.  Hence a put during which fewer than `N - 1` items are
queued throughout succeeds. -/
theorem C13_full_not_spurious (q0 : Spsc) (store : List Val) (N : Nat)
    (hok : (init q0 store N).1 = .none) (halloc : N ≤ store.length) (sched : List Act) (s s' : Sys)
    (hs : exec (Sys.start (init q0 store N).2) sched = .ok s) (x y : Val)
    (hstep : micro s (.prod x) = .ok s') (hret : s'.log = s.log ++ [.putRet y false]) :
    queued s.log = N - 1 ∧ s.p ≠ .idle := by
  obtain ⟨s0, h1, h2⟩ := exec_inv sched (start_inv hok halloc)
  rw [hs] at h1; cases h1
  have hf := h2.rep.full_iff
  rw [h2.queued_eq] at hf
  obtain ⟨q, p, c, log⟩ := s
  have hp := h2.prod
  simp only at hp hret hf ⊢
  cases p with
  | loadHead z nx =>
    simp only at hp
    simp only [micro] at hstep
    split at hstep
    · rename_i he
      refine ⟨hf.1 ?_, by simp⟩
      rw [← hp, he]
    · cases hstep; simp at hret
  | storeItem z nx slot =>
    simp only [micro] at hstep
    cases hl : stN q.store slot z with
    | error e => rw [hl] at hstep; simp at hstep
    | ok v => rw [hl] at hstep; simp at hstep; subst hstep; simp at hret
  | storeTail z nx => simp [micro] at hstep; subst hstep; simp at hret
  | _ => simp [micro] at hstep; subst hstep; simp at hret

/-- Number of gets that have returned. -/
def getsReturned (log : List Ev) : Nat :=
  log.countP fun | .getRet _ _ => true | _ => false

/-- **C13b.**  Whenever get returns EMPTY, there was an instant during that very call (the consumer
was inside a call, and no get returned between that instant and the return in question) at which
the queue was empty.  Hence a get during which the queue is never empty succeeds. -/
theorem C13_empty_not_spurious (q0 : Spsc) (store : List Val) (N : Nat)
    (hok : (init q0 store N).1 = .none) (halloc : N ≤ store.length) (sched : List Act) (s s' : Sys)
    (hs : exec (Sys.start (init q0 store N).2) sched = .ok s) (tf : Bool) (v : Val)
    (hstep : micro s (.cons tf) = .ok s') (hret : s'.log = s.log ++ [.getRet false v]) :
    v = NULL ∧ ∃ pre post s1, sched = pre ++ post ∧
      exec (Sys.start (init q0 store N).2) pre = .ok s1 ∧ queued s1.log = 0 ∧ s1.c ≠ .idle ∧
      getsReturned s1.log = getsReturned s.log := by
  have hinv : ∀ sched s, exec (Sys.start (init q0 store N).2) sched = .ok s → Inv N s := by
    intro sched s hs
    obtain ⟨s0, h1, h2⟩ := exec_inv sched (start_inv hok halloc)
    rw [hs] at h1; cases h1; exact h2
  have hempty : ∀ s, Inv N s → s.q.head = s.q.tail → queued s.log = 0 := by
    intro s h e
    have := h.rep.empty_iff.1 e
    rw [← h.queued_eq, this]; rfl
  -- a stale tail equal to head was loaded at an instant at which the queue was empty
  have stale : ∀ (sched : List Act) (s : Sys),
      exec (Sys.start (init q0 store N).2) sched = .ok s → s.c = .loadHead s.q.head →
      ∃ pre post s1, sched = pre ++ post ∧
        exec (Sys.start (init q0 store N).2) pre = .ok s1 ∧ queued s1.log = 0 ∧ s1.c ≠ .idle ∧
        getsReturned s1.log = getsReturned s.log := by
    intro sched
    generalize hn : sched.length = n
    induction n generalizing sched with
    | zero =>
      intro s hs hc
      have : sched = [] := List.length_eq_zero_iff.1 hn
      subst this
      simp [exec] at hs; subst hs
      simp [Sys.start] at hc
    | succ n ih =>
      intro s hs hc
      have hne : sched ≠ [] := by intro e; simp [e] at hn
      obtain ⟨as, a, rfl⟩ : ∃ as a, sched = as ++ [a] :=
        ⟨_, _, (List.dropLast_concat_getLast hne).symm⟩
      rw [exec_append] at hs
      obtain ⟨sp, hsp, hip⟩ := exec_inv as (start_inv hok halloc)
      rw [hsp] at hs
      simp only [C.ok_bind, exec] at hs
      cases hm : micro sp a with
      | error e => rw [hm] at hs; simp at hs
      | ok s2 =>
        rw [hm] at hs
        simp at hs; subst hs
        simp at hn
        cases a with
        | prod item =>
          obtain ⟨s', g1, g2, g3, g4, g5, g6⟩ := micro_prod_inv hip item
          rw [hm] at g1; cases g1
          rw [g3, g5] at hc
          obtain ⟨pre, post, s1, e1, e2, e3, e4, e5⟩ := ih as hn sp hsp hc
          refine ⟨pre, post ++ [.prod item], s1, by simp [e1], e2, e3, e4, ?_⟩
          rw [e5]
          -- a producer step logs no get
          obtain ⟨q, p, c, log⟩ := sp
          cases p with
          | storeItem z nx slot =>
            simp only [micro] at hm
            cases hl : stN q.store slot z with
            | error e => rw [hl] at hm; simp at hm
            | ok v => rw [hl] at hm; simp at hm; subst hm; rfl
          | loadHead z nx =>
            simp only [micro] at hm
            split at hm <;> (cases hm; simp [getsReturned])
          | storeTail z nx => simp [micro] at hm; subst hm; simp [getsReturned]
          | _ => simp [micro] at hm; subst hm; rfl
        | cons tf =>
          obtain ⟨q, p, c, log⟩ := sp
          cases c with
          | compare b =>
            cases b with
            | false => simp [micro] at hm; subst hm; simp at hc
            | true =>
              simp [micro] at hm; subst hm
              simp at hc
              exact ⟨as, [.cons tf], _, rfl, hsp, hempty _ hip hc.symm, by simp, rfl⟩
          | loadItem slot =>
            simp only [micro] at hm
            cases hl : ldN q.store slot with
            | error e => rw [hl] at hm; simp at hm
            | ok v => rw [hl] at hm; simp at hm; subst hm; simp at hc
          | loadTail hh =>
            simp only [micro] at hm
            split at hm <;> (cases hm; simp at hc)
          | loadHead hh =>
            simp only [micro] at hm
            split at hm <;> (cases hm; simp at hc)
          | _ => simp [micro] at hm; subst hm; simp at hc
  have hi := hinv sched s hs
  obtain ⟨q, p, c, log⟩ := s
  have hc := hi.cons
  simp only at hc hret
  cases c with
  | loadTail hh =>
    simp only at hc
    simp only [micro] at hstep
    split at hstep
    · rename_i he
      cases hstep
      simp at hret
      refine ⟨hret.symm, sched, [], _, by simp, hs, hempty _ hi ?_, by simp, rfl⟩
      rw [← hc, he]
    · cases hstep; simp at hret
  | loadHead t =>
    simp only [micro] at hstep
    split at hstep
    · rename_i he
      cases hstep
      simp at hret
      refine ⟨hret.symm, stale sched _ hs ?_⟩
      simp [he]
    · cases hstep; simp at hret
  | loadItem slot =>
    simp only [micro] at hstep
    cases hl : ldN q.store slot with
    | error e => rw [hl] at hstep; simp at hstep
    | ok v => rw [hl] at hstep; simp at hstep; subst hstep; simp at hret
  | storeHead z hh => simp [micro] at hstep; subst hstep; simp at hret
  | compare b => cases b <;> (simp [micro] at hstep; subst hstep; simp at hret)
  | _ => simp [micro] at hstep; subst hstep; simp at hret

/-- Number of puts that have returned. -/
def putsReturned (log : List Ev) : Nat :=
  log.countP fun | .putRet _ _ => true | _ => false

private def pprog : PPc → Nat
  | .idle => 0
  | .loadTail _ => 1
  | .loadHead _ _ => 2
  | .loadSlot _ _ => 3
  | .storeItem _ _ _ => 4
  | .storeTail _ _ => 5

private def cprog : CPc → Nat
  | .idle => 0
  | .compare _ => 1
  | .loadTail _ => 2
  | .loadHead _ => 2
  | .loadSlot => 3
  | .loadItem _ => 4
  | .loadHead2 _ => 5
  | .storeHead _ _ => 6

/-- **C13c, wait-freedom.**  Whatever the other side does, each put finishes within 6 actions of the
producer and each get within 7 actions of the consumer: after any schedule, the number of producer
actions is at most 6 times the number of finished puts plus 5, and likewise for the consumer. -/
theorem C13_wait_free (q : Spsc) (sched : List Act) (s : Sys)
    (hs : exec (Sys.start q) sched = .ok s) :
    sched.countP (fun | .prod _ => true | _ => false) ≤ 6 * putsReturned s.log + 5 ∧
    sched.countP (fun | .cons _ => true | _ => false) ≤ 7 * getsReturned s.log + 6 := by
  have H : ∀ (sched : List Act) (s0 s : Sys), exec s0 sched = .ok s →
      sched.countP (fun | .prod _ => true | _ => false) + 6 * putsReturned s0.log + pprog s0.p
        ≤ 6 * putsReturned s.log + pprog s.p ∧
      sched.countP (fun | .cons _ => true | _ => false) + 7 * getsReturned s0.log + cprog s0.c
        ≤ 7 * getsReturned s.log + cprog s.c := by
    intro sched
    induction sched with
    | nil => intro s0 s h; simp [exec] at h; subst h; simp
    | cons a as ih =>
      intro s0 s h
      simp only [exec] at h
      cases hm : micro s0 a with
      | error e => rw [hm] at h; simp at h
      | ok s1 =>
        rw [hm] at h
        simp only [C.ok_bind] at h
        obtain ⟨i1, i2⟩ := ih s1 s h
        obtain ⟨q, p, c, log⟩ := s0
        cases a with
        | prod x =>
          simp only [List.countP_cons]
          cases p with
          | storeItem z nx slot =>
            simp only [micro] at hm
            cases hl : stN q.store slot z with
            | error e => rw [hl] at hm; simp at hm
            | ok v => rw [hl] at hm; simp at hm; subst hm; simp [pprog] at i1 i2 ⊢; omega
          | loadHead z nx =>
            simp only [micro] at hm
            split at hm <;>
              (cases hm; simp [pprog, putsReturned, getsReturned] at i1 i2 ⊢; omega)
          | storeTail z nx =>
            simp [micro] at hm; subst hm
            simp [pprog, putsReturned, getsReturned] at i1 i2 ⊢; omega
          | _ =>
            simp [micro] at hm; subst hm
            simp [pprog, putsReturned, getsReturned] at i1 i2 ⊢; omega
        | cons tf =>
          simp only [List.countP_cons]
          cases c with
          | loadItem slot =>
            simp only [micro] at hm
            cases hl : ldN q.store slot with
            | error e => rw [hl] at hm; simp at hm
            | ok v => rw [hl] at hm; simp at hm; subst hm; simp [cprog] at i1 i2 ⊢; omega
          | loadTail z =>
            simp only [micro] at hm
            split at hm <;>
              (cases hm; simp [cprog, putsReturned, getsReturned] at i1 i2 ⊢; omega)
          | loadHead z =>
            simp only [micro] at hm
            split at hm <;>
              (cases hm; simp [cprog, putsReturned, getsReturned] at i1 i2 ⊢; omega)
          | compare b =>
            cases b <;> (simp [micro] at hm; subst hm
                         simp [cprog, putsReturned, getsReturned] at i1 i2 ⊢; omega)
          | _ =>
            simp [micro] at hm; subst hm
            simp [cprog, putsReturned, getsReturned] at i1 i2 ⊢; omega
  obtain ⟨h1, h2⟩ := H sched _ s hs
  have p5 : pprog s.p ≤ 5 := by cases s.p <;> simp [pprog]
  have c6 : cprog s.c ≤ 6 := by cases s.c <;> simp [cprog]
  have a1 : putsReturned (Sys.start q).log = 0 := rfl
  have a2 : getsReturned (Sys.start q).log = 0 := rfl
  have a3 : pprog (Sys.start q).p = 0 := rfl
  have a4 : cprog (Sys.start q).c = 0 := rfl
  omega

/-- One action changes no slot at or beyond `N`. -/
theorem micro_beyond {N : Nat} {s s' : Sys} (h : Inv N s) (a : Act) (e : micro s a = .ok s') :
    s'.q.store.drop N = s.q.store.drop N := by
  have two := h.rep.wf.two
  have ht : s.q.tail < N := by rw [h.rep.tail]; exact Nat.mod_lt _ (by omega)
  cases a with
  | prod x =>
    have hp := h.prod
    simp only [micro] at e
    split at e
    any_goals (first | (cases e; rfl) | (split at e <;> cases e <;> rfl))
    next item nx slot hs =>
      rw [hs] at hp
      simp only at hp
      obtain ⟨st, e1, e2⟩ := C.bind_eq_ok e
      cases e2
      unfold stN at e1
      split at e1
      · cases e1
        exact List.drop_set_of_lt (by omega)
      · cases e1
  | cons b =>
    simp only [micro] at e
    split at e
    any_goals (first | (cases e; rfl) | (split at e <;> cases e <;> rfl))
    next slot hs =>
      obtain ⟨st, e1, e2⟩ := C.bind_eq_ok e
      cases e2
      rfl

theorem exec_beyond {N : Nat} (as : List Act) : ∀ {s s' : Sys}, Inv N s → exec s as = .ok s' →
    s'.q.store.drop N = s.q.store.drop N := by
  induction as with
  | nil => intro s s' _ e; cases e; rfl
  | cons a as ih =>
    intro s s' h e
    obtain ⟨s1, e1, e2⟩ := C.bind_eq_ok e
    obtain ⟨s2, h1, h2⟩ := micro_inv h a
    obtain rfl := Except.ok.inj (e1.symm.trans h1)
    exact (ih h2 e2).trans (micro_beyond h a e1)

/-- **C14.**  Under every interleaving: no access leaves the store (no fault), head and tail stay
below `N`, only the first `N` slots are ever changed, and at no instant is the producer about to
write the slot the consumer is about to read. -/
theorem C14_no_slot_race (q0 : Spsc) (store : List Val) (N : Nat)
    (hok : (init q0 store N).1 = .none) (halloc : N ≤ store.length) (sched : List Act) :
    ∃ s, exec (Sys.start (init q0 store N).2) sched = .ok s ∧
      s.q.head < N ∧ s.q.tail < N ∧
      (∀ x nx i j, s.p = .storeItem x nx i → s.c = .loadItem j → i ≠ j) ∧
      (∀ x nx i, s.p = .storeItem x nx i → i < N) ∧ (∀ j, s.c = .loadItem j → j < N) ∧
      s.q.store.drop N = store.drop N := by
  obtain ⟨s, h1, h2⟩ := exec_inv sched (start_inv hok halloc)
  have two := h2.rep.wf.two
  have hh : s.q.head < N := by rw [h2.rep.head]; exact Nat.mod_lt _ (by omega)
  have ht : s.q.tail < N := by rw [h2.rep.tail]; exact Nat.mod_lt _ (by omega)
  have hst : (init q0 store N).2.store = store := by rw [(C15_init_success q0 store N hok).1]
  refine ⟨s, h1, hh, ht, ?_, ?_, ?_, (exec_beyond sched (start_inv hok halloc) h1).trans (congrArg (List.drop N) hst)⟩
  · intro x nx i j hp hc
    have a := h2.prod
    have b := h2.cons
    rw [hp] at a
    rw [hc] at b
    simp only at a b
    obtain ⟨_, _, rfl⟩ := a
    obtain ⟨b1, rfl⟩ := b
    intro e
    have := h2.rep.empty_iff.1 e.symm
    have hq := h2.queued_eq
    rw [this] at hq
    simp at hq; omega
  · intro x nx i hp
    have a := h2.prod
    rw [hp] at a
    simp only at a
    rw [a.2.2]; exact ht
  · intro j hc
    have b := h2.cons
    rw [hc] at b
    simp only at b
    rw [b.2]; exact hh

/-- Non-vacuity of C14: a reachable state in which the producer is about to write slot 1 while the
consumer is about to read slot 0. -/
example : (exec (Sys.start (init ⟨0, 0, 0, []⟩ [0, 0, 0, 0] 4).2)
    [.prod 5, .prod 0, .prod 0, .prod 0, .prod 0, .prod 0, .prod 6, .cons false, .cons false,
     .prod 0, .cons false, .prod 0, .prod 0, .cons false]).map (fun s => (s.p, s.c))
    = .ok (.storeItem 6 2 1, .loadItem 0) := by decide

end Mu.Spsc
