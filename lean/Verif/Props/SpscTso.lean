import Verif.Lemmas.SpscTso

/-! # Property C79: mu_spsc between two cores with store buffers (TSO) -/

namespace Mu.Spsc.Tso
open Mu.Spsc Mu.Spsc.Spec

/-- **C79, safety.**  On two cores whose stores pass through store buffers that are released at
arbitrary moments, no execution faults, the sequence of delivered items is a prefix of the sequence of
accepted items, and at most `N - 1` items are in between. -/
theorem C79_fifo_store_buffers (q0 : Spsc) (store : List Val) (N : Nat)
    (hok : (init q0 store N).1 = .none) (halloc : N ≤ store.length) (sched : List Act) :
    ∃ s, exec (Sys.start (init q0 store N).2) sched = .ok s ∧
      delivered s.log <+: accepted s.log ∧
      (accepted s.log).length - (delivered s.log).length ≤ N - 1 := by
  obtain ⟨s, Hm, Tm, f, h1, h2⟩ := exec_inv sched (start_inv hok halloc)
  refine ⟨s, h1, ⟨_, h2.pre⟩, ?_⟩
  have := h2.le1; have := h2.le4
  omega

private theorem flush_all {N : Nat} : ∀ (n : Nat) {s : Sys} {Hm Tm f : Nat}, Inv N s Hm Tm f →
    s.pb.length ≤ n → ∃ s' Hm' Tm' f', exec s (List.replicate n .flushP) = .ok s' ∧
      Inv N s' Hm' Tm' f' ∧ s'.pb = [] ∧ s'.log = s.log := by
  intro n
  induction n with
  | zero =>
    intro s Hm Tm f h hl
    exact ⟨s, Hm, Tm, f, rfl, h, List.length_eq_zero_iff.1 (by omega), rfl⟩
  | succ n ih =>
    intro s Hm Tm f h hl
    obtain ⟨s1, Tm1, f1, g1, g2, g3, g4, -⟩ := flushP_inv h
    obtain ⟨s2, Hm2, Tm2, f2, k1, k2, k3, k4⟩ := ih g2 (by rw [g3]; simp; omega)
    exact ⟨s2, Hm2, Tm2, f2, by simp [List.replicate_succ, exec, g1, k1], k2, k3, k4.trans g4⟩

private theorem tail_all {N : Nat} {s : Sys} {Hm Tm f : Nat} (h : Inv N s Hm Tm f) (hpb : s.pb = []) :
    Tm = (accepted s.log).length := by
  have h1 := h.pb
  rw [hpb] at h1
  have h2 := congrArg List.length h1
  rw [List.length_drop, writes_length, List.length_drop] at h2
  have := h.le3; have := h.fle
  simp at h2
  omega

private def rank : CPc → Nat
  | .compare true => 9
  | .loadHead _ => 8
  | .idle => 7
  | .compare false => 6
  | .loadTail _ => 5
  | .loadSlot => 4
  | .loadItem _ => 3
  | .loadHead2 _ => 2
  | .storeHead _ _ => 1

private theorem drain_step {N : Nat} {s : Sys} {Hm Tm f : Nat} (h : Inv N s Hm Tm f)
    (hpb : s.pb = []) (hq : 0 < queued s.log) :
    ∃ s', micro s (.cons false) = .ok s' ∧ Inv N s' Hm Tm f ∧ s'.pb = [] ∧
      accepted s'.log = accepted s.log ∧
      10 * queued s'.log + rank s'.c < 10 * queued s.log + rank s.c := by
  obtain ⟨s', h1, h2⟩ := cons_inv h false
  refine ⟨s', h1, h2, ?_⟩
  have hT := tail_all h hpb
  have h2N := h.wf.two
  have l1 := h.le1; have l2 := h.le2; have l4 := h.le4
  have hch := h.chead
  have hne : (delivered s.log).length % N ≠ s.q.tail := by
    rw [h.tail]
    intro e
    have := eq_of_mod l2 (by omega) e
    simp only [queued] at hq; omega
  obtain ⟨q, pb, cb, p, c, log⟩ := s
  have hc := h.cons
  simp only at hc hq hne hch hpb ⊢
  cases c with
  | idle => simp [micro] at h1; subst h1; simp [rank, hpb]
  | compare b => cases b <;> (simp [micro] at h1; subst h1; simp [rank, hpb])
  | loadTail hh =>
    simp only at hc; subst hc
    simp only [micro, hne, if_false] at h1
    cases h1; simp [rank, hpb]
  | loadHead t =>
    simp only [micro] at h1
    obtain ⟨-, -, a1, a2⟩ := acc_append log NULL false
    split at h1
    · cases h1
      refine ⟨hpb, a1, ?_⟩
      simp only [queued, a1, a2, rank]; simp
    · cases h1; simp [rank, hpb]
  | loadSlot => simp [micro] at h1; subst h1; simp [rank, hpb]
  | loadItem slot =>
    simp only [micro] at h1
    cases hl : ldN q.store slot with
    | error e => rw [hl] at h1; simp at h1
    | ok v => rw [hl] at h1; simp at h1; subst h1; simp [rank, hpb]
  | loadHead2 x => simp [micro] at h1; subst h1; simp [rank, hpb]
  | storeHead x hh =>
    simp [micro] at h1; subst h1
    obtain ⟨-, -, a1, a2⟩ := acc_append log x true
    refine ⟨hpb, a1, ?_⟩
    simp only [queued, a1, a2, rank] at hq ⊢
    simp; omega

/-- **C79, nothing is lost.**  From every reachable state: once the producer's buffer has been
released, the consumer running by itself delivers, in order, exactly the accepted items that were not
delivered yet. -/
theorem C79_nothing_lost (q0 : Spsc) (store : List Val) (N : Nat)
    (hok : (init q0 store N).1 = .none) (halloc : N ≤ store.length) (sched : List Act) (s : Sys)
    (hs : exec (Sys.start (init q0 store N).2) sched = .ok s) :
    ∃ m s', exec s (List.replicate s.pb.length .flushP ++ List.replicate m (.cons false)) = .ok s' ∧
      accepted s'.log = accepted s.log ∧ delivered s'.log = accepted s.log := by
  obtain ⟨s0, Hm, Tm, f, h1, h2⟩ := exec_inv sched (start_inv hok halloc)
  rw [hs] at h1; cases h1
  obtain ⟨s1, Hm1, Tm1, f1, g1, g2, g3, g4⟩ := flush_all _ h2 (Nat.le_refl _)
  suffices H : ∀ k (s : Sys), Inv N s Hm1 Tm1 f1 → s.pb = [] → 10 * queued s.log + rank s.c ≤ k →
      ∃ m s', exec s (List.replicate m (.cons false)) = .ok s' ∧
        accepted s'.log = accepted s.log ∧ delivered s'.log = accepted s.log by
    obtain ⟨m, s', k1, k2, k3⟩ := H _ s1 g2 g3 (Nat.le_refl _)
    refine ⟨m, s', ?_, by rw [k2, g4], by rw [k3, g4]⟩
    rw [exec_append, g1, C.ok_bind, k1]
  intro k
  induction k with
  | zero =>
    intro s h _ hk
    have : 0 < rank s.c := by cases s.c <;> (try rename_i b; cases b) <;> simp [rank]
    omega
  | succ k ih =>
    intro s h hpb hk
    by_cases hq : 0 < queued s.log
    · obtain ⟨s1, g1, g2, g3, g4, g5⟩ := drain_step h hpb hq
      obtain ⟨m, s', f1, f2, f3⟩ := ih s1 g2 g3 (by omega)
      refine ⟨m + 1, s', ?_, f2.trans g4, f3.trans g4⟩
      simp [List.replicate_succ, exec, g1, f1]
    · refine ⟨0, s, rfl, rfl, ?_⟩
      have hp := h.pre
      have hn : (accepted s.log).drop (delivered s.log).length = [] := by
        apply List.drop_eq_nil_of_le
        simp only [queued] at hq; omega
      rw [hn, List.append_nil] at hp
      exact hp

/-- Non-vacuity of C79: a get that runs between the two stores of a put reaching memory finds nothing;
after the second store it finds the item; the producer sees FULL until the consumer's head arrives. -/
example : (exec (Sys.start (init ⟨0, 0, 0, []⟩ [0, 0] 2).2)
    ([.prod 5, .prod 0, .prod 0, .prod 0, .prod 0, .prod 0, .flushP] ++
     List.replicate 3 (.cons false) ++ [.flushP] ++ List.replicate 7 (.cons false) ++
     [.prod 6, .prod 0, .prod 0, .flushC] ++ List.replicate 6 (.prod 7))).map Sys.log
    = .ok [.putRet 5 true, .getRet false 0, .getRet true 5, .putRet 6 false, .putRet 7 true] := by
  decide

/-! ## What the assumption on the order of the stores is worth

`store[]` is not volatile (mu_spsc.h:58-63), so a compiler may emit the store of the item after the
store of `tail` (mu_spsc.c:74-75 exchanged).  Then FIFO delivery fails, already for one item. -/

/-- As `micro`, but the item is stored after the tail. -/
def microSwapped (s : Sys) : Act → C Sys
  | .prod item =>
    match s.p with
    | .storeItem item next slot =>
      .ok { s with pb := s.pb ++ [.tail next, .item slot item], p := .idle,
                   log := s.log ++ [.putRet item true] }
    | _ => micro s (.prod item)
  | a => micro s a

def execSwapped (s : Sys) : List Act → C Sys
  | [] => .ok s
  | a :: as => do let s ← microSwapped s a; execSwapped s as

theorem swapped_stores_break_fifo : ∃ sched s,
    execSwapped (Sys.start (init ⟨0, 0, 0, []⟩ [0, 0] 2).2) sched = .ok s ∧
      ¬ delivered s.log <+: accepted s.log := by
  refine ⟨List.replicate 5 (.prod 5) ++ [.flushP] ++ List.replicate 7 (.cons false), _, rfl, ?_⟩
  decide

end Mu.Spsc.Tso
