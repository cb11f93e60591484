import Verif.Model.SpscReorder
import Verif.Lemmas.Spsc

namespace Mu.Spsc.Re
open Mu.Spsc Mu.Spsc.Spec

theorem putRets_append (a b : List Ev) : putRets (a ++ b) = putRets a ++ putRets b := by
  simp [putRets]
theorem getRets_append (a b : List Ev) : getRets (a ++ b) = getRets a ++ getRets b := by
  simp [getRets]

/-- The same situation in the source order. -/
structure Sim (N : Nat) (s : Sys) (a : Spsc.Sys) : Prop where
  inv : Inv N a
  mask : s.q.mask = a.q.mask
  head : s.q.head = a.q.head
  store : s.q.store = a.q.store
  prod : match s.p with
    | .idle => a.p = .idle ∧ s.q.tail = a.q.tail
    | .loadTail x => a.p = .loadTail x ∧ s.q.tail = a.q.tail
    | .loadHead x nx => a.p = .loadHead x nx ∧ s.q.tail = a.q.tail
    | .loadSlot x nx => a.p = .loadSlot x nx ∧ s.q.tail = a.q.tail
    | .storeItem x nx slot => a.p = .storeItem x nx slot ∧ s.q.tail = a.q.tail
    | .storeTail x nx => a.p = .storeTail x nx ∧ s.q.tail = a.q.tail
    | .tailFirst x nx slot => a.p = .storeItem x nx slot ∧ s.q.tail = a.q.tail
    | .lateItem x slot => a.p = .storeItem x s.q.tail slot
  cons : match s.c with
    | .idle => a.c = .idle
    | .compare b => a.c = .compare b
    | .loadTail h => a.c = .loadTail h
    | .loadHead t => a.c = .loadHead t
    | .loadSlot => a.c = .loadSlot
    | .loadItem slot => a.c = .loadItem slot
    | .loadHead2 x => a.c = .loadHead2 x
    | .storeHead x h => a.c = .storeHead x h
    | .headFirst slot h => a.c = .loadItem slot ∧ h = a.q.head
    | .lateItem slot => a.c = .idle ∧ (slot + 1) &&& a.q.mask = a.q.head ∧ slot < N
  puts : putRets s.log = putRets a.log
  gets : match s.c with
    | .lateItem slot => ∃ x, a.q.store[slot]? = some x ∧ getRets a.log = getRets s.log ++ [.getRet true x]
    | _ => getRets s.log = getRets a.log

/-- Reached in the source order. -/
def Steps (a a' : Spsc.Sys) : Prop := ∃ as, Spsc.exec a as = .ok a'

theorem Steps.refl (a : Spsc.Sys) : Steps a a := ⟨[], rfl⟩
theorem Steps.one {a a' : Spsc.Sys} (x : Spsc.Act) (h : Spsc.micro a x = .ok a') : Steps a a' :=
  ⟨[x], by simp [Spsc.exec, h]⟩
theorem Steps.trans {a b c : Spsc.Sys} (h : Steps a b) (g : Steps b c) : Steps a c := by
  obtain ⟨x, hx⟩ := h
  obtain ⟨y, hy⟩ := g
  exact ⟨x ++ y, by rw [Spsc.exec_append, hx]; exact hy⟩

theorem slot_ne_tail {N : Nat} {a : Spsc.Sys} (h : Inv N a) {slot : Nat}
    (hs : (slot + 1) &&& a.q.mask = a.q.head) (hq : queued a.log < N - 1) : a.q.tail ≠ slot := by
  intro e
  have hf := h.rep.full_iff
  rw [h.queued_eq, e] at hf
  have := hf.1 hs
  omega

theorem prod_sim {N : Nat} {s : Sys} {a : Spsc.Sys} (h : Sim N s a) (item : Val) (moved : Bool) :
    ∃ s' a', micro s (.prod item moved) = .ok s' ∧ Sim N s' a' ∧ Steps a a' := by
  obtain ⟨q, p, c, log⟩ := s
  obtain ⟨aq, ap, ac, alog⟩ := a
  obtain ⟨hi, hm, hh, hst, hp, hc, hpu, hg⟩ := h
  simp only at hm hh hst hp hc hpu hg
  -- a step that touches neither the store nor the log
  have easy : ∀ (p' : PPc) (ap' : Spsc.PPc) (y : Val),
      Spsc.micro ⟨aq, ap, ac, alog⟩ (.prod y) = .ok ⟨aq, ap', ac, alog⟩ →
      micro ⟨q, p, c, log⟩ (.prod item moved) = .ok ⟨q, p', c, log⟩ →
      (Sim N ⟨q, p', c, log⟩ ⟨aq, ap', ac, alog⟩) →
      ∃ s' a', micro ⟨q, p, c, log⟩ (.prod item moved) = .ok s' ∧ Sim N s' a' ∧
        Steps ⟨aq, ap, ac, alog⟩ a' := by
    intro p' ap' y h1 h2 h3
    exact ⟨_, _, h2, h3, Steps.one (.prod y) h1⟩
  have inv' : ∀ (y : Val) (a' : Spsc.Sys), Spsc.micro ⟨aq, ap, ac, alog⟩ (.prod y) = .ok a' →
      Inv N a' := by
    intro y a' e
    obtain ⟨b, hb, hb', _⟩ := micro_prod_inv hi y
    obtain rfl : b = a' := Except.ok.inj (hb.symm.trans e)
    exact hb'
  cases p with
  | idle =>
    obtain ⟨rfl, ht⟩ := hp
    exact easy _ (.loadTail item) item rfl rfl
      ⟨inv' item _ rfl, hm, hh, hst, ⟨rfl, ht⟩, hc, hpu, hg⟩
  | loadTail x =>
    obtain ⟨rfl, ht⟩ := hp
    refine easy (.loadHead x ((aq.tail + 1) &&& aq.mask)) (.loadHead x ((aq.tail + 1) &&& aq.mask)) item rfl
      (by simp only [micro]; rw [ht, hm]) ⟨inv' item _ rfl, hm, hh, hst, ⟨rfl, ht⟩, hc, hpu, hg⟩
  | loadHead x nx =>
    obtain ⟨rfl, ht⟩ := hp
    by_cases he : nx = aq.head
    · have e1 : Spsc.micro ⟨aq, .loadHead x nx, ac, alog⟩ (.prod item) =
          .ok ⟨aq, .idle, ac, alog ++ [.putRet x false]⟩ := by simp [Spsc.micro, he]
      refine ⟨⟨q, .idle, c, log ++ [.putRet x false]⟩, _, by simp [micro, he, hh], ?_,
        Steps.one _ e1⟩
      refine ⟨inv' _ _ e1, hm, hh, hst, ⟨rfl, ht⟩, hc, ?_, ?_⟩
      · simp [putRets_append, hpu]
      · cases c <;> simpa [getRets_append, getRets] using hg
    · have e1 : Spsc.micro ⟨aq, .loadHead x nx, ac, alog⟩ (.prod item) =
          .ok ⟨aq, .loadSlot x nx, ac, alog⟩ := by simp [Spsc.micro, he]
      exact easy (.loadSlot x nx) _ item e1 (by simp [micro, he, hh])
        ⟨inv' _ _ e1, hm, hh, hst, ⟨rfl, ht⟩, hc, hpu, hg⟩
  | loadSlot x nx =>
    obtain ⟨rfl, ht⟩ := hp
    cases moved with
    | false =>
      exact easy (.storeItem x nx aq.tail) (.storeItem x nx aq.tail) item rfl
        (by simp [micro, ht]) ⟨inv' item _ rfl, hm, hh, hst, ⟨rfl, ht⟩, hc, hpu, hg⟩
    | true =>
      exact easy (.tailFirst x nx aq.tail) (.storeItem x nx aq.tail) item rfl
        (by simp [micro, ht]) ⟨inv' item _ rfl, hm, hh, hst, ⟨rfl, ht⟩, hc, hpu, hg⟩
  | storeItem x nx slot =>
    obtain ⟨rfl, ht⟩ := hp
    obtain ⟨-, hq, hsl⟩ := hi.prod
    have hlt : slot < aq.store.length := by
      have := hi.rep.tail_lt
      simp only at this hsl; rw [hsl]; exact this
    have e1 : Spsc.micro ⟨aq, .storeItem x nx slot, ac, alog⟩ (.prod item) =
        .ok ⟨{ aq with store := aq.store.set slot x }, .storeTail x nx, ac, alog⟩ := by
      simp only [Spsc.micro]; rw [stN_ok hlt]; rfl
    refine ⟨⟨{ q with store := q.store.set slot x }, .storeTail x nx, c, log⟩, _, ?_, ?_,
      Steps.one _ e1⟩
    · simp only [micro]; rw [stN_ok (by rw [hst]; exact hlt)]; rfl
    · refine ⟨inv' _ _ e1, hm, hh, by simp only [hst], ⟨rfl, ht⟩, hc, hpu, ?_⟩
      cases c with
      | lateItem sl =>
        obtain ⟨y, g1, g2⟩ := hg
        have := slot_ne_tail hi hc.2.1 hq
        simp only at this hsl
        exact ⟨y, by simp only; rw [List.getElem?_set_ne (by rw [hsl]; exact this)]; exact g1, g2⟩
      | _ => exact hg
  | storeTail x nx =>
    obtain ⟨rfl, ht⟩ := hp
    have e1 : Spsc.micro ⟨aq, .storeTail x nx, ac, alog⟩ (.prod item) =
        .ok ⟨{ aq with tail := nx }, .idle, ac, alog ++ [.putRet x true]⟩ := rfl
    refine ⟨⟨{ q with tail := nx }, .idle, c, log ++ [.putRet x true]⟩, _, rfl, ?_, Steps.one _ e1⟩
    refine ⟨inv' _ _ e1, hm, hh, hst, ⟨rfl, rfl⟩, hc, ?_, ?_⟩
    · simp [putRets_append, hpu]
    · cases c <;> simpa [getRets_append, getRets] using hg
  | tailFirst x nx slot =>
    obtain ⟨rfl, ht⟩ := hp
    exact ⟨⟨{ q with tail := nx }, .lateItem x slot, c, log⟩, _, rfl,
      ⟨hi, hm, hh, hst, rfl, hc, hpu, hg⟩, Steps.refl _⟩
  | lateItem x slot =>
    subst hp
    obtain ⟨-, hq, hsl⟩ := hi.prod
    have hlt : slot < aq.store.length := by
      have := hi.rep.tail_lt
      simp only at this hsl; rw [hsl]; exact this
    have e1 : Spsc.micro ⟨aq, .storeItem x q.tail slot, ac, alog⟩ (.prod item) =
        .ok ⟨{ aq with store := aq.store.set slot x }, .storeTail x q.tail, ac, alog⟩ := by
      simp only [Spsc.micro]; rw [stN_ok hlt]; rfl
    have i1 := inv' _ _ e1
    obtain ⟨b, hb, hb', _⟩ := micro_prod_inv i1 item
    have e2 : Spsc.micro ⟨{ aq with store := aq.store.set slot x }, .storeTail x q.tail, ac, alog⟩
        (.prod item) = .ok ⟨{ aq with store := aq.store.set slot x, tail := q.tail }, .idle, ac,
          alog ++ [.putRet x true]⟩ := rfl
    obtain rfl := Except.ok.inj (hb.symm.trans e2)
    refine ⟨⟨{ q with store := q.store.set slot x }, .idle, c, log ++ [.putRet x true]⟩, _, ?_, ?_,
      (Steps.one _ e1).trans (Steps.one _ e2)⟩
    · simp only [micro]; rw [stN_ok (by rw [hst]; exact hlt)]; rfl
    · refine ⟨hb', hm, hh, by simp only [hst], ⟨rfl, rfl⟩, hc, ?_, ?_⟩
      · simp [putRets_append, hpu]
      · cases c with
        | lateItem sl =>
          obtain ⟨y, g1, g2⟩ := hg
          have := slot_ne_tail hi hc.2.1 hq
          simp only at this hsl
          refine ⟨y, by simp only; rw [List.getElem?_set_ne (by rw [hsl]; exact this)]; exact g1, ?_⟩
          simpa [getRets_append, getRets] using g2
        | _ => simpa [getRets_append, getRets] using hg

theorem cons_sim {N : Nat} {s : Sys} {a : Spsc.Sys} (h : Sim N s a) (tf moved : Bool)
    (hl : ∀ x slot, s.p ≠ .lateItem x slot) :
    ∃ s' a', micro s (.cons tf moved) = .ok s' ∧ Sim N s' a' ∧ Steps a a' := by
  obtain ⟨q, p, c, log⟩ := s
  obtain ⟨aq, ap, ac, alog⟩ := a
  obtain ⟨hi, hm, hh, hst, hp, hc, hpu, hg⟩ := h
  simp only at hm hh hst hp hc hpu hg hl
  have ht : q.tail = aq.tail := by
    cases p with
    | lateItem x slot => exact absurd rfl (hl x slot)
    | _ => exact hp.2
  have inv' : ∀ {b : Spsc.Sys} (_ : Inv N b) (y : Bool) (a' : Spsc.Sys),
      Spsc.micro b (.cons y) = .ok a' → Inv N a' := by
    intro b hb y a' e
    obtain ⟨b', hb, hb', _⟩ := micro_cons_inv hb y
    obtain rfl : b' = a' := Except.ok.inj (hb.symm.trans e)
    exact hb'
  cases c with
  | idle =>
    subst hc
    exact ⟨⟨q, p, .compare tf, log⟩, _, rfl,
      ⟨inv' hi tf _ rfl, hm, hh, hst, hp, rfl, hpu, hg⟩, Steps.one (.cons tf) rfl⟩
  | compare b =>
    subst hc
    cases b with
    | false =>
      refine ⟨⟨q, p, .loadTail q.head, log⟩, _, rfl,
        ⟨inv' hi tf _ rfl, hm, hh, hst, hp, by simp only [hh], hpu, hg⟩, Steps.one (.cons tf) rfl⟩
    | true =>
      refine ⟨⟨q, p, .loadHead q.tail, log⟩, _, rfl,
        ⟨inv' hi tf _ rfl, hm, hh, hst, hp, by simp only [ht], hpu, hg⟩, Steps.one (.cons tf) rfl⟩
  | loadTail hd =>
    subst hc
    by_cases he : hd = aq.tail
    · have e1 : Spsc.micro ⟨aq, ap, .loadTail hd, alog⟩ (.cons tf) =
          .ok ⟨aq, ap, .idle, alog ++ [.getRet false NULL]⟩ := by simp [Spsc.micro, he]
      refine ⟨⟨q, p, .idle, log ++ [.getRet false NULL]⟩, _, by simp [micro, he, ht],
        ⟨inv' hi tf _ e1, hm, hh, hst, hp, rfl, ?_, ?_⟩, Steps.one _ e1⟩
      · simpa [putRets_append, putRets] using hpu
      · simp [getRets_append, hg]
    · have e1 : Spsc.micro ⟨aq, ap, .loadTail hd, alog⟩ (.cons tf) =
          .ok ⟨aq, ap, .loadSlot, alog⟩ := by simp [Spsc.micro, he]
      exact ⟨⟨q, p, .loadSlot, log⟩, _, by simp [micro, he, ht],
        ⟨inv' hi tf _ e1, hm, hh, hst, hp, rfl, hpu, hg⟩, Steps.one _ e1⟩
  | loadHead t =>
    subst hc
    by_cases he : aq.head = t
    · have e1 : Spsc.micro ⟨aq, ap, .loadHead t, alog⟩ (.cons tf) =
          .ok ⟨aq, ap, .idle, alog ++ [.getRet false NULL]⟩ := by simp [Spsc.micro, he]
      refine ⟨⟨q, p, .idle, log ++ [.getRet false NULL]⟩, _, by simp [micro, he, hh],
        ⟨inv' hi tf _ e1, hm, hh, hst, hp, rfl, ?_, ?_⟩, Steps.one _ e1⟩
      · simpa [putRets_append, putRets] using hpu
      · simp [getRets_append, hg]
    · have e1 : Spsc.micro ⟨aq, ap, .loadHead t, alog⟩ (.cons tf) =
          .ok ⟨aq, ap, .loadSlot, alog⟩ := by simp [Spsc.micro, he]
      exact ⟨⟨q, p, .loadSlot, log⟩, _, by simp [micro, he, hh],
        ⟨inv' hi tf _ e1, hm, hh, hst, hp, rfl, hpu, hg⟩, Steps.one _ e1⟩
  | loadSlot =>
    subst hc
    exact ⟨⟨q, p, .loadItem q.head, log⟩, _, rfl,
      ⟨inv' hi tf _ rfl, hm, hh, hst, hp, by simp only [hh], hpu, hg⟩, Steps.one (.cons tf) rfl⟩
  | loadItem slot =>
    subst hc
    cases moved with
    | true =>
      exact ⟨⟨q, p, .headFirst slot q.head, log⟩, _, rfl,
        ⟨hi, hm, hh, hst, hp, ⟨rfl, hh⟩, hpu, hg⟩, Steps.refl _⟩
    | false =>
      obtain ⟨-, hsl⟩ := hi.cons
      have hlt : slot < aq.store.length := by
        have := hi.rep.head_lt
        simp only at this hsl; rw [hsl]; exact this
      have e1 : Spsc.micro ⟨aq, ap, .loadItem slot, alog⟩ (.cons tf) =
          .ok ⟨aq, ap, .loadHead2 aq.store[slot], alog⟩ := by
        simp only [Spsc.micro]; rw [ldN_ok hlt]; rfl
      refine ⟨⟨q, p, .loadHead2 aq.store[slot], log⟩, _, ?_,
        ⟨inv' hi tf _ e1, hm, hh, hst, hp, rfl, hpu, hg⟩, Steps.one _ e1⟩
      simp only [micro, Bool.false_eq_true, if_false]
      rw [hst, ldN_ok hlt]; rfl
  | loadHead2 x =>
    subst hc
    exact ⟨⟨q, p, .storeHead x q.head, log⟩, _, rfl,
      ⟨inv' hi tf _ rfl, hm, hh, hst, hp, by simp only [hh], hpu, hg⟩, Steps.one (.cons tf) rfl⟩
  | storeHead x hd =>
    subst hc
    have e1 : Spsc.micro ⟨aq, ap, .storeHead x hd, alog⟩ (.cons tf) =
        .ok ⟨{ aq with head := (hd + 1) &&& aq.mask }, ap, .idle, alog ++ [.getRet true x]⟩ := rfl
    refine ⟨⟨{ q with head := (hd + 1) &&& q.mask }, p, .idle, log ++ [.getRet true x]⟩, _, rfl,
      ⟨inv' hi tf _ e1, hm, by simp only [hm], hst, hp, rfl, ?_, ?_⟩, Steps.one _ e1⟩
    · simpa [putRets_append, putRets] using hpu
    · simp [getRets_append, hg]
  | headFirst slot hd =>
    obtain ⟨rfl, rfl⟩ := hc
    obtain ⟨-, hsl⟩ := hi.cons
    have hlt : slot < aq.store.length := by
      have := hi.rep.head_lt
      simp only at this hsl; rw [hsl]; exact this
    have e1 : Spsc.micro ⟨aq, ap, .loadItem slot, alog⟩ (.cons tf) =
        .ok ⟨aq, ap, .loadHead2 aq.store[slot], alog⟩ := by
      simp only [Spsc.micro]; rw [ldN_ok hlt]; rfl
    have i1 := inv' hi _ _ e1
    have e2 : Spsc.micro ⟨aq, ap, .loadHead2 aq.store[slot], alog⟩ (.cons tf) =
        .ok ⟨aq, ap, .storeHead aq.store[slot] aq.head, alog⟩ := rfl
    have i2 := inv' i1 _ _ e2
    have s2 := (Steps.one _ e1).trans (Steps.one _ e2)
    cases moved with
    | false =>
      refine ⟨⟨q, p, .storeHead aq.store[slot] aq.head, log⟩, _, ?_,
        ⟨i2, hm, hh, hst, hp, rfl, hpu, hg⟩, s2⟩
      simp only [micro, Bool.false_eq_true, if_false]
      rw [hst, ldN_ok hlt]; rfl
    | true =>
      have e3 : Spsc.micro ⟨aq, ap, .storeHead aq.store[slot] aq.head, alog⟩ (.cons tf) =
          .ok ⟨{ aq with head := (aq.head + 1) &&& aq.mask }, ap, .idle,
            alog ++ [.getRet true aq.store[slot]]⟩ := rfl
      have i3 := inv' i2 _ _ e3
      have hN : slot < N := by
        simp only at hsl
        rw [hsl, hi.rep.head]
        exact Nat.mod_lt _ (by have := hi.rep.wf.two; omega)
      refine ⟨⟨{ q with head := (aq.head + 1) &&& q.mask }, p, .lateItem slot, log⟩, _, rfl,
        ⟨i3, hm, by simp only [hm], hst, hp, ⟨rfl, by simp only at hsl ⊢; rw [hsl], hN⟩, ?_,
          ⟨aq.store[slot], by simp, ?_⟩⟩, s2.trans (Steps.one _ e3)⟩
      · simpa [putRets_append, putRets] using hpu
      · simp only [getRets_append] at hg ⊢; rw [hg]; rfl
  | lateItem slot =>
    obtain ⟨rfl, h1, h2⟩ := hc
    obtain ⟨x, g1, g2⟩ := hg
    refine ⟨⟨q, p, .idle, log ++ [.getRet true x]⟩, _, ?_,
      ⟨hi, hm, hh, hst, hp, rfl, ?_, ?_⟩, Steps.refl _⟩
    · simp only [micro]; rw [hst, ldN_some g1]; rfl
    · simpa [putRets_append, putRets] using hpu
    · simp only [getRets_append] at g2 ⊢; rw [g2]; rfl

theorem exec_sim {N : Nat} (as : List Act) : ∀ {s : Sys} {a : Spsc.Sys}, Sim N s a → RunsOn s as →
    ∃ s' a', exec s as = .ok s' ∧ Sim N s' a' ∧ Steps a a' := by
  induction as with
  | nil => intro s a h _; exact ⟨s, a, rfl, h, Steps.refl _⟩
  | cons x as ih =>
    intro s a h hr
    obtain ⟨h1, h2⟩ := hr
    have : ∃ s' a', micro s x = .ok s' ∧ Sim N s' a' ∧ Steps a a' := by
      cases x with
      | prod y m => exact prod_sim h y m
      | cons tf m => exact cons_sim h tf m (fun x slot e => h1 x slot tf m e rfl)
    obtain ⟨s1, a1, e1, g1, t1⟩ := this
    obtain ⟨s2, a2, e2, g2, t2⟩ := ih g1 (h2 s1 e1)
    exact ⟨s2, a2, by simp [exec, e1, e2], g2, t1.trans t2⟩

theorem start_sim {q0 : Spsc} {store : List Val} {N : Nat} (hok : (init q0 store N).1 = .none)
    (halloc : N ≤ store.length) :
    Sim N (Sys.start (init q0 store N).2) (Spsc.Sys.start (init q0 store N).2) :=
  ⟨Spsc.start_inv hok halloc, rfl, rfl, rfl, ⟨rfl, rfl⟩, rfl, rfl, rfl⟩

end Mu.Spsc.Re
