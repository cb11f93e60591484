import Verif.Lemmas.Spsc
import Verif.Spec.SpscLin

/-! # Property C78: mu_spsc is linearizable -/

namespace Mu.Spsc.Lin
open Mu.Spsc

theorem visible_append (a b : List LEv) : visible (a ++ b) = visible a ++ visible b := by
  induction a with
  | nil => rfl
  | cons e a ih => cases e <;> simp [visible, ih]

theorem runs_append (n : Nat) (a b : List LEv) : ∀ (o o' : Obj), runs n o a = some o' →
    runs n o (a ++ b) = runs n o' b := by
  induction a with
  | nil => intro o o' h; cases h; rfl
  | cons e a ih =>
    intro o o' h
    simp only [List.cons_append, runs] at h ⊢
    cases he : atomic n o e with
    | none => rw [he] at h; cases h
    | some o1 => rw [he] at h; exact ih o1 o' h

theorem runs_effect {n : Nat} {o : Obj} {t : Thread} {op : Op} {out : Out} {l : List Val}
    (h : o.ts t = .pending op) (hs : Spec.step n o.items op = (out, l)) :
    runs n o [.effect t] = some ⟨fun u => if u = t then .done out else o.ts u, l⟩ := by
  simp [runs, atomic, h, hs, Obj.set]

theorem runs_effect_ret {n : Nat} {o : Obj} {t : Thread} {op : Op} {out : Out} {l : List Val}
    (h : o.ts t = .pending op) (hs : Spec.step n o.items op = (out, l)) :
    runs n o [.effect t, .vis (.ret t out)] =
      some ⟨fun u => if u = t then .idle else o.ts u, l⟩ := by
  simp only [runs, atomic, h, hs, Obj.set, if_true]
  congr 2
  funext u
  by_cases hu : u = t <;> simp [hu]

/-- The state of the producer's call. -/
def pOf : PPc → TS
  | .idle => .idle
  | .loadTail x | .loadHead x _ | .loadSlot x _ | .storeItem x _ _ | .storeTail x _ =>
    .pending (.put x)

/-- The state of the consumer's call: a get that has loaded a tail equal to the head has taken
effect. -/
def cOf (head : Nat) : CPc → TS
  | .idle => .idle
  | .loadHead t => if t = head then .done (.item .empty NULL) else .pending .get
  | _ => .pending .get

/-- The simulation relation. -/
structure Sim (N : Nat) (s : Sys) (o : Obj) : Prop where
  inv : Inv N s
  items : o.items = (Spec.accepted s.log).drop (Spec.delivered s.log).length
  p : o.ts .producer = pOf s.p
  c : o.ts .consumer = cOf s.q.head s.c

/-- Each action of the machine is matched by transitions of the atomic queue with the same visible
part. -/
theorem sim_step {N : Nat} {s : Sys} {o : Obj} (h : Sim N s o) (a : Act) :
    ∃ s' evs o', micro s a = .ok s' ∧ runs N o evs = some o' ∧ visible evs = seen s a s' ∧
      Sim N s' o' := by
  have hlen := h.inv.queued_eq
  have hfull := h.inv.rep.full_iff
  have hemp := h.inv.rep.empty_iff
  have hle := h.inv.len_le
  have hpre := h.inv.pre
  cases a with
  | prod item =>
    obtain ⟨s', g1, g2, g3, g4, g5, g6⟩ := micro_prod_inv h.inv item
    obtain ⟨q, p, c, log⟩ := s
    obtain ⟨ts, items⟩ := o
    obtain ⟨hi, rfl, hp, hc⟩ := h
    simp only at hp hc hlen hfull hemp g3 g4 g5 g6 hle hpre
    have hcs : cOf s'.q.head s'.c = ts .consumer := by rw [g3, g5, hc]
    cases p with
    | idle =>
      simp only [micro] at g1; cases g1
      refine ⟨_, [.vis (.call .producer (.put item))], _, rfl,
        by simp only [runs, atomic, hp, pOf, if_true]; rfl, by simp [visible, seen],
        ⟨g2, rfl, ?_, ?_⟩⟩
      · simp [Obj.set, pOf]
      · simp [Obj.set, hc]
    | loadTail x =>
      simp only [micro] at g1; cases g1
      exact ⟨_, [], _, rfl, rfl, by simp [visible, seen], ⟨g2, rfl, hp, hc⟩⟩
    | loadHead x nx =>
      have hpp := hi.prod
      simp only at hpp
      simp only [micro] at g1 ⊢
      by_cases hf : nx = q.head
      · rw [if_pos hf] at g1 ⊢
        cases g1
        have hfl : ((Spec.accepted log).drop (Spec.delivered log).length).length = N - 1 :=
          hfull.1 (by rw [← hpp, hf])
        refine ⟨_, _, _, rfl, runs_effect_ret (l := (Spec.accepted log).drop
          (Spec.delivered log).length) (out := .err .full) hp ?_, ?_, ⟨g2, ?_, ?_, ?_⟩⟩
        · simp only [Spec.step, show ¬ ((Spec.accepted log).drop
            (Spec.delivered log).length).length < N - 1 by omega, if_false]
        · simp [visible, seen, ofLog]
        · simp [accepted_append, delivered_append, Spec.accepted, Spec.delivered]
        · simp [pOf]
        · simp [hc]
      · rw [if_neg hf] at g1 ⊢
        cases g1
        exact ⟨_, [], _, rfl, rfl, by simp [visible, seen], ⟨g2, rfl, hp, hc⟩⟩
    | loadSlot x nx =>
      simp only [micro] at g1; cases g1
      exact ⟨_, [], _, rfl, rfl, by simp [visible, seen], ⟨g2, rfl, hp, hc⟩⟩
    | storeItem x nx slot =>
      simp only [micro] at g1
      cases hl : stN q.store slot x with
      | error e => rw [hl] at g1; simp at g1
      | ok v =>
        rw [hl] at g1
        simp only [C.ok_bind] at g1
        cases g1
        exact ⟨_, [], _, by simp [micro, hl], rfl, by simp [visible, seen], ⟨g2, rfl, hp, hc⟩⟩
    | storeTail x nx =>
      have hpp := hi.prod
      simp only at hpp
      simp only [micro] at g1; cases g1
      have hlt : ((Spec.accepted log).drop (Spec.delivered log).length).length < N - 1 := by
        rw [hlen]; exact hpp.2.1
      refine ⟨_, _, _, rfl, runs_effect_ret (l := (Spec.accepted log).drop
        (Spec.delivered log).length ++ [x]) (out := .err .none) hp ?_, ?_, ⟨g2, ?_, ?_, ?_⟩⟩
      · simp only [Spec.step, hlt, if_true]
      · simp [visible, seen, ofLog]
      · simp only [accepted_append, delivered_append]
        have e1 : Spec.delivered [.putRet x true] = [] := rfl
        have e2 : Spec.accepted [.putRet x true] = [x] := rfl
        rw [e1, e2, List.append_nil, List.drop_append_of_le_length hle]
      · simp [pOf]
      · simp [hc]
  | cons tf =>
    obtain ⟨s', g1, g2, g3, g4, g5, g6⟩ := micro_cons_inv h.inv tf
    have hpre' := g2.pre
    obtain ⟨q, p, c, log⟩ := s
    obtain ⟨ts, items⟩ := o
    obtain ⟨hi, rfl, hp, hc⟩ := h
    have hcc := hi.cons
    simp only at hp hc hlen hfull hemp g3 g4 g5 g6 hle hpre hcc
    -- an EMPTY result: effect on the empty list
    have hE : ∀ l : List Val, l = [] → Spec.step N l .get = (.item .empty NULL, []) := by
      intro l hl; rw [hl]; rfl
    cases c with
    | idle =>
      simp only [micro] at g1; cases g1
      refine ⟨_, [.vis (.call .consumer .get)], _, rfl,
        by simp only [runs, atomic, hc, cOf, if_true]; rfl, by simp [visible, seen],
        ⟨g2, rfl, ?_, ?_⟩⟩
      · simp [Obj.set, hp]
      · simp [Obj.set, cOf]
    | compare b =>
      cases b with
      | false =>
        simp only [micro] at g1; cases g1
        exact ⟨_, [], _, rfl, rfl, by simp [visible, seen], ⟨g2, rfl, hp, hc⟩⟩
      | true =>
        simp only [micro] at g1; cases g1
        by_cases he : q.tail = q.head
        · have hnil := hemp.1 he.symm
          refine ⟨_, _, _, rfl, runs_effect hc (hE _ hnil), by simp [visible, seen],
            ⟨g2, ?_, ?_, ?_⟩⟩
          · exact hnil.symm
          · simp [hp]
          · simp [cOf, he]
        · refine ⟨_, [], _, rfl, rfl, by simp [visible, seen], ⟨g2, rfl, hp, ?_⟩⟩
          simp [cOf, he, hc]
    | loadTail hh =>
      subst hcc
      simp only [micro] at g1 ⊢
      by_cases he : q.head = q.tail
      · rw [if_pos he] at g1 ⊢
        cases g1
        have hnil := hemp.1 he
        refine ⟨_, _, _, rfl, runs_effect_ret hc (hE _ hnil), ?_, ⟨g2, ?_, ?_, ?_⟩⟩
        · simp [visible, seen, ofLog]
        · simp [accepted_append, delivered_append, Spec.accepted, Spec.delivered]
          simpa [Spec.accepted, Spec.delivered] using hnil
        · simp [hp]
        · simp [cOf]
      · rw [if_neg he] at g1 ⊢
        cases g1
        exact ⟨_, [], _, rfl, rfl, by simp [visible, seen], ⟨g2, rfl, hp, hc⟩⟩
    | loadHead t =>
      simp only [micro] at g1 ⊢
      by_cases he : q.head = t
      · rw [if_pos he] at g1 ⊢
        cases g1
        have hc' : ts .consumer = .done (.item .empty NULL) := by rw [hc, cOf, if_pos he.symm]
        refine ⟨_, [.vis (.ret .consumer (.item .empty NULL))], ⟨fun u => if u = .consumer then
          .idle else ts u, _⟩, rfl, by simp [runs, atomic, hc', Obj.set]; rfl,
          by simp [visible, seen, ofLog], ⟨g2, ?_, ?_, ?_⟩⟩
        · simp [accepted_append, delivered_append, Spec.accepted, Spec.delivered]
        · simp [hp]
        · simp [cOf]
      · rw [if_neg he] at g1 ⊢
        cases g1
        refine ⟨_, [], _, rfl, rfl, by simp [visible, seen], ⟨g2, rfl, hp, ?_⟩⟩
        show ts .consumer = _
        rw [hc, cOf, if_neg (fun e => he e.symm)]; rfl
    | loadSlot =>
      simp only [micro] at g1; cases g1
      exact ⟨_, [], _, rfl, rfl, by simp [visible, seen], ⟨g2, rfl, hp, hc⟩⟩
    | loadItem slot =>
      simp only [micro] at g1
      cases hl : ldN q.store slot with
      | error e => rw [hl] at g1; simp at g1
      | ok v =>
        rw [hl] at g1
        simp only [C.ok_bind] at g1
        cases g1
        exact ⟨_, [], _, by simp [micro, hl], rfl, by simp [visible, seen], ⟨g2, rfl, hp, hc⟩⟩
    | loadHead2 x =>
      simp only [micro] at g1; cases g1
      exact ⟨_, [], _, rfl, rfl, by simp [visible, seen], ⟨g2, rfl, hp, hc⟩⟩
    | storeHead x hh =>
      simp only [micro] at g1; cases g1
      have e1 : Spec.delivered [.getRet true x] = [x] := rfl
      have e2 : Spec.accepted [.getRet true x] = [] := rfl
      simp only [accepted_append, delivered_append, e1, e2, List.append_nil] at hpre'
      have hL : (Spec.accepted log).drop (Spec.delivered log).length =
          x :: (Spec.accepted log).drop (Spec.delivered log ++ [x]).length := by
        have := hpre.trans hpre'.symm
        rw [List.append_assoc] at this
        exact List.append_cancel_left this
      refine ⟨_, _, _, rfl, runs_effect_ret (l := (Spec.accepted log).drop
        (Spec.delivered log ++ [x]).length) (out := .item .none x) hc ?_, ?_, ⟨g2, ?_, ?_, ?_⟩⟩
      · simp only [hL, Spec.step]
      · simp [visible, seen, ofLog]
      · simp only [accepted_append, delivered_append, e1, e2, List.append_nil]
      · simp [hp]
      · simp [cOf]

/-- **C78.**  For every store size that `mu_spsc_init` accepts and every interleaving of the
individual shared accesses of one producer and one consumer, the history of calls and returns is
linearizable: it is a history of the atomic FIFO queue bounded by `N - 1`. -/
theorem C78_linearizable (q0 : Spsc) (store : List Val) (N : Nat)
    (hok : (init q0 store N).1 = .none) (halloc : N ≤ store.length) (sched : List Act) :
    ∃ h, history (Sys.start (init q0 store N).2) sched = .ok h ∧ Linearizable N h := by
  suffices H : ∀ (as : List Act) (s : Sys) (o : Obj), Sim N s o →
      ∃ h tr, history s as = .ok h ∧ visible tr = h ∧ (runs N o tr).isSome by
    obtain ⟨h, tr, h1, h2, h3⟩ := H sched (Sys.start (init q0 store N).2) Obj.start
      ⟨start_inv hok halloc, rfl, rfl, rfl⟩
    exact ⟨h, h1, tr, h2, h3⟩
  intro as
  induction as with
  | nil => intro s o _; exact ⟨[], [], rfl, rfl, rfl⟩
  | cons a as ih =>
    intro s o h
    obtain ⟨s', evs, o', h1, h2, h3, h4⟩ := sim_step h a
    obtain ⟨hs, tr, k1, k2, k3⟩ := ih s' o' h4
    refine ⟨seen s a s' ++ hs, evs ++ tr, ?_, ?_, ?_⟩
    · simp only [history, h1, k1, C.ok_bind]
    · rw [visible_append, h3, k2]
    · rw [runs_append N evs tr o o' h2]; exact k3

/-- Non-vacuity: a history with overlapping calls, tail-first comparison and an EMPTY result. -/
example : history (Sys.start (init ⟨0, 0, 0, []⟩ [0, 0] 2).2)
    [.prod 5, .cons true, .prod 0, .cons false, .prod 0, .prod 0, .prod 0, .prod 0, .cons false,
     .cons false, .cons false, .prod 6, .prod 0, .prod 0, .cons false, .cons false, .cons false,
     .cons false, .cons false]
    = .ok [.call .producer (.put 5), .call .consumer .get, .ret .producer (.err .none),
           .ret .consumer (.item .empty 0), .call .consumer .get, .call .producer (.put 6),
           .ret .producer (.err .full), .ret .consumer (.item .none 5)] := by decide

/-- The notion is not trivial: a get that starts after a put has returned cannot find the queue
empty. -/
theorem lost_item_not_linearizable : ¬ Linearizable 2 [.call .producer (.put 1),
    .ret .producer (.err .none), .call .consumer .get, .ret .consumer (.item .empty 0)] := by
  rintro ⟨tr, hv, hr⟩
  match tr with
  | [] => simp [visible] at hv
  | .effect t :: tr => simp [runs, atomic, Obj.start] at hr
  | .vis e :: tr =>
  simp only [visible, List.cons.injEq] at hv
  obtain ⟨rfl, hv⟩ := hv
  simp only [runs, atomic, Obj.start, Obj.set, if_true] at hr
  match tr with
  | [] => simp [visible] at hv
  | .vis e :: tr =>
    simp only [visible, List.cons.injEq] at hv
    obtain ⟨rfl, hv⟩ := hv
    simp [runs, atomic] at hr
  | .effect .consumer :: tr => simp [runs, atomic] at hr
  | .effect .producer :: tr =>
  simp only [visible] at hv
  simp only [runs, atomic, if_true, Spec.step, Obj.set] at hr
  match tr with
  | [] => simp [visible] at hv
  | .effect t :: tr => cases t <;> simp [runs, atomic] at hr
  | .vis e :: tr =>
  simp only [visible, List.cons.injEq] at hv
  obtain ⟨rfl, hv⟩ := hv
  simp [runs, atomic, Obj.set] at hr
  match tr with
  | [] => simp [visible] at hv
  | .effect t :: tr => cases t <;> simp [runs, atomic] at hr
  | .vis e :: tr =>
  simp only [visible, List.cons.injEq] at hv
  obtain ⟨rfl, hv⟩ := hv
  simp [runs, atomic, Obj.set] at hr
  match tr with
  | [] => simp [visible] at hv
  | .effect .producer :: tr => simp [runs, atomic] at hr
  | .vis e :: tr =>
    simp only [visible, List.cons.injEq] at hv
    obtain ⟨rfl, hv⟩ := hv
    simp [runs, atomic] at hr
  | .effect .consumer :: tr =>
  simp only [visible] at hv
  simp [runs, atomic, Spec.step, Obj.set] at hr
  match tr with
  | [] => simp [visible] at hv
  | .effect t :: tr => cases t <;> simp [runs, atomic] at hr
  | .vis e :: tr =>
  simp only [visible, List.cons.injEq] at hv
  obtain ⟨rfl, hv⟩ := hv
  simp [runs, atomic] at hr

end Mu.Spsc.Lin
