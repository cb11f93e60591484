import Verif.Lemmas.Queue
import Verif.Lemmas.Spsc
import Verif.Spec.Sched

/-! # The scheduler on lists: an intermediate machine without arrays -/

namespace Mu.Sched

variable {T R : Type}

/-- The scheduler with its three queues as plain lists; `dq` soonest first. -/
structure LSt (T : Type) where
  irq : List Val
  dq : List (Entry T)
  immed : List Val
  curr : Val
  idle : Val

/-- Insertion behind everything that is not later. -/
def ins (cfg : Cfg T R) (x : Entry T) : List (Entry T) → List (Entry T)
  | [] => [x]
  | d :: ds => if cfg.precedes x.time d.time then x :: d :: ds else d :: ins cfg x ds

def lfetch (cfg : Cfg T R) (now : T) : List (Entry T) → Val × List (Ev T) × List (Entry T)
  | [] => (NULL, [.clock now], [])
  | d :: ds =>
    if cfg.precedes now d.time = false then
      (d.task, [.clock now, .sel (.deferred d.time) d.task], ds)
    else (NULL, [.clock now], d :: ds)

def lselect (cfg : Cfg T R) (now : T) (L : LSt T) : List (Ev T) × LSt T :=
  match L.irq with
  | t :: r => ([.sel .irq t], { L with irq := r, curr := t })
  | [] =>
    let f := lfetch cfg now L.dq
    if f.1 ≠ NULL then (f.2.1, { L with dq := f.2.2, curr := f.1 })
    else
      match L.immed with
      | t :: r => (f.2.1 ++ [.sel .immed t], { L with dq := f.2.2, immed := r, curr := t })
      | [] => (f.2.1 ++ [.sel .idle L.idle], { L with dq := f.2.2, curr := L.idle })

def lstep (cfg : Cfg T R) (now : T) (call : LSt T → List (Ev T) × LSt T) (L : LSt T) :
    List (Ev T) × LSt T :=
  let s := lselect cfg now L
  let c := if s.2.curr ≠ NULL then
      (.called s.2.curr :: (call s.2).1, (call s.2).2)
    else ([], s.2)
  (.stepEnter :: s.1 ++ c.1 ++ [.stepRet], { c.2 with curr := NULL })

def limmed (cfg : Cfg T R) (L : LSt T) (t : Val) : Err × LSt T :=
  if L.immed.length < cfg.maxImmed then (.none, { L with immed := L.immed ++ [t] }) else (.full, L)

def lisr (cfg : Cfg T R) (L : LSt T) (t : Val) : Err × LSt T :=
  if L.irq.length < cfg.maxIrq - 1 then (.none, { L with irq := L.irq ++ [t] }) else (.full, L)

def ldefer (cfg : Cfg T R) (L : LSt T) (t : Val) (time : T) : Err × LSt T :=
  if L.dq.length < cfg.maxDeferred then (.none, { L with dq := ins cfg ⟨time, t⟩ L.dq })
  else (.full, L)

def lremove (L : LSt T) (t : Val) : Err × LSt T :=
  (if ∃ d ∈ L.dq, d.task = t then .none else .notFound,
    { L with dq := L.dq.filter (fun d => d.task ≠ t) })

def lreset (L : LSt T) : LSt T := { L with irq := [], dq := [], immed := [], curr := NULL }

def lnext (L : LSt T) : Val := match L.dq with
  | [] => NULL
  | d :: _ => d.task

def lrun (cfg : Cfg T R) (L : LSt T) : Prog T R → List (Ev T) × LSt T
  | .done => ([], L)
  | .step now body next =>
    let r := lstep cfg now (fun L => lrun cfg L body) L
    let n := lrun cfg r.2 next
    (r.1 ++ n.1, n.2)
  | .immed t next =>
    let r := limmed cfg L t
    let n := lrun cfg r.2 next
    (.immedRet t r.1 :: n.1, n.2)
  | .transfer t hook next =>
    let h := lrun cfg L hook
    let r := limmed cfg h.2 t
    let n := lrun cfg r.2 next
    (.transferHook t :: h.1 ++ .immedRet t r.1 :: n.1, n.2)
  | .fromIsr t next =>
    let r := lisr cfg L t
    let n := lrun cfg r.2 next
    (.isrRet t r.1 :: n.1, n.2)
  | .deferUntil t time next =>
    let r := ldefer cfg L t time
    let n := lrun cfg r.2 next
    (.deferRet t time r.1 :: n.1, n.2)
  | .deferFor t now delay next =>
    let r := ldefer cfg L t (cfg.offset now delay)
    let n := lrun cfg r.2 next
    (.clock now :: .deferRet t (cfg.offset now delay) r.1 :: n.1, n.2)
  | .remove t next =>
    let r := lremove L t
    let n := lrun cfg r.2 next
    (.removeRet t r.1 :: n.1, n.2)
  | .reset next =>
    let n := lrun cfg (lreset L) next
    (.resetRet :: n.1, n.2)
  | .setIdle t next =>
    let n := lrun cfg { L with idle := t } next
    (.setIdleRet t :: n.1, n.2)
  | .getIdle next =>
    let n := lrun cfg L next
    (.getIdleRet L.idle :: n.1, n.2)
  | .current next =>
    let n := lrun cfg L next
    (.currentRet L.curr :: n.1, n.2)
  | .nextTask next =>
    let n := lrun cfg L next
    (.nextRet (lnext L) :: n.1, n.2)
  | .wait t next =>
    let n := lrun cfg L next
    (.waitRet t .none :: n.1, n.2)

/-- The model state `s` holds the lists `L`. -/
structure Rep (cfg : Cfg T R) (s : Sched T) (L : LSt T) : Prop where
  irq : ∃ d, Spsc.Rep s.irq cfg.maxIrq d L.irq
  immed : Queue.Rep s.immed L.immed
  immedCap : s.immed.capacity = cfg.maxImmed
  count : s.count = L.dq.length
  le : L.dq.length ≤ cfg.maxDeferred
  alloc : s.deferred.length = cfg.maxDeferred
  dq : s.deferred.take s.count = L.dq.reverse
  curr : s.curr = L.curr
  idle : s.idle = L.idle

section
variable {cfg : Cfg T R} (hw : cfg.Wf)
include hw

theorem init_rep {s0 : Sched T} {irqStore immedStore : List Val}
    (h1 : cfg.maxIrq ≤ irqStore.length) (h2 : cfg.maxImmed ≤ immedStore.length)
    (h3 : s0.deferred.length = cfg.maxDeferred) :
    Rep cfg (init cfg s0 irqStore immedStore) ⟨[], [], [], NULL, NULL⟩ := by
  have hok := (Spsc.init_ok_iff s0.irq irqStore cfg.maxIrq).mpr hw.irq
  exact ⟨⟨0, Spsc.init_rep hok h1⟩, Ring.init _ _ h2, rfl, rfl, Nat.zero_le _, h3, rfl, rfl, rfl⟩

theorem dq_index {s : Sched T} {d : Entry T} {ds : List (Entry T)}
    (hc : s.count = ds.length + 1) (hd : s.deferred.take s.count = (d :: ds).reverse)
    (hle : ds.length + 1 ≤ cfg.maxDeferred) (ha : s.deferred.length = cfg.maxDeferred) :
    s.count > 0 ∧ cfg.P.szSub s.count 1 = s.count - 1 ∧ ldN s.deferred (s.count - 1) = .ok d ∧
      s.deferred.take (s.count - 1) = ds.reverse := by
  have hmod := cfg.P.intMax_lt_szMod
  have hmx := cfg.P.intMax_ge
  have hdm := hw.deferred
  have e : s.deferred[s.count - 1]? = some d := by
    have := congrArg (fun l => l[s.count - 1]?) hd
    simp only [List.getElem?_take] at this
    rw [if_pos (by omega)] at this
    rw [this, hc]
    simp
  refine ⟨by omega, cfg.P.szSub_of_le (by omega) (by omega), ldN_some e, ?_⟩
  have := congrArg (List.take (s.count - 1)) hd
  rw [List.take_take, Nat.min_eq_left (by omega)] at this
  rw [this, hc]
  simp

theorem fetch_ok {s : Sched T} {L : LSt T} (h : Rep cfg s L) (now : T) :
    ∃ s', fetch cfg now s = .ok ((lfetch cfg now L.dq).1, (lfetch cfg now L.dq).2.1, s') ∧
      Rep cfg s' { L with dq := (lfetch cfg now L.dq).2.2 } := by
  obtain ⟨h1, h2, h3, h4, h5, h6, h7, h8, h9⟩ := h
  unfold fetch
  cases hl : L.dq with
  | nil =>
    rw [hl] at h4 h5 h7
    rw [if_neg (by simp at h4; omega)]
    exact ⟨s, rfl, ⟨h1, h2, h3, h4, h5, h6, h7, h8, h9⟩⟩
  | cons d ds =>
    rw [hl] at h4 h5 h7
    simp only [List.length_cons] at h4 h5
    obtain ⟨e1, e2, e3, e4⟩ := dq_index hw h4 h7 h5 h6
    rw [if_pos e1, e2, e3]
    simp only [C.ok_bind, lfetch]
    by_cases hp : cfg.precedes now d.time = false
    · rw [if_pos hp, if_pos hp]
      exact ⟨_, rfl, ⟨h1, h2, h3, by simp; omega, by simp; omega, h6, e4, h8, h9⟩⟩
    · rw [if_neg hp, if_neg hp]
      exact ⟨s, rfl, ⟨h1, h2, h3, by simp; omega, by simp; omega, h6, h7, h8, h9⟩⟩

omit hw in
theorem spsc_get_nil {q : Spsc.Spsc} {N d : Nat} (h : Spsc.Rep q N d []) :
    Spsc.get q = .ok (.empty, NULL, q) := by
  have := h.empty_iff.mpr rfl
  simp [Spsc.get, this]

omit hw in
theorem spsc_get_cons {q : Spsc.Spsc} {N d : Nat} {x : Val} {t : List Val}
    (h : Spsc.Rep q N d (x :: t)) :
    ∃ q' d', Spsc.get q = .ok (.none, x, q') ∧ Spsc.Rep q' N d' t := by
  have h1 : ¬ q.head = q.tail := by
    intro e; have := h.empty_iff.mp e; cases this
  refine ⟨_, _, ?_, h.pop⟩
  simp only [Spsc.get, if_neg h1]
  rw [ldN_some h.front]
  rfl

theorem select_ok {s : Sched T} {L : LSt T} (h : Rep cfg s L) (now : T) :
    ∃ s', select cfg now s = .ok ((lselect cfg now L).1, s') ∧
      Rep cfg s' (lselect cfg now L).2 := by
  unfold select lselect
  obtain ⟨⟨d, h1⟩, h2, h3, h4, h5, h6, h7, h8, h9⟩ := h
  cases hi : L.irq with
  | cons t r =>
    rw [hi] at h1
    obtain ⟨q', d', e1, e2⟩ := spsc_get_cons h1
    rw [e1]
    simp only [C.ok_bind, if_true]
    exact ⟨_, rfl, ⟨⟨d', e2⟩, h2, h3, h4, h5, h6, h7, rfl, h9⟩⟩
  | nil =>
    rw [hi] at h1
    rw [spsc_get_nil h1]
    simp only [C.ok_bind, reduceCtorEq, if_false]
    obtain ⟨s1, f1, f2⟩ := fetch_ok (cfg := cfg) hw (s := { s with irq := s.irq, curr := NULL })
      (L := { L with irq := [], curr := NULL }) ⟨⟨d, h1⟩, h2, h3, h4, h5, h6, h7, rfl, h9⟩ now
    simp only at f1 f2
    rw [f1]
    simp only [C.ok_bind]
    obtain ⟨⟨d1, g1⟩, g2, g3, g4, g5, g6, g7, g8, g9⟩ := f2
    simp only at g1 g2 g4 g5 g7 g9
    by_cases hn : (lfetch cfg now L.dq).1 = NULL
    · simp only [hn, ne_eq, not_true, if_false]
      cases hm : L.immed with
      | nil =>
        rw [hm] at g2
        have ga := Queue.access_nil (P := cfg.P) g2 true
        simp only [Queue.get, ga, C.ok_bind]
        simp only [Bool.false_eq_true, if_false]
        rw [g9]
        exact ⟨_, rfl, ⟨⟨d1, g1⟩, g2, g3, g4, g5, g6, g7, rfl, rfl⟩⟩
      | cons t r =>
        rw [hm] at g2
        have ga := Queue.access_cons (P := cfg.P) g2 (by rw [g3]; exact hw.immed) true
        simp only [Queue.get, ga, C.ok_bind, if_true]
        exact ⟨_, rfl, ⟨⟨d1, g1⟩, Queue.rep_pop g2, g3, g4, g5, g6, g7, rfl, g9⟩⟩
    · simp only [hn, ne_eq, not_false_eq_true, if_true]
      exact ⟨_, rfl, ⟨⟨d1, g1⟩, g2, g3, g4, g5, g6, g7, rfl, g9⟩⟩

theorem immed_ok {s : Sched T} {L : LSt T} (h : Rep cfg s L) (t : Val) :
    ∃ s', immed cfg s t = .ok ((limmed cfg L t).1, s') ∧ Rep cfg s' (limmed cfg L t).2 := by
  obtain ⟨h1, h2, h3, h4, h5, h6, h7, h8, h9⟩ := h
  unfold immed limmed
  by_cases hc : L.immed.length < cfg.maxImmed
  · obtain ⟨q', e1, e2, e3, _⟩ := Queue.put_ok (P := cfg.P) h2 t (by rw [h3]; exact hw.immed)
      (by omega)
    rw [e1, if_pos hc]
    simp only [C.ok_bind, Bool.true_eq_false, if_false]
    exact ⟨_, rfl, ⟨h1, e2, by simpa [h3] using e3, h4, h5, h6, h7, h8, h9⟩⟩
  · rw [Queue.put_full h2 t (by omega), if_neg hc]
    simp only [C.ok_bind, if_true]
    exact ⟨_, rfl, ⟨h1, h2, h3, h4, h5, h6, h7, h8, h9⟩⟩

omit hw in
theorem isr_ok {s : Sched T} {L : LSt T} (h : Rep cfg s L) (t : Val) :
    ∃ s', fromIsr s t = .ok ((lisr cfg L t).1, s') ∧ Rep cfg s' (lisr cfg L t).2 := by
  obtain ⟨⟨d, h1⟩, h2, h3, h4, h5, h6, h7, h8, h9⟩ := h
  unfold fromIsr lisr
  have hl := h1.len
  by_cases hc : L.irq.length < cfg.maxIrq - 1
  · have hf : ¬ (s.irq.tail + 1) &&& s.irq.mask = s.irq.head := by
      intro e; have := h1.full_iff.mp e; omega
    have e1 : Spsc.put s.irq t = .ok (.none, { s.irq with
        store := s.irq.store.set s.irq.tail t, tail := (s.irq.tail + 1) &&& s.irq.mask }) := by
      simp only [Spsc.put, if_neg hf]
      rw [stN_ok h1.tail_lt]
      rfl
    rw [e1, if_pos hc]
    simp only [C.ok_bind, reduceCtorEq, if_false]
    exact ⟨_, rfl, ⟨⟨d, (h1.set_tail t (by omega)).push t hc
      (by simp [List.getElem?_set_self h1.tail_lt])⟩, h2, h3, h4, h5, h6, h7, h8, h9⟩⟩
  · have hf : (s.irq.tail + 1) &&& s.irq.mask = s.irq.head := h1.full_iff.mpr (by omega)
    have e1 : Spsc.put s.irq t = .ok (.full, s.irq) := by simp [Spsc.put, hf]
    rw [e1, if_neg hc]
    simp only [C.ok_bind, if_true]
    exact ⟨_, rfl, ⟨⟨d, h1⟩, h2, h3, h4, h5, h6, h7, h8, h9⟩⟩

omit hw in
/-- The search loop stops behind the entries that are later. -/
theorem search_ok {A : List (Entry T)} {x : Entry T} (D : List (Entry T)) :
    ∀ rest, A = D.reverse ++ rest →
    ∃ i, searchLoop cfg A x.time D.length = .ok i ∧ i ≤ D.length ∧
      ins cfg x D = ((D.reverse).take i ++ x :: (D.reverse).drop i).reverse := by
  induction D with
  | nil => intro rest h; exact ⟨0, rfl, Nat.le_refl _, rfl⟩
  | cons d ds ih =>
    intro rest h
    simp only [List.length_cons, searchLoop]
    have hl : ldN A ds.length = .ok d := by
      apply ldN_some
      rw [h]; simp
    rw [hl]
    simp only [C.ok_bind]
    by_cases hp : cfg.precedes x.time d.time = true
    · rw [if_pos hp]
      refine ⟨_, rfl, Nat.le_refl _, ?_⟩
      simp only [ins, hp, if_true]
      rw [List.take_of_length_le (by simp), List.drop_of_length_le (by simp)]
      simp
    · rw [if_neg hp]
      obtain ⟨i, e1, e2, e3⟩ := ih (d :: rest) (by simp [h])
      refine ⟨i, e1, by omega, ?_⟩
      simp only [ins, hp]
      rw [e3]
      have e4 : (d :: ds).reverse = ds.reverse ++ [d] := by simp
      rw [e4, List.take_append_of_le_length (by simpa using e2),
        List.drop_append_of_le_length (by simpa using e2)]
      simp

theorem defer_ok {s : Sched T} {L : LSt T} (h : Rep cfg s L) (t : Val) (time : T) :
    ∃ s', deferAux cfg s t time = .ok ((ldefer cfg L t time).1, s') ∧
      Rep cfg s' (ldefer cfg L t time).2 := by
  obtain ⟨h1, h2, h3, h4, h5, h6, h7, h8, h9⟩ := h
  have hmod := cfg.P.intMax_lt_szMod
  have hmx := cfg.P.intMax_ge
  have hdm := hw.deferred
  unfold deferAux ldefer
  by_cases hc : L.dq.length < cfg.maxDeferred
  · rw [if_neg (by omega), if_pos hc]
    obtain ⟨i, e1, e2, e3⟩ := search_ok (cfg := cfg) (x := ⟨time, t⟩) L.dq
      (s.deferred.drop s.count) (A := s.deferred) (by rw [← h7, List.take_append_drop])
    simp only at e1
    rw [h4, e1]
    simp only [C.ok_bind]
    rw [cfg.P.szSub_of_le e2 (by omega), cfg.P.toInt_of_le (by omega),
      cfg.P.toSz_int (by omega) (by omega)]
    have hA : ∀ k, k < L.dq.length → s.deferred[k]? = L.dq.reverse[k]? := by
      intro k hk
      rw [← h7, List.getElem?_take, if_pos (by omega)]
    have hres : ∃ D', (if ((L.dq.length - i : Nat) : Int) > 0 then
          memmove s.deferred (cfg.P.sz (i + 1)) i ((L.dq.length - i : Nat) : Int).toNat
        else .ok s.deferred) = (.ok D' : C _) ∧ D'.length = s.deferred.length ∧
        (D'.set i ⟨time, t⟩).take (L.dq.length + 1) =
          L.dq.reverse.take i ++ ⟨time, t⟩ :: L.dq.reverse.drop i := by
      by_cases hm : ((L.dq.length - i : Nat) : Int) > 0
      · rw [if_pos hm, cfg.P.sz_of_lt (by omega), memmove_ok (by simp; omega) (by simp; omega)]
        refine ⟨_, rfl, by simp; omega, ?_⟩
        apply List.ext_getElem?
        intro k
        have hkk : ∀ k, s.deferred[k]? = if k < L.dq.length then L.dq.reverse[k]? else s.deferred[k]? := by
          intro k; split
          · exact hA k ‹_›
          · rfl
        have hrl : L.dq.reverse.length = L.dq.length := by simp
        simp only [List.getElem?_set, List.getElem?_append, List.getElem?_take,
          List.getElem?_drop, List.length_take, List.length_append, List.length_drop,
          List.getElem?_cons, Int.toNat_natCast, hrl]
        have := hA k
        have := hA (k - 1)
        grind
      · rw [if_neg hm]
        refine ⟨_, rfl, rfl, ?_⟩
        have hi : i = L.dq.length := by omega
        subst hi
        rw [List.take_add_one, List.take_set_of_le (Nat.le_refl _), ← h4, h7]
        rw [List.take_of_length_le (by simp; omega), List.drop_of_length_le (by simp; omega)]
        simp [show s.count < s.deferred.length by omega]
    obtain ⟨D', r1, r2, r3⟩ := hres
    have hil : (ins cfg ⟨time, t⟩ L.dq).length = L.dq.length + 1 := by
      rw [e3]; simp; omega
    have hst : stN D' i ⟨time, t⟩ = .ok (D'.set i ⟨time, t⟩) := stN_ok (by omega)
    have hbr : ∀ k : List (Entry T) → C (Err × Sched T),
        (if ((L.dq.length - i : Nat) : Int) > 0 then
          memmove s.deferred (cfg.P.sz (i + 1)) i ((L.dq.length - i : Nat) : Int).toNat >>= k
        else k s.deferred) = k D' := by
      intro k
      by_cases hm : ((L.dq.length - i : Nat) : Int) > 0
      · rw [if_pos hm] at r1 ⊢; rw [r1]; rfl
      · rw [if_neg hm] at r1 ⊢; cases r1; rfl
    rw [hbr]
    simp only [hst, C.ok_bind]
    rw [cfg.P.sz_of_lt (by omega)]
    refine ⟨_, rfl, ⟨h1, h2, h3, by simp [hil], by simp [hil]; omega, by simp [r2, h6], ?_, h8, h9⟩⟩
    simp only
    rw [r3, e3, List.reverse_reverse]
  · rw [if_pos (by omega), if_neg hc]
    exact ⟨_, rfl, ⟨h1, h2, h3, h4, h5, h6, h7, h8, h9⟩⟩

/-- The removal loop: `A` is the part not yet examined, `B` what has been kept of the rest. -/
theorem removeLoop_ok (t : Val) : ∀ (A B : List (Entry T)) (s : Sched T) (err : Err),
    s.count = A.length + B.length → s.deferred.length = cfg.maxDeferred →
    s.count ≤ cfg.maxDeferred → s.deferred.take s.count = A ++ B →
    ∃ s', removeLoop cfg t A.length err s =
        .ok (if ∃ d ∈ A, d.task = t then .none else err, s') ∧
      s' = { s with deferred := s'.deferred, count := s'.count } ∧
      s'.deferred.length = cfg.maxDeferred ∧
      s'.count = (A.filter (fun d => d.task ≠ t) ++ B).length ∧
      s'.deferred.take s'.count = A.filter (fun d => d.task ≠ t) ++ B := by
  have hmod := cfg.P.intMax_lt_szMod
  have hmx := cfg.P.intMax_ge
  have hdm := hw.deferred
  intro A
  induction hn : A.length generalizing A with
  | zero =>
    intro B s err h1 h2 h3 h4
    obtain rfl := List.length_eq_zero_iff.mp hn
    exact ⟨s, by simp [removeLoop], rfl, h2, by simpa using h1, by simpa using h4⟩
  | succ n ih =>
    intro B s err h1 h2 h3 h4
    obtain ⟨A', d, rfl⟩ : ∃ A' d, A = A' ++ [d] :=
      ⟨A.dropLast, A.getLast (by rintro rfl; simp at hn),
        (List.dropLast_concat_getLast _).symm⟩
    have hn' : A'.length = n := by simpa using hn
    unfold removeLoop
    have hd : ldN s.deferred n = .ok d := by
      apply ldN_some
      have := congrArg (fun l => l[n]?) h4
      simp only [List.getElem?_take] at this
      rw [if_pos (by omega)] at this
      rw [this, ← hn']
      simp
    rw [hd]
    simp only [C.ok_bind]
    by_cases ht : d.task = t
    · rw [if_pos ht, cfg.P.szSub_of_le (by omega) (by omega),
        cfg.P.szSub_of_le (by omega) (by omega)]
      have hres : ∃ D', (if s.count - (n + 1) > 0 then
          memmove s.deferred n (n + 1) (s.count - (n + 1)) else .ok s.deferred)
          = (.ok D' : C _) ∧ D'.length = s.deferred.length ∧
          D'.take (s.count - 1) = A' ++ B := by
        have hA : ∀ k, k < s.count → s.deferred[k]? = (A' ++ [d] ++ B)[k]? := by
          intro k hk
          rw [← h4, List.getElem?_take, if_pos hk]
        by_cases hm : s.count - (n + 1) > 0
        · rw [if_pos hm, memmove_ok (by omega) (by omega)]
          refine ⟨_, rfl, by simp; omega, ?_⟩
          apply List.ext_getElem?
          intro k
          have e1 := hA k
          have e2 := hA (k + 1)
          simp only [List.getElem?_append, List.getElem?_take,
            List.getElem?_drop, List.length_take, List.length_append, List.length_drop,
            List.getElem?_cons, List.length_cons, List.length_nil] at e1 e2 ⊢
          grind
        · rw [if_neg hm]
          refine ⟨_, rfl, rfl, ?_⟩
          have hB : B = [] := List.length_eq_zero_iff.mp (by omega)
          subst hB
          have := congrArg (List.take (s.count - 1)) h4
          rw [List.take_take, Nat.min_eq_left (by omega)] at this
          rw [this, h1]
          simp [← hn']
      obtain ⟨D', r1, r2, r3⟩ := hres
      have hbr : ∀ k : List (Entry T) → C (Err × Sched T),
          (if s.count - (n + 1) > 0 then
            memmove s.deferred n (n + 1) (s.count - (n + 1)) >>= k
          else k s.deferred) = k D' := by
        intro k
        by_cases hm : s.count - (n + 1) > 0
        · rw [if_pos hm] at r1 ⊢; rw [r1]; rfl
        · rw [if_neg hm] at r1 ⊢; cases r1; rfl
      rw [hbr]
      obtain ⟨s', f1, f2, f3, f4, f5⟩ := ih A' hn' B
        { s with deferred := D', count := s.count - 1 } .none (by simp; omega) (by simp; omega)
        (by simp; omega) r3
      refine ⟨s', ?_, ?_, f3, ?_, ?_⟩
      · rw [f1]
        have : ∃ d_1, (d_1 ∈ A' ++ [d]) ∧ d_1.task = t := ⟨d, by simp, ht⟩
        rw [if_pos this]
        simp
      · rw [f2]
      · simpa [ht] using f4
      · simpa [ht] using f5
    · rw [if_neg ht]
      obtain ⟨s', f1, f2, f3, f4, f5⟩ := ih A' hn' (d :: B) s err (by simp; omega) h2 h3
        (by rw [h4]; simp)
      refine ⟨s', ?_, f2, f3, ?_, ?_⟩
      · rw [f1]
        congr 2
        have : (∃ d_1, (d_1 ∈ A' ++ [d]) ∧ d_1.task = t) ↔ ∃ d ∈ A', d.task = t := by
          constructor
          · rintro ⟨e, he, het⟩
            rcases List.mem_append.mp he with h | h
            · exact ⟨e, h, het⟩
            · simp at h; subst h; exact absurd het ht
          · rintro ⟨e, he, het⟩; exact ⟨e, by simp [he], het⟩
        simp only [this]
      · simpa [ht] using f4
      · simpa [ht] using f5

theorem remove_ok {s : Sched T} {L : LSt T} (h : Rep cfg s L) (t : Val) :
    ∃ s', remove cfg s t = .ok ((lremove L t).1, s') ∧ Rep cfg s' (lremove L t).2 := by
  obtain ⟨h1, h2, h3, h4, h5, h6, h7, h8, h9⟩ := h
  unfold remove lremove
  obtain ⟨s', f1, f2, f3, f4, f5⟩ := removeLoop_ok (cfg := cfg) hw t L.dq.reverse [] s .notFound
    (by simpa using h4) h6 (by omega) (by simpa using h7)
  have hl : L.dq.reverse.length = s.count := by simp [h4]
  rw [hl] at f1
  have hsub : (L.dq.filter (fun d => d.task ≠ t)).length ≤ L.dq.length := List.length_filter_le _ _
  refine ⟨s', ?_, ?_⟩
  · rw [f1]
    simp
  · rw [f2]
    simp only [List.append_nil, List.filter_reverse, List.length_reverse] at f4 f5
    refine ⟨h1, h2, h3, ?_, ?_, f3, ?_, h8, h9⟩
    · exact f4
    · simp only; omega
    · simp only; exact f5

omit hw in
theorem reset_ok {s : Sched T} {L : LSt T} (h : Rep cfg s L) : Rep cfg (reset s) (lreset L) := by
  obtain ⟨⟨d, h1⟩, h2, h3, h4, h5, h6, h7, h8, h9⟩ := h
  refine ⟨⟨0, ⟨⟨h1.wf.two, h1.wf.pow, h1.wf.mask, h1.wf.alloc⟩, ?_, ?_, ?_, ?_⟩⟩, Ring.reset h2, h3, rfl, Nat.zero_le _, h6,
    rfl, rfl, h9⟩
  · simp [reset, Spsc.reset]
  · simp [reset, Spsc.reset, lreset]
  · simp [lreset]
  · intro i hi; simp [lreset] at hi

theorem next_ok {s : Sched T} {L : LSt T} (h : Rep cfg s L) : nextTask cfg s = .ok (lnext L) := by
  obtain ⟨h1, h2, h3, h4, h5, h6, h7, h8, h9⟩ := h
  unfold nextTask lnext
  cases hl : L.dq with
  | nil => rw [hl] at h4; rw [if_neg (by simp at h4; omega)]
  | cons d ds =>
    rw [hl] at h4 h5 h7
    obtain ⟨e1, e2, e3, e4⟩ := dq_index hw h4 h7 h5 h6
    rw [if_pos e1, e2, e3]
    rfl

/-- **Refinement.**  The model produces exactly the events of the list machine. -/
theorem run_refines (p : Prog T R) : ∀ {s : Sched T} {L : LSt T}, Rep cfg s L →
    ∃ s', run cfg s p = .ok ((lrun cfg L p).1, s') ∧ Rep cfg s' (lrun cfg L p).2 := by
  induction p with
  | done => intro s L h; exact ⟨s, rfl, h⟩
  | step now body next ih1 ih2 =>
    intro s L h
    obtain ⟨s1, e1, e2⟩ := select_ok hw h now
    simp only [run, step, e1, C.ok_bind, lrun, lstep]
    rw [e2.curr]
    by_cases hc : (lselect cfg now L).2.curr = NULL
    · simp only [hc, ne_eq, not_true, if_false, C.ok_bind]
      obtain ⟨s2, g1, g2⟩ := ih2 (s := { s1 with curr := NULL })
        (L := { (lselect cfg now L).2 with curr := NULL })
        ⟨e2.irq, e2.immed, e2.immedCap, e2.count, e2.le, e2.alloc, e2.dq, rfl, e2.idle⟩
      rw [g1]
      exact ⟨s2, rfl, g2⟩
    · simp only [hc, ne_eq, not_false_eq_true, if_true]
      obtain ⟨s2, f1, f2⟩ := ih1 e2
      rw [f1]
      simp only [C.ok_bind]
      obtain ⟨s3, g1, g2⟩ := ih2 (s := { s2 with curr := NULL })
        (L := { (lrun cfg (lselect cfg now L).2 body).2 with curr := NULL })
        ⟨f2.irq, f2.immed, f2.immedCap, f2.count, f2.le, f2.alloc, f2.dq, rfl, f2.idle⟩
      rw [g1]
      exact ⟨s3, rfl, g2⟩
  | immed t next ih =>
    intro s L h
    obtain ⟨s1, e1, e2⟩ := immed_ok hw h t
    obtain ⟨s2, g1, g2⟩ := ih e2
    simp only [run, e1, C.ok_bind, g1, lrun]
    exact ⟨s2, rfl, g2⟩
  | transfer t hook next ih1 ih2 =>
    intro s L h
    obtain ⟨s0, f1, f2⟩ := ih1 h
    obtain ⟨s1, e1, e2⟩ := immed_ok hw f2 t
    obtain ⟨s2, g1, g2⟩ := ih2 e2
    simp only [run, f1, e1, C.ok_bind, g1, lrun]
    exact ⟨s2, rfl, g2⟩
  | fromIsr t next ih =>
    intro s L h
    obtain ⟨s1, e1, e2⟩ := isr_ok h t
    obtain ⟨s2, g1, g2⟩ := ih e2
    simp only [run, e1, C.ok_bind, g1, lrun]
    exact ⟨s2, rfl, g2⟩
  | deferUntil t time next ih =>
    intro s L h
    obtain ⟨s1, e1, e2⟩ := defer_ok hw h t time
    obtain ⟨s2, g1, g2⟩ := ih e2
    simp only [run, e1, C.ok_bind, g1, lrun]
    exact ⟨s2, rfl, g2⟩
  | deferFor t now delay next ih =>
    intro s L h
    obtain ⟨s1, e1, e2⟩ := defer_ok hw h t (cfg.offset now delay)
    obtain ⟨s2, g1, g2⟩ := ih e2
    simp only [run, e1, C.ok_bind, g1, lrun]
    exact ⟨s2, rfl, g2⟩
  | remove t next ih =>
    intro s L h
    obtain ⟨s1, e1, e2⟩ := remove_ok hw h t
    obtain ⟨s2, g1, g2⟩ := ih e2
    simp only [run, e1, C.ok_bind, g1, lrun]
    exact ⟨s2, rfl, g2⟩
  | reset next ih =>
    intro s L h
    obtain ⟨s2, g1, g2⟩ := ih (reset_ok h)
    simp only [run, C.ok_bind, g1, lrun]
    exact ⟨s2, rfl, g2⟩
  | setIdle t next ih =>
    intro s L h
    obtain ⟨s2, g1, g2⟩ := ih (s := { s with idle := t }) (L := { L with idle := t })
      ⟨h.irq, h.immed, h.immedCap, h.count, h.le, h.alloc, h.dq, h.curr, rfl⟩
    simp only [run, C.ok_bind, g1, lrun]
    exact ⟨s2, rfl, g2⟩
  | getIdle next ih =>
    intro s L h
    obtain ⟨s2, g1, g2⟩ := ih h
    simp only [run, C.ok_bind, g1, lrun, h.idle]
    exact ⟨s2, rfl, g2⟩
  | current next ih =>
    intro s L h
    obtain ⟨s2, g1, g2⟩ := ih h
    simp only [run, C.ok_bind, g1, lrun, h.curr]
    exact ⟨s2, rfl, g2⟩
  | nextTask next ih =>
    intro s L h
    obtain ⟨s2, g1, g2⟩ := ih h
    simp only [run, next_ok hw h, C.ok_bind, g1, lrun]
    exact ⟨s2, rfl, g2⟩
  | wait t next ih =>
    intro s L h
    obtain ⟨s2, g1, g2⟩ := ih h
    simp only [run, C.ok_bind, g1, lrun]
    exact ⟨s2, rfl, g2⟩

end

end Mu.Sched
