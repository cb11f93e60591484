import Verif.Model.SpscTso
import Verif.Lemmas.Spsc
import Mathlib.Tactic.ByContra

namespace Mu.Spsc.Tso
open Mu.Spsc

/-- The stores that put the items `l` at positions `i`, `i + 1`, …, then possibly one item whose tail
has not been stored yet. -/
def writes (N : Nat) : Nat → List Val → Option Val → List PW
  | _, [], none => []
  | i, [], some x => [.item (i % N) x]
  | i, a :: l, ext => .item (i % N) a :: .tail ((i + 1) % N) :: writes N (i + 1) l ext

def heads (N i n : Nat) : List Nat := (List.range' (i + 1) n).map (· % N)

/-- The item stored whose tail is not. -/
def ext : PPc → Option Val
  | .storeTail x _ => some x
  | _ => none

theorem lastTail_writes (N : Nat) (e : Option Val) : ∀ (l : List Val) (i d : Nat),
    lastTail d (writes N i l e) = if l = [] then d else (i + l.length) % N := by
  intro l
  induction l with
  | nil => intro i d; cases e <;> simp [writes, lastTail]
  | cons a l ih =>
    intro i d
    simp only [writes, lastTail, ih]
    cases l with
    | nil => simp
    | cons b l => simp; congr 1; omega

theorem lastTail_writes_drop (N : Nat) (e : Option Val) (l : List Val) (i f : Nat) (hf : f ≤ 1) :
    lastTail (i % N) ((writes N i l e).drop f) = (i + l.length) % N := by
  have h := lastTail_writes N e l i (i % N)
  have e1 : lastTail (i % N) ((writes N i l e).drop f) = lastTail (i % N) (writes N i l e) := by
    rcases Nat.le_one_iff_eq_zero_or_eq_one.mp hf with rfl | rfl
    · rfl
    · cases l with
      | nil => cases e <;> simp [writes, lastTail]
      | cons a l => simp [writes, lastTail]
  rw [e1, h]
  split
  · next h => simp [h]
  · rfl

theorem writes_item (N : Nat) (x : Val) : ∀ (l : List Val) (i : Nat),
    writes N i l none ++ [.item ((i + l.length) % N) x] = writes N i l (some x) := by
  intro l
  induction l with
  | nil => intro i; simp [writes]
  | cons a l ih =>
    intro i
    have := ih (i + 1)
    simp only [writes, List.cons_append, List.length_cons, List.cons.injEq, true_and]
    rw [← this]; congr 4; omega

theorem writes_tail (N : Nat) (x : Val) : ∀ (l : List Val) (i : Nat),
    writes N i l (some x) ++ [.tail ((i + l.length + 1) % N)] = writes N i (l ++ [x]) none := by
  intro l
  induction l with
  | nil => intro i; simp [writes]
  | cons a l ih =>
    intro i
    have := ih (i + 1)
    simp only [writes, List.cons_append, List.length_cons, List.cons.injEq, true_and]
    rw [← this]; congr 4; omega

theorem writes_length (N : Nat) (e : Option Val) : ∀ (l : List Val) (i : Nat),
    (writes N i l e).length = 2 * l.length + e.toList.length := by
  intro l
  induction l with
  | nil => intro i; cases e <;> simp [writes]
  | cons a l ih => intro i; simp [writes, ih]; omega

theorem heads_succ (N i n : Nat) : heads N i n ++ [(i + n + 1) % N] = heads N i (n + 1) := by
  unfold heads
  rw [List.range'_concat]
  simp
  congr 1; omega

theorem heads_cons (N i n : Nat) : heads N i (n + 1) = (i + 1) % N :: heads N (i + 1) n := by
  unfold heads; rw [List.range'_succ]; rfl

theorem lastHead_heads (N : Nat) : ∀ (n i : Nat), lastHead (i % N) (heads N i n) = (i + n) % N := by
  intro n
  induction n with
  | zero => intro i; simp [heads, lastHead]
  | succ n ih =>
    intro i
    rw [heads_cons, lastHead, ih]; congr 1; omega

/-- Positions `i ≤ j` less than `N` apart share a slot only if equal. -/
theorem eq_of_mod {N i j : Nat} (h1 : i ≤ j) (h2 : j < i + N) (h : i % N = j % N) : i = j := by
  by_contra hne
  have := mod_ne (N := N) (d := i) (i := 0) (j := j - i) (by omega) (by omega) (by omega)
  apply this
  rw [Nat.add_zero, h]; congr 1; omega

/-- The invariant: `Hm` and `Tm` are the positions the memory cells `head` and `tail` stand for, `f`
is 1 if the item at position `Tm` has reached the memory already. -/
structure Inv (N : Nat) (s : Sys) (Hm Tm f : Nat) : Prop where
  wf : Wf s.q N
  pre : Spec.delivered s.log ++ (Spec.accepted s.log).drop (Spec.delivered s.log).length
    = Spec.accepted s.log
  le1 : Hm ≤ (Spec.delivered s.log).length
  le2 : (Spec.delivered s.log).length ≤ Tm
  le3 : Tm ≤ (Spec.accepted s.log).length
  le4 : (Spec.accepted s.log).length ≤ Hm + (N - 1)
  head : s.q.head = Hm % N
  tail : s.q.tail = Tm % N
  cb : s.cb = heads N Hm ((Spec.delivered s.log).length - Hm)
  pb : s.pb = (writes N Tm ((Spec.accepted s.log).drop Tm) (ext s.p)).drop f
  fle : f ≤ 1
  flen : Tm + f ≤ (Spec.accepted s.log).length + (ext s.p).toList.length
  mem : ∀ j, (Spec.delivered s.log).length ≤ j → j < Tm + f →
    s.q.store[j % N]? = (Spec.accepted s.log ++ (ext s.p).toList)[j]?
  prod : match s.p with
    | .idle => True
    | .loadTail _ => True
    | .loadHead _ nx => nx = ((Spec.accepted s.log).length + 1) % N
    | .loadSlot _ nx => nx = ((Spec.accepted s.log).length + 1) % N ∧
        (Spec.accepted s.log).length + 1 ≤ Hm + (N - 1)
    | .storeItem _ nx slot => nx = ((Spec.accepted s.log).length + 1) % N ∧
        (Spec.accepted s.log).length + 1 ≤ Hm + (N - 1) ∧ slot = (Spec.accepted s.log).length % N
    | .storeTail _ nx => nx = ((Spec.accepted s.log).length + 1) % N ∧
        (Spec.accepted s.log).length + 1 ≤ Hm + (N - 1)
  cons : match s.c with
    | .idle => True
    | .compare _ => True
    | .loadTail h => h = (Spec.delivered s.log).length % N
    | .loadHead t => t ≠ (Spec.delivered s.log).length % N → (Spec.delivered s.log).length < Tm
    | .loadSlot => (Spec.delivered s.log).length < Tm
    | .loadItem slot => (Spec.delivered s.log).length < Tm ∧
        slot = (Spec.delivered s.log).length % N
    | .loadHead2 x => (Spec.delivered s.log).length < Tm ∧
        (Spec.accepted s.log)[(Spec.delivered s.log).length]? = some x
    | .storeHead x h => (Spec.delivered s.log).length < Tm ∧
        (Spec.accepted s.log)[(Spec.delivered s.log).length]? = some x ∧
        h = (Spec.delivered s.log).length % N

theorem Inv.ptail {N : Nat} {s : Sys} {Hm Tm f : Nat} (h : Inv N s Hm Tm f) :
    lastTail s.q.tail s.pb = (Spec.accepted s.log).length % N := by
  rw [h.tail, h.pb, lastTail_writes_drop _ _ _ _ _ h.fle]
  congr 1
  have := h.le3
  simp; omega

theorem Inv.chead {N : Nat} {s : Sys} {Hm Tm f : Nat} (h : Inv N s Hm Tm f) :
    lastHead s.q.head s.cb = (Spec.delivered s.log).length % N := by
  rw [h.head, h.cb, lastHead_heads]
  congr 1
  have := h.le1
  omega

theorem acc_append (a : List Ev) (x : Val) (b : Bool) :
    Spec.accepted (a ++ [.putRet x b]) = Spec.accepted a ++ (if b then [x] else []) ∧
    Spec.delivered (a ++ [.putRet x b]) = Spec.delivered a ∧
    Spec.accepted (a ++ [.getRet b x]) = Spec.accepted a ∧
    Spec.delivered (a ++ [.getRet b x]) = Spec.delivered a ++ (if b then [x] else []) := by
  cases b <;> simp [Spec.accepted, Spec.delivered]

/-- Producer actions. -/
theorem prod_inv {N : Nat} {s : Sys} {Hm Tm f : Nat} (h : Inv N s Hm Tm f) (item : Val) :
    ∃ s', micro s (.prod item) = .ok s' ∧ Inv N s' Hm Tm f := by
  have hpt := h.ptail
  obtain ⟨q, pb, cb, p, c, log⟩ := s
  have h2 := h.wf.two
  have hal := h.wf.alloc
  have hand := h.wf.and
  obtain ⟨wf, pre, le1, le2, le3, le4, hd, tl, hcb, hpb, fle, flen, mem, prod, cons⟩ := h
  simp only at *
  cases p with
  | idle => exact ⟨_, rfl, ⟨wf, pre, le1, le2, le3, le4, hd, tl, hcb, hpb, fle, flen, mem, trivial, cons⟩⟩
  | loadTail x =>
    refine ⟨_, rfl, ⟨wf, pre, le1, le2, le3, le4, hd, tl, hcb, hpb, fle, flen, mem, ?_, cons⟩⟩
    simp only [hpt, hand, mod_succ_mod]
  | loadHead x nx =>
    simp only [micro]
    by_cases he : nx = q.head
    · rw [if_pos he]
      obtain ⟨a1, a2, -, -⟩ := acc_append log x false
      simp only [Bool.false_eq_true, if_false, List.append_nil] at a1
      exact ⟨_, rfl, by
        constructor <;> (try simp only [a1, a2]) <;> (try assumption)⟩
    · rw [if_neg he]
      have key : (Spec.accepted log).length + 1 ≤ Hm + (N - 1) := by
        by_contra hc
        apply he
        rw [prod, hd]
        have : (Spec.accepted log).length + 1 = Hm + N := by omega
        rw [this]; simp
      exact ⟨_, rfl, ⟨wf, pre, le1, le2, le3, le4, hd, tl, hcb, hpb, fle, flen, mem, ⟨prod, key⟩, cons⟩⟩
  | loadSlot x nx =>
    exact ⟨_, rfl, ⟨wf, pre, le1, le2, le3, le4, hd, tl, hcb, hpb, fle, flen, mem,
      ⟨prod.1, prod.2, hpt⟩, cons⟩⟩
  | storeItem x nx slot =>
    obtain ⟨p1, p2, p3⟩ := prod
    have hlt : slot < q.store.length := by
      rw [p3]; have : (Spec.accepted log).length % N < N := Nat.mod_lt _ (by omega)
      omega
    simp only [micro, if_pos hlt]
    refine ⟨_, rfl, ⟨wf, pre, le1, le2, le3, le4, hd, tl, hcb, ?_, fle, ?_, ?_, ⟨p1, p2⟩, cons⟩⟩
    · simp only [ext] at hpb flen ⊢
      rw [hpb, ← writes_item, List.drop_append_of_le_length]
      · congr 3
        rw [p3]; congr 1; simp; omega
      · rw [writes_length]; simp at flen ⊢; omega
    · simp [ext] at flen ⊢; omega
    · intro j hj1 hj2
      simp only [ext, Option.toList, List.append_nil, List.length_nil, Nat.add_zero] at mem flen ⊢
      rw [mem j hj1 hj2, List.getElem?_append_left (by omega)]
  | storeTail x nx =>
    obtain ⟨p1, p2⟩ := prod
    obtain ⟨a1, a2, -, -⟩ := acc_append log x true
    simp only [if_true] at a1
    refine ⟨_, rfl, ?_⟩
    constructor <;> (try simp only [a1, a2])
    · exact wf
    · rw [List.drop_append_of_le_length (by omega), ← List.append_assoc, pre]
    · exact le1
    · exact le2
    · simp; omega
    · simp; omega
    · exact hd
    · exact tl
    · exact hcb
    · simp only [ext] at hpb flen ⊢
      rw [hpb, List.drop_append_of_le_length (by omega), ← writes_tail]
      rw [List.drop_append_of_le_length]
      · congr 3
        rw [p1]; congr 1; simp; omega
      · rw [writes_length]; simp at flen ⊢; omega
    · exact fle
    · simp [ext] at flen ⊢; omega
    · intro j hj1 hj2
      simpa [ext] using mem j hj1 hj2
    · cases c <;> simp only at cons ⊢ <;> first | exact cons | skip
      · exact ⟨cons.1, by rw [List.getElem?_append_left (by omega)]; exact cons.2⟩
      · exact ⟨cons.1, by rw [List.getElem?_append_left (by omega)]; exact cons.2.1, cons.2.2⟩

/-- Consumer actions. -/
theorem cons_inv {N : Nat} {s : Sys} {Hm Tm f : Nat} (h : Inv N s Hm Tm f) (tf : Bool) :
    ∃ s', micro s (.cons tf) = .ok s' ∧ Inv N s' Hm Tm f := by
  have hch := h.chead
  obtain ⟨q, pb, cb, p, c, log⟩ := s
  have h2 := h.wf.two
  have hal := h.wf.alloc
  have hand := h.wf.and
  obtain ⟨wf, pre, le1, le2, le3, le4, hd, tl, hcb, hpb, fle, flen, mem, prod, cons⟩ := h
  simp only at *
  have hne : (Spec.delivered log).length % N ≠ Tm % N → (Spec.delivered log).length < Tm := by
    intro hn
    rcases Nat.lt_or_ge (Spec.delivered log).length Tm with h | h
    · exact h
    · exfalso; apply hn; congr 1; omega
  have hempty : ∃ s' : Sys, (.ok { q := q, pb := pb, cb := cb, p := p, c := .idle, log := log ++ [.getRet false NULL] } : C Sys)
      = .ok s' ∧ Inv N s' Hm Tm f := by
    obtain ⟨-, -, a1, a2⟩ := acc_append log NULL false
    simp only [Bool.false_eq_true, if_false, List.append_nil] at a2
    refine ⟨_, rfl, ?_⟩
    constructor <;> (try simp only [a1, a2]) <;> (try assumption)
  cases c with
  | idle => exact ⟨_, rfl, ⟨wf, pre, le1, le2, le3, le4, hd, tl, hcb, hpb, fle, flen, mem, prod, trivial⟩⟩
  | compare b =>
    cases b with
    | false => exact ⟨_, rfl, ⟨wf, pre, le1, le2, le3, le4, hd, tl, hcb, hpb, fle, flen, mem, prod, hch⟩⟩
    | true =>
      refine ⟨_, rfl, ⟨wf, pre, le1, le2, le3, le4, hd, tl, hcb, hpb, fle, flen, mem, prod, ?_⟩⟩
      simp only [tl]
      intro hn; exact hne (fun e => hn e.symm)
  | loadTail hh =>
    simp only [micro]
    split
    · exact hempty
    · next he =>
      refine ⟨_, rfl, ⟨wf, pre, le1, le2, le3, le4, hd, tl, hcb, hpb, fle, flen, mem, prod, ?_⟩⟩
      rw [cons, tl] at he
      exact hne he
  | loadHead t =>
    simp only [micro]
    split
    · exact hempty
    · next he =>
      refine ⟨_, rfl, ⟨wf, pre, le1, le2, le3, le4, hd, tl, hcb, hpb, fle, flen, mem, prod, ?_⟩⟩
      rw [hch] at he
      exact cons (fun e => he e.symm)
  | loadSlot =>
    exact ⟨_, rfl, ⟨wf, pre, le1, le2, le3, le4, hd, tl, hcb, hpb, fle, flen, mem, prod, ⟨cons, hch⟩⟩⟩
  | loadItem slot =>
    obtain ⟨c1, c2⟩ := cons
    have hlt : (Spec.delivered log).length < (Spec.accepted log).length := by omega
    have hm := mem (Spec.delivered log).length (Nat.le_refl _) (by omega)
    rw [List.getElem?_append_left hlt, List.getElem?_eq_getElem hlt] at hm
    simp only [micro]
    rw [c2, ldN_some hm, C.ok_bind]
    exact ⟨_, rfl, ⟨wf, pre, le1, le2, le3, le4, hd, tl, hcb, hpb, fle, flen, mem, prod,
      ⟨c1, List.getElem?_eq_getElem hlt⟩⟩⟩
  | loadHead2 x =>
    exact ⟨_, rfl, ⟨wf, pre, le1, le2, le3, le4, hd, tl, hcb, hpb, fle, flen, mem, prod,
      ⟨cons.1, cons.2, hch⟩⟩⟩
  | storeHead x hh =>
    obtain ⟨c1, c2, c3⟩ := cons
    obtain ⟨-, -, a1, a2⟩ := acc_append log x true
    simp only [if_true] at a2
    refine ⟨_, rfl, ?_⟩
    have hl1 : (Spec.delivered log ++ [x]).length = (Spec.delivered log).length + 1 := by simp
    constructor <;> (try simp only [a1, a2, hl1])
    · exact wf
    · have hlt : (Spec.delivered log).length < (Spec.accepted log).length := by omega
      rw [List.getElem?_eq_getElem hlt] at c2
      have hx : (Spec.accepted log)[(Spec.delivered log).length] = x := by simpa using c2
      have := List.drop_eq_getElem_cons hlt
      rw [hx] at this
      rw [this] at pre
      simpa using pre
    · omega
    · exact c1
    · exact le3
    · exact le4
    · exact hd
    · exact tl
    · rw [hcb, c3, hand, mod_succ_mod]
      have e : (Spec.delivered log).length + 1 - Hm = ((Spec.delivered log).length - Hm) + 1 := by
        omega
      rw [e, ← heads_succ]
      congr 4; omega
    · exact hpb
    · exact fle
    · exact flen
    · intro j hj1 hj2; exact mem j (by omega) hj2
    · exact prod

/-- The producer's buffer releases a store. -/
theorem flushP_inv {N : Nat} {s : Sys} {Hm Tm f : Nat} (h : Inv N s Hm Tm f) :
    ∃ s' Tm' f', micro s .flushP = .ok s' ∧ Inv N s' Hm Tm' f' ∧ s'.pb = s.pb.tail ∧
      s'.log = s.log ∧ s'.c = s.c ∧ s'.p = s.p ∧ s'.cb = s.cb := by
  obtain ⟨q, pb, cb, p, c, log⟩ := s
  have h2 := h.wf.two
  have hal := h.wf.alloc
  obtain ⟨wf, pre, le1, le2, le3, le4, hd, tl, hcb, hpb, fle, flen, mem, prod, cons⟩ := h
  simp only at *
  have hprod : (ext p).toList.length + (Spec.accepted log).length ≤ Hm + (N - 1) := by
    cases p <;> simp [ext] <;> simp only at prod <;> omega
  -- nothing in the buffer
  have hnone : pb = [] → ∃ s' Tm' f', micro ⟨q, pb, cb, p, c, log⟩ .flushP = .ok s' ∧
      Inv N s' Hm Tm' f' ∧ s'.pb = pb.tail ∧ s'.log = log ∧ s'.c = c ∧ s'.p = p ∧ s'.cb = cb := by
    intro e
    subst e
    exact ⟨_, Tm, f, rfl, ⟨wf, pre, le1, le2, le3, le4, hd, tl, hcb, hpb, fle, flen, mem, prod, cons⟩,
      rfl, rfl, rfl, rfl, rfl⟩
  -- an item
  have hitem : ∀ x r, f = 0 → (Spec.accepted log ++ (ext p).toList)[Tm]? = some x →
      writes N Tm ((Spec.accepted log).drop Tm) (ext p) = .item (Tm % N) x :: r →
      ∃ s' Tm' f', micro ⟨q, pb, cb, p, c, log⟩ .flushP = .ok s' ∧
      Inv N s' Hm Tm' f' ∧ s'.pb = pb.tail ∧ s'.log = log ∧ s'.c = c ∧ s'.p = p ∧ s'.cb = cb := by
    intro x r hf hx hw
    subst hf
    rw [hw, List.drop_zero] at hpb
    subst hpb
    have hT : Tm < (Spec.accepted log ++ (ext p).toList).length := by
      rw [List.getElem?_eq_some_iff] at hx; exact hx.1
    simp only [List.length_append] at hT
    have hlt : Tm % N < q.store.length := by
      have : Tm % N < N := Nat.mod_lt _ (by omega)
      omega
    simp only [micro, stN_ok hlt, C.ok_bind]
    refine ⟨_, Tm, 1, rfl, ⟨⟨wf.two, wf.pow, wf.mask, by simpa using wf.alloc⟩, pre, le1, le2, le3,
      le4, hd, tl, hcb, by simp [hw], Nat.le_refl _, by simp only; omega, ?_, prod, cons⟩,
      rfl, rfl, rfl, rfl, rfl⟩
    intro j hj1 hj2
    simp only at hj1
    by_cases hj : j = Tm
    · subst hj
      simp only
      rw [List.getElem?_set_self hlt, hx]
    · have hne : Tm % N ≠ j % N := by
        intro e
        exact hj (eq_of_mod (by omega) (by omega) e.symm)
      simp only
      rw [List.getElem?_set_ne hne]
      exact mem j hj1 (by omega)
  cases hA : (Spec.accepted log).drop Tm with
  | nil =>
    have hTm : Tm = (Spec.accepted log).length := by
      have := congrArg List.length hA
      simp at this; omega
    cases he : ext p with
    | none =>
      apply hnone
      rw [hpb, hA, he]
      simp [writes]
    | some x =>
      rcases Nat.le_one_iff_eq_zero_or_eq_one.mp fle with hf | hf
      · apply hitem x [] hf
        · rw [he, hTm]; simp
        · rw [hA, he]; simp [writes]
      · apply hnone
        rw [hpb, hA, he, hf]
        simp [writes]
  | cons a l =>
    have hlt : Tm < (Spec.accepted log).length := by
      have := congrArg List.length hA
      simp at this; omega
    rcases Nat.le_one_iff_eq_zero_or_eq_one.mp fle with hf | hf
    · apply hitem a (.tail ((Tm + 1) % N) :: writes N (Tm + 1) l (ext p)) hf
      · rw [List.getElem?_append_left hlt]
        have := congrArg (·[0]?) hA
        simpa using this
      · rw [hA]; simp [writes]
    · rw [hA, hf] at hpb
      simp only [writes, List.drop_succ_cons, List.drop_zero] at hpb
      subst hpb
      have hl : (Spec.accepted log).drop (Tm + 1) = l := by
        rw [← List.drop_drop, hA]; rfl
      refine ⟨_, Tm + 1, 0, rfl, ⟨⟨wf.two, wf.pow, wf.mask, wf.alloc⟩, pre, le1, by simp only; omega,
        by simp only; omega, le4, hd, rfl, hcb, by simp [hl], by omega, by simp only; omega, ?_,
        prod, ?_⟩, rfl, rfl, rfl, rfl, rfl⟩
      · intro j hj1 hj2
        exact mem j hj1 (by omega)
      · simp only
        cases c <;> simp only at cons ⊢ <;> first | exact cons | skip
        · intro h; have := cons h; omega
        · omega
        · exact ⟨by omega, cons.2⟩
        · exact ⟨by omega, cons.2⟩
        · exact ⟨by omega, cons.2⟩

/-- The consumer's buffer releases a store. -/
theorem flushC_inv {N : Nat} {s : Sys} {Hm Tm f : Nat} (h : Inv N s Hm Tm f) :
    ∃ s' Hm', micro s .flushC = .ok s' ∧ Inv N s' Hm' Tm f := by
  obtain ⟨q, pb, cb, p, c, log⟩ := s
  obtain ⟨wf, pre, le1, le2, le3, le4, hd, tl, hcb, hpb, fle, flen, mem, prod, cons⟩ := h
  simp only at *
  by_cases he : (Spec.delivered log).length - Hm = 0
  · rw [he] at hcb
    have hcb' : cb = [] := by rw [hcb]; rfl
    subst hcb'
    exact ⟨_, Hm, rfl, ⟨wf, pre, le1, le2, le3, le4, hd, tl, by rw [he]; rfl, hpb, fle, flen, mem, prod,
      cons⟩⟩
  · obtain ⟨n, hn⟩ : ∃ n, (Spec.delivered log).length - Hm = n + 1 := ⟨_, (Nat.succ_pred he).symm⟩
    rw [hn, heads_cons] at hcb
    subst hcb
    refine ⟨_, Hm + 1, rfl, ⟨⟨wf.two, wf.pow, wf.mask, wf.alloc⟩, pre, by simp only; omega, le2, le3,
      by simp only; omega, rfl, tl, ?_, hpb, fle, flen, mem, ?_, cons⟩⟩
    · simp only; congr 1; omega
    · simp only
      cases p <;> simp only at prod ⊢ <;> first | exact prod | skip
      · exact ⟨prod.1, by omega⟩
      · exact ⟨prod.1, by omega, prod.2.2⟩
      · exact ⟨prod.1, by omega⟩

theorem micro_inv {N : Nat} {s : Sys} {Hm Tm f : Nat} (h : Inv N s Hm Tm f) (a : Act) :
    ∃ s' Hm' Tm' f', micro s a = .ok s' ∧ Inv N s' Hm' Tm' f' := by
  cases a with
  | prod x => obtain ⟨s', h1, h2⟩ := prod_inv h x; exact ⟨s', _, _, _, h1, h2⟩
  | cons b => obtain ⟨s', h1, h2⟩ := cons_inv h b; exact ⟨s', _, _, _, h1, h2⟩
  | flushP => obtain ⟨s', _, _, h1, h2, -⟩ := flushP_inv h; exact ⟨s', _, _, _, h1, h2⟩
  | flushC => obtain ⟨s', _, h1, h2⟩ := flushC_inv h; exact ⟨s', _, _, _, h1, h2⟩

theorem exec_inv {N : Nat} (as : List Act) : ∀ {s : Sys} {Hm Tm f : Nat}, Inv N s Hm Tm f →
    ∃ s' Hm' Tm' f', exec s as = .ok s' ∧ Inv N s' Hm' Tm' f' := by
  induction as with
  | nil => intro s _ _ _ h; exact ⟨s, _, _, _, rfl, h⟩
  | cons a as ih =>
    intro s _ _ _ h
    obtain ⟨s1, _, _, _, h1, h2⟩ := micro_inv h a
    obtain ⟨s2, _, _, _, g1, g2⟩ := ih h2
    exact ⟨s2, _, _, _, by simp [exec, h1, g1], g2⟩

theorem start_inv {q0 : Spsc} {store : List Val} {N : Nat} (hok : (init q0 store N).1 = .none)
    (halloc : N ≤ store.length) : Inv N (Sys.start (init q0 store N).2) 0 0 0 := by
  have h := init_rep hok halloc
  refine ⟨h.wf, rfl, by simp [Sys.start, Spec.delivered],
    by simp [Sys.start, Spec.delivered], by simp [Sys.start, Spec.accepted],
    by simp [Sys.start, Spec.accepted], ?_, ?_, ?_, ?_,
    by omega, by simp, ?_, trivial, trivial⟩
  · simpa [Sys.start] using h.head
  · simpa [Sys.start] using h.tail
  · simp [Sys.start, heads, Spec.delivered]
  · simp [Sys.start, writes, Spec.accepted, ext]
  · intro j _ hj; omega

theorem exec_append (as bs : List Act) : ∀ (s : Sys),
    exec s (as ++ bs) = (do let s' ← exec s as; exec s' bs) := by
  induction as with
  | nil => intro s; rfl
  | cons a as ih =>
    intro s
    simp only [List.cons_append, exec]
    cases micro s a with
    | error e => rfl
    | ok s1 => simp only [C.ok_bind]; exact ih s1

end Mu.Spsc.Tso
