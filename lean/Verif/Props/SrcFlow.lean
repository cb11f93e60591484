import Verif.Props.SrcSpscConc
import Verif.Props.SrcBisync
import Verif.Spec.SrcFlow

/-! # Property C138: what flows through the parsed mu_spsc.c under every interleaving, and frames sent through it -/

namespace Mu.CS.Conc
open Mu.Bisync Mu.Bisync.Spec

variable {A : Arch} {Y : AExt} {q : Place} {s s' : Sys} {N : Nat}

theorem flow_append (l l' : List Ev) : flow (l ++ l') = l'.foldl Flow.see (flow l) := by simp [flow, List.foldl_append]

/-- The producer only puts, the consumer only gets. -/
def Ev.Proper : Ev → Prop
  | .call .producer (.put _) => True
  | .call .consumer (.get _ _) => True
  | .call _ _ => False
  | .ret _ _ => True

theorem Steps.proper {S : Fn → List CVal → Act CVal} {s0 : Sys} {l : List Ev} (hs : Steps S q s0 l s) : ∀ e ∈ l, e.Proper := by
  induction hs with
  | nil => simp
  | snoc _ st ih =>
    intro e he
    rcases List.mem_append.mp he with he | he
    · exact ih e he
    · cases st <;> simp at he <;> subst he <;> trivial

/-- The items the queue has taken in, given those whose put has returned. -/
inductive Taken : TS → Flow → List CVal → Prop
  | idle {φ} : φ.offered = none → Taken .idle φ φ.accepted
  | pending {φ v} : φ.offered = some v → Taken (.pending (.put v)) φ φ.accepted
  | done {φ v} : φ.offered = some v → Taken (.done ⟨.int 0, none⟩) φ (φ.accepted ++ [v])
  | full {φ v} : φ.offered = some v → Taken (.done ⟨.int 2, none⟩) φ φ.accepted

/-- The items the queue has given out, given those whose get has returned. -/
inductive Given : TS → Flow → List CVal → Prop
  | idle {φ} : φ.getting = false → Given .idle φ φ.received
  | pending {φ eb eo} : φ.getting = true → Given (.pending (.get eb eo)) φ φ.received
  | done {φ x} : φ.getting = true → Given (.done ⟨.int 0, some x⟩) φ (φ.received ++ [x])
  | empty {φ} : φ.getting = true → Given (.done ⟨.int 1, some .null⟩) φ φ.received

/-- The atomic queue and what has flowed. -/
structure Flows (N : Nat) (o : Obj) (φ : Flow) (a g : List CVal) : Prop where
  taken : Taken o.p φ a
  given : Given o.c φ g
  eq : a = g ++ o.items
  le : o.items.length ≤ N - 1

theorem Taken.congr {t : TS} {φ ψ : Flow} {a : List CVal} (k : Taken t φ a) (h1 : ψ.accepted = φ.accepted) (h2 : ψ.offered = φ.offered) :
    Taken t ψ a := by
  cases k with
  | idle h => rw [← h1]; exact .idle (h2.trans h)
  | pending h => rw [← h1]; exact .pending (h2.trans h)
  | done h => rw [← h1]; exact .done (h2.trans h)
  | full h => rw [← h1]; exact .full (h2.trans h)

theorem Given.congr {t : TS} {φ ψ : Flow} {a : List CVal} (k : Given t φ a) (h1 : ψ.received = φ.received) (h2 : ψ.getting = φ.getting) :
    Given t ψ a := by
  cases k with
  | idle h => rw [← h1]; exact .idle (h2.trans h)
  | pending h => rw [← h1]; exact .pending (h2.trans h)
  | done h => rw [← h1]; exact .done (h2.trans h)
  | empty h => rw [← h1]; exact .empty (h2.trans h)

/-- What a step of the atomic queue does to it all. -/
theorem Flows.step {o o' : Obj} {φ : Flow} {a g : List CVal} (k : Flows N o φ a g) {l : List Ev} (hl : ∀ e ∈ l, e.Proper)
    (st : Obj.Step N o l o') : ∃ a' g', Flows N o' (l.foldl Flow.see φ) a' g' ∧
      (∀ r, o'.p = .done r → o.p = .done r ∨ r.ret = .int 0 ∨ φ.accepted.length = g.length + (N - 1)) ∧
      (∀ r, o'.c = .done r → o.c = .done r ∨ r.ret = .int 0 ∨ a.length = φ.received.length) ∧ a <+: a' ∧ g <+: g' := by
  obtain ⟨op, oc, it⟩ := o
  obtain ⟨kt, kg, e, le⟩ := k
  simp only at kt kg e le
  cases st with
  | call t c hi =>
    cases t with
    | producer =>
      cases c with
      | put v =>
        obtain rfl : op = .idle := hi
        cases kt with
        | idle h => exact ⟨_, _, ⟨.pending rfl, kg.congr rfl rfl, e, le⟩, by simp [Obj.set], fun r h => .inl h, by simp [Flow.see], List.prefix_rfl⟩
      | _ => simp [Ev.Proper] at hl
    | consumer =>
      cases c with
      | get eb eo =>
        obtain rfl : oc = .idle := hi
        cases kg with
        | idle h => exact ⟨_, _, ⟨kt.congr rfl rfl, .pending rfl, e, le⟩, fun r h => .inl h, by simp [Obj.set], List.prefix_rfl, by simp [Flow.see]⟩
      | _ => simp [Ev.Proper] at hl
  | effect t c hi =>
    cases t with
    | producer =>
      obtain rfl : op = .pending c := hi
      cases kt with
      | pending h =>
        next v =>
        by_cases hlt : it.length < N - 1
        · refine ⟨φ.accepted ++ [v], g, ⟨?_, kg, ?_, ?_⟩, ?_, fun r h => .inl h, by simp, List.prefix_rfl⟩
          · simp only [SCall.spec, hlt, if_true, Obj.set]
            exact .done h
          · simp [SCall.spec, hlt, e]
          · simp [SCall.spec, hlt]; omega
          · simp [SCall.spec, hlt, Obj.set]
        · refine ⟨φ.accepted, g, ⟨?_, kg, ?_, ?_⟩, ?_, fun r h => .inl h, by simp, List.prefix_rfl⟩
          · simp only [SCall.spec, hlt, if_false, Obj.set]
            exact .full h
          · simp [SCall.spec, hlt, e]
          · simp [SCall.spec, hlt]; omega
          · intro r hr
            right; right
            rw [e, List.length_append]
            omega
    | consumer =>
      obtain rfl : oc = .pending c := hi
      cases kg with
      | pending h =>
        next eb eo =>
        cases it with
        | nil =>
          refine ⟨a, φ.received, ⟨kt, ?_, ?_, ?_⟩, fun r h => .inl h, ?_, List.prefix_rfl, by simp⟩
          · simp only [SCall.spec, Obj.set]
            exact .empty h
          · simp [SCall.spec, e]
          · simp [SCall.spec]
          · intro r hr
            right; right
            simp [e]
        | cons x xs =>
          refine ⟨a, φ.received ++ [x], ⟨kt, ?_, ?_, ?_⟩, fun r h => .inl h, ?_, List.prefix_rfl, by simp⟩
          · simp only [SCall.spec, Obj.set]
            exact .done h
          · simp [SCall.spec, e]
          · simp [SCall.spec] at le ⊢; omega
          · simp [SCall.spec, Obj.set]
  | ret t r hi =>
    cases t with
    | producer =>
      obtain rfl : op = .done r := hi
      cases kt with
      | done h => exact ⟨_, _, ⟨by simp [Flow.see, h, Obj.set]; exact .idle rfl, kg.congr rfl rfl, by simpa [Flow.see, h, Obj.set] using e, le⟩, by simp [Obj.set], fun r h => .inl h, by simp [Flow.see, h], List.prefix_rfl⟩
      | full h => exact ⟨_, _, ⟨.idle rfl, kg.congr rfl rfl, by simpa [Flow.see, Obj.set] using e, le⟩, by simp [Obj.set], fun r h => .inl h, by simp [Flow.see], List.prefix_rfl⟩
    | consumer =>
      obtain rfl : oc = .done r := hi
      cases kg with
      | done h => exact ⟨_, _, ⟨kt.congr rfl rfl, .idle rfl, by simpa [Flow.see, Obj.set] using e, le⟩, fun r h => .inl h, by simp [Obj.set], List.prefix_rfl, by simp [Flow.see]⟩
      | empty h => exact ⟨_, _, ⟨kt.congr rfl rfl, .idle rfl, by simpa [Flow.see, Obj.set] using e, le⟩, fun r h => .inl h, by simp [Obj.set], List.prefix_rfl, by simp [Flow.see]⟩

/-- A step shows at most one event. -/
theorem Obj.Step.one {o o' : Obj} {l : List Ev} (st : Obj.Step N o l o') : l = [] ∨ ∃ e, l = [e] := by
  cases st <;> simp

theorem Obj.Steps.split {o0 o : Obj} {l : List Ev} (hs : Obj.Steps N o0 l o) : ∀ {a b : List Ev} {e : Ev}, l = a ++ e :: b →
    ∃ o1 o2, Obj.Steps N o0 a o1 ∧ Obj.Step N o1 [e] o2 ∧ Obj.Steps N o2 b o := by
  induction hs with
  | nil => intro a b e h; simp at h
  | @snoc o1 o2 l l' k st ih =>
    intro a b e h
    rcases st.one with rfl | ⟨x, rfl⟩
    · rw [List.append_nil] at h
      obtain ⟨p1, p2, h1, h2, h3⟩ := ih h
      exact ⟨p1, p2, h1, h2, by simpa using h3.snoc st⟩
    · rcases List.eq_nil_or_concat b with rfl | ⟨b', y, rfl⟩
      · obtain ⟨rfl, h'⟩ := List.append_inj' h rfl
        obtain rfl : x = e := by simpa using h'
        exact ⟨o1, o2, k, st, .nil _⟩
      · have h' : l ++ [x] = (a ++ e :: b') ++ [y] := by simpa using h
        obtain ⟨rfl, hx⟩ := List.append_inj' h' rfl
        obtain rfl : x = y := by simpa using hx
        obtain ⟨p1, p2, h1, h2, h3⟩ := ih rfl
        exact ⟨p1, p2, h1, h2, by simpa using h3.snoc st⟩

theorem Flows.steps {o o' : Obj} {φ : Flow} {a g : List CVal} (k : Flows N o φ a g) {l : List Ev} (hs : Obj.Steps N o l o')
    (hl : ∀ e ∈ l, e.Proper) : ∃ a' g', Flows N o' (l.foldl Flow.see φ) a' g' ∧ a <+: a' ∧ g <+: g' := by
  induction hs with
  | nil => exact ⟨a, g, k, List.prefix_rfl, List.prefix_rfl⟩
  | snoc _ st ih =>
    obtain ⟨a1, g1, k1, p1, p2⟩ := ih fun e he => hl e (List.mem_append_left _ he)
    obtain ⟨a2, g2, k2, -, -, p3, p4⟩ := k1.step (fun e he => hl e (List.mem_append_right _ he)) st
    rw [List.foldl_append]
    exact ⟨a2, g2, k2, p1.trans p3, p2.trans p4⟩

theorem Flows.start (N : Nat) : Flows N ⟨.idle, .idle, []⟩ ⟨[], none, [], false⟩ [] [] :=
  ⟨.idle rfl, .idle rfl, rfl, by simp⟩

/-- **C138, first in first out**: after `mu_spsc_init`, under every interleaving, the items received are the first of those accepted
(or being accepted), in order, each once; at most `N - 1` accepted items wait in the queue (one more may be in the hands of a
`mu_spsc_get` that has not returned). -/
theorem C138_fifo (A : Arch) (X : Ext) (Y : AExt) (n m : Nat) (q : Place) (h : Heap)
    (hb : q.b.isLit = false) (hsb : q.sb.isLit = false) (hN : q.N < 65536) (hpow : ∃ k, q.N = 2 ^ k) (htwo : 2 ≤ q.N)
    (hstruct : ∀ k : Nat, k < 4 → (h.at q.b (q.o + k)).isSome = true)
    (hstore : ∀ i : Nat, i < q.N → (h.at q.sb (q.so + i)).isSome = true)
    (hsep : ∀ i : Nat, i < q.N → ∀ k : Nat, k < 4 → ¬(q.b = q.sb ∧ q.o + k = q.so + i)) :
    ∃ h1, sem A X prog (n + 2) .mu_spsc_init h [.ptr q.b q.o, .ptr q.sb q.so, .int q.N] = .ok (.int 0, h1) ∧
      ∀ l s, Steps (semA A Y prog (m + 1)) q ⟨h1, none, none⟩ l s →
        (flow l).received <+: (flow l).accepted ++ (flow l).offered.toList ∧
        (flow l).accepted.length ≤ (flow l).received.length + (q.N - 1) + (if (flow l).getting then 1 else 0) := by
  obtain ⟨h1, e1, k⟩ := C132_linearizable A X Y n m q h hb hsb hN hpow htwo hstruct hstore hsep
  refine ⟨h1, e1, fun l s hs => ?_⟩
  obtain ⟨⟨o, ho⟩, -⟩ := k l s hs
  obtain ⟨a, g, f, -, -⟩ := (Flows.start q.N).steps ho hs.proper
  change Flows q.N o (flow l) a g at f
  generalize flow l = φ at f
  obtain ⟨op, oc, it⟩ := o
  obtain ⟨kt, kg, e, le⟩ := f
  simp only at kt kg e le
  have pa : a <+: φ.accepted ++ φ.offered.toList := by cases kt <;> simp_all
  have pg : φ.received <+: g := by cases kg <;> simp_all
  have la : φ.accepted.length ≤ a.length := by clear e; cases kt <;> simp
  have lg : g.length ≤ φ.received.length + (if φ.getting then 1 else 0) := by cases kg <;> simp_all
  refine ⟨pg.trans ((e ▸ List.prefix_append g it).trans pa), ?_⟩
  rw [e, List.length_append] at la
  omega

/-- A put is in progress that was called when `A0` had been accepted and `r0` received. -/
structure Putting (N : Nat) (A0 : List CVal) (r0 : Nat) (o : Obj) (φ : Flow) : Prop where
  same : φ.accepted = A0
  result : (∃ c, o.p = .pending c) ∨ ∃ r, o.p = .done r ∧ (r.ret = .int 0 ∨ r0 + (N - 1) ≤ A0.length)

theorem Putting.steps {o o' : Obj} {φ : Flow} {a g A0 : List CVal} {r0 : Nat} (k : Flows N o φ a g) {l : List Ev} (hs : Obj.Steps N o l o')
    (hl : ∀ e ∈ l, e.Proper) (hn : ∀ r, .ret .producer r ∉ l) (w : Putting N A0 r0 o φ) (hg : r0 ≤ g.length) :
    Putting N A0 r0 o' (l.foldl Flow.see φ) := by
  induction hs with
  | nil => exact w
  | @snoc o1 o2 l l' ks st ih =>
    have hl1 : ∀ e ∈ l, e.Proper := fun e he => hl e (List.mem_append_left _ he)
    obtain ⟨a1, g1, k1, p1, p2⟩ := k.steps ks hl1
    have w1 := ih hl1 fun r hr => hn r (List.mem_append_left _ hr)
    obtain ⟨a2, g2, k2, fp, -, p3, p4⟩ := k1.step (fun e he => hl e (List.mem_append_right _ he)) st
    have hl2 : ∀ r, .ret .producer r ∉ l' := fun r hr => hn r (List.mem_append_right _ hr)
    rw [List.foldl_append]
    generalize l.foldl Flow.see φ = ψ at *
    have hlen := p2.length_le
    obtain ⟨w2, w3⟩ := w1
    have done : ∀ r, o2.p = .done r → r.ret = .int 0 ∨ r0 + (N - 1) ≤ A0.length := by
      intro r hr
      rcases fp r hr with h | h | h
      · rcases w3 with ⟨c, hc⟩ | ⟨r', hr', h'⟩
        · rw [hc] at h; cases h
        · rw [hr'] at h; cases h; exact h'
      · exact .inl h
      · right; rw [w2] at h; omega
    cases st with
    | call t c hi =>
      cases t with
      | producer =>
        simp only [Obj.ts] at hi
        rcases w3 with ⟨c', hc⟩ | ⟨r', hr', h'⟩
        · rw [hc] at hi; cases hi
        · rw [hr'] at hi; cases hi
      | consumer =>
        cases c with
        | get eb eo => exact ⟨w2, w3⟩
        | _ => exact ⟨w2, w3⟩
    | effect t c hi =>
      cases t with
      | producer => exact ⟨w2, .inr ⟨_, rfl, done _ rfl⟩⟩
      | consumer => exact ⟨w2, w3⟩
    | ret t r hi =>
      cases t with
      | producer => exact absurd (List.mem_singleton.mpr rfl) (hl2 r)
      | consumer => exact ⟨w2, w3⟩

/-- A get is in progress that was called when `R0` had been received and `a0` items accepted. -/
structure Getting (R0 : List CVal) (a0 : Nat) (o : Obj) (φ : Flow) : Prop where
  same : φ.received = R0
  result : (∃ c, o.c = .pending c) ∨ ∃ r, o.c = .done r ∧ (r.ret = .int 0 ∨ a0 ≤ R0.length)

theorem Getting.steps {o o' : Obj} {φ : Flow} {a g R0 : List CVal} {a0 : Nat} (k : Flows N o φ a g) {l : List Ev} (hs : Obj.Steps N o l o')
    (hl : ∀ e ∈ l, e.Proper) (hn : ∀ r, .ret .consumer r ∉ l) (w : Getting R0 a0 o φ) (hg : a0 ≤ a.length) :
    Getting R0 a0 o' (l.foldl Flow.see φ) := by
  induction hs with
  | nil => exact w
  | @snoc o1 o2 l l' ks st ih =>
    have hl1 : ∀ e ∈ l, e.Proper := fun e he => hl e (List.mem_append_left _ he)
    obtain ⟨a1, g1, k1, p1, p2⟩ := k.steps ks hl1
    have w1 := ih hl1 fun r hr => hn r (List.mem_append_left _ hr)
    obtain ⟨a2, g2, k2, -, fp, p3, p4⟩ := k1.step (fun e he => hl e (List.mem_append_right _ he)) st
    have hl2 : ∀ r, .ret .consumer r ∉ l' := fun r hr => hn r (List.mem_append_right _ hr)
    rw [List.foldl_append]
    generalize l.foldl Flow.see φ = ψ at *
    have hlen := p1.length_le
    obtain ⟨w2, w3⟩ := w1
    have done : ∀ r, o2.c = .done r → r.ret = .int 0 ∨ a0 ≤ R0.length := by
      intro r hr
      rcases fp r hr with h | h | h
      · rcases w3 with ⟨c, hc⟩ | ⟨r', hr', h'⟩
        · rw [hc] at h; cases h
        · rw [hr'] at h; cases h; exact h'
      · exact .inl h
      · right; rw [w2] at h; omega
    cases st with
    | call t c hi =>
      cases t with
      | consumer =>
        simp only [Obj.ts] at hi
        rcases w3 with ⟨c', hc⟩ | ⟨r', hr', h'⟩
        · rw [hc] at hi; cases hi
        · rw [hr'] at hi; cases hi
      | producer =>
        cases c with
        | put v => exact ⟨w2, w3⟩
        | _ => exact ⟨w2, w3⟩
    | effect t c hi =>
      cases t with
      | consumer => exact ⟨w2, .inr ⟨_, rfl, done _ rfl⟩⟩
      | producer => exact ⟨w2, w3⟩
    | ret t r hi =>
      cases t with
      | consumer => exact absurd (List.mem_singleton.mpr rfl) (hl2 r)
      | producer => exact ⟨w2, w3⟩

theorem linear_put {l1 l2 l3 : List Ev} {v : CVal} {r : SOut}
    (hl : Linearizable N (l1 ++ .call .producer (.put v) :: (l2 ++ .ret .producer r :: l3)))
    (hp : ∀ e ∈ l1 ++ .call .producer (.put v) :: (l2 ++ .ret .producer r :: l3), e.Proper) (hn : ∀ r', .ret .producer r' ∉ l2)
    (room : (flow l1).accepted.length < (flow l1).received.length + (N - 1)) : r.ret = .int 0 := by
  obtain ⟨o, ho⟩ := hl
  obtain ⟨o1, o2, s1, s2, s3⟩ := ho.split rfl
  obtain ⟨o3, o4, s4, s5, -⟩ := s3.split rfl
  have pr : ∀ e ∈ l1, e.Proper := fun e he => hp e (by simp [he])
  obtain ⟨a1, g1, k1, -, -⟩ := (Flows.start N).steps s1 pr
  change Flows N o1 (flow l1) a1 g1 at k1
  obtain ⟨a2, g2, k2, -, -, q1, q2⟩ := k1.step (fun e he => hp e (by simp_all)) s2
  have hg : (flow l1).received.length ≤ g1.length := by
    have := k1.given
    generalize o1.c = c at this
    cases this <;> simp
  have w0 : Putting N (flow l1).accepted (flow l1).received.length o2 ([Ev.call .producer (.put v)].foldl Flow.see (flow l1)) := by
    cases s2
    exact ⟨rfl, .inl ⟨_, rfl⟩⟩
  have w := Putting.steps k2 s4 (fun e he => hp e (by simp [he])) hn w0 (by have := q2.length_le; omega)
  cases s5 with
  | ret t r hi =>
    rcases w.result with ⟨c, hc⟩ | ⟨r', hr', h'⟩
    · rw [Obj.ts, hc] at hi; cases hi
    · rw [Obj.ts, hr'] at hi; cases hi
      rcases h' with h' | h'
      · exact h'
      · omega

theorem linear_get {l1 l2 l3 : List Ev} {eb : Base} {eo : Int} {r : SOut}
    (hl : Linearizable N (l1 ++ .call .consumer (.get eb eo) :: (l2 ++ .ret .consumer r :: l3)))
    (hp : ∀ e ∈ l1 ++ .call .consumer (.get eb eo) :: (l2 ++ .ret .consumer r :: l3), e.Proper) (hn : ∀ r', .ret .consumer r' ∉ l2)
    (room : (flow l1).received.length < (flow l1).accepted.length) : r.ret = .int 0 := by
  obtain ⟨o, ho⟩ := hl
  obtain ⟨o1, o2, s1, s2, s3⟩ := ho.split rfl
  obtain ⟨o3, o4, s4, s5, -⟩ := s3.split rfl
  have pr : ∀ e ∈ l1, e.Proper := fun e he => hp e (by simp [he])
  obtain ⟨a1, g1, k1, -, -⟩ := (Flows.start N).steps s1 pr
  change Flows N o1 (flow l1) a1 g1 at k1
  obtain ⟨a2, g2, k2, -, -, q1, q2⟩ := k1.step (fun e he => hp e (by simp_all)) s2
  have hg : (flow l1).accepted.length ≤ a1.length := by
    have := k1.taken
    generalize o1.p = c at this
    cases this <;> simp
  have w0 : Getting (flow l1).received (flow l1).accepted.length o2 ([Ev.call .consumer (.get eb eo)].foldl Flow.see (flow l1)) := by
    cases s2
    exact ⟨rfl, .inl ⟨_, rfl⟩⟩
  have w := Getting.steps k2 s4 (fun e he => hp e (by simp [he])) hn w0 (by have := q1.length_le; omega)
  cases s5 with
  | ret t r hi =>
    rcases w.result with ⟨c, hc⟩ | ⟨r', hr', h'⟩
    · rw [Obj.ts, hc] at hi; cases hi
    · rw [Obj.ts, hr'] at hi; cases hi
      rcases h' with h' | h'
      · exact h'
      · omega

/-- **C138, no needless refusal**: after `mu_spsc_init`, under every interleaving: a `mu_spsc_put` that is called when fewer than
`N - 1` items have been accepted and not received succeeds, and a `mu_spsc_get` that is called when an item has been accepted
and not received succeeds. -/
theorem C138_succeeds (A : Arch) (X : Ext) (Y : AExt) (n m : Nat) (q : Place) (h : Heap)
    (hb : q.b.isLit = false) (hsb : q.sb.isLit = false) (hN : q.N < 65536) (hpow : ∃ k, q.N = 2 ^ k) (htwo : 2 ≤ q.N)
    (hstruct : ∀ k : Nat, k < 4 → (h.at q.b (q.o + k)).isSome = true)
    (hstore : ∀ i : Nat, i < q.N → (h.at q.sb (q.so + i)).isSome = true)
    (hsep : ∀ i : Nat, i < q.N → ∀ k : Nat, k < 4 → ¬(q.b = q.sb ∧ q.o + k = q.so + i)) :
    ∃ h1, sem A X prog (n + 2) .mu_spsc_init h [.ptr q.b q.o, .ptr q.sb q.so, .int q.N] = .ok (.int 0, h1) ∧
      (∀ l1 v l2 r l3 s, Steps (semA A Y prog (m + 1)) q ⟨h1, none, none⟩ (l1 ++ .call .producer (.put v) :: (l2 ++ .ret .producer r :: l3)) s →
        (∀ r', .ret .producer r' ∉ l2) → (flow l1).accepted.length < (flow l1).received.length + (q.N - 1) → r.ret = .int 0) ∧
      (∀ l1 eb eo l2 r l3 s, Steps (semA A Y prog (m + 1)) q ⟨h1, none, none⟩ (l1 ++ .call .consumer (.get eb eo) :: (l2 ++ .ret .consumer r :: l3)) s →
        (∀ r', .ret .consumer r' ∉ l2) → (flow l1).received.length < (flow l1).accepted.length → r.ret = .int 0) := by
  obtain ⟨h1, e1, k⟩ := C132_linearizable A X Y n m q h hb hsb hN hpow htwo hstruct hstore hsep
  exact ⟨h1, e1, fun _ _ _ _ _ s hs hn room => linear_put (k _ s hs).1 hs.proper hn room,
    fun _ _ _ _ _ _ s hs hn room => linear_get (k _ s hs).1 hs.proper hn room⟩

/-! ## Frames -/

theorem Sends.accepted {w : List CVal} : ∀ {l : List Ev}, Sends w l → (∀ e ∈ l, e.Proper) →
    (flow l).accepted ++ (flow l).offered.toList <+: w := by
  suffices H : ∀ (l : List Ev), Sends w l → (∀ e ∈ l, e.Proper) →
      (flow l).accepted <+: w ∧ (flow l).accepted ++ (flow l).offered.toList <+: w from fun {_} hs hp => (H _ hs hp).2
  intro l
  induction h : l.length generalizing l with
  | zero =>
    obtain rfl := List.length_eq_zero_iff.mp h
    intro _ _
    simp [flow]
  | succ n ih =>
    intro hs hp
    obtain rfl | ⟨l, e, rfl⟩ := List.eq_nil_or_concat l
    · simp at h
    rw [List.concat_eq_append] at *
    have hs' : Sends w l := fun l1 v l2 hl => hs l1 v (l2 ++ [e]) (by rw [hl]; simp)
    obtain ⟨i1, i2⟩ := ih l (by simpa using h) hs' fun e he => hp e (by simp [he])
    rw [flow_append]
    cases e with
    | call t c =>
      cases t with
      | producer =>
        cases c with
        | put v => exact ⟨i1, by simpa [Flow.see] using hs l v [] rfl⟩
        | _ => exact absurd (hp _ (List.mem_append_right _ (List.mem_singleton.mpr rfl))) (by simp [Ev.Proper])
      | consumer =>
        cases c with
        | get eb eo => exact ⟨i1, i2⟩
        | _ => exact absurd (hp _ (List.mem_append_right _ (List.mem_singleton.mpr rfl))) (by simp [Ev.Proper])
    | ret t r =>
      cases t with
      | producer =>
        simp only [List.foldl_cons, List.foldl_nil, Flow.see]
        split <;> simp [i1, i2]
      | consumer => exact ⟨i1, i2⟩

theorem byteItem_inj {a b : List UInt8} (h : a.map byteItem = b.map byteItem) : a = b := by
  refine List.map_injective_iff.mpr ?_ h
  intro x y e
  simp only [byteItem, CVal.int.injEq] at e
  exact UInt8.toNat_inj.mp (by omega)

theorem Encoded.is_frame {p f : List UInt8} (e : Encoded p f) : f = frame p := by
  obtain ⟨A, X, n, h, h', bd, bs, od, os, d, hf, hw, hd, hp, ha, hI, hl, hn, he, hb⟩ := e
  obtain ⟨h2, e2, b2, -⟩ := C119_encode_source A X n h bd bs od os d p hf hw hd hp ha hI hl hn
  rw [e2] at he
  obtain ⟨h3, rfl⟩ := Prod.mk.inj (Except.ok.inj he)
  have h3 := CVal.int.inj h3
  by_cases hfit : (frame p).length ≤ d.length
  · rw [if_pos hfit] at h3
    have hlen : (Spec.frame p).length = f.length := by omega
    have b3 := (b2 hfit)
    apply List.ext_getElem? 
    intro i
    by_cases hi : i < f.length
    · have q1 := hb.2.2 i _ (List.getElem?_eq_getElem hi)
      have q2 := b3.2.2 i (Spec.frame p)[i] (by rw [List.getElem?_append_left (by omega)]; exact List.getElem?_eq_getElem (by omega))
      rw [q1] at q2
      simp only [Option.some.injEq, CVal.int.injEq] at q2
      rw [List.getElem?_eq_getElem hi, List.getElem?_eq_getElem (by omega)]
      exact congrArg some (UInt8.toNat_inj.mp (by omega))
    · rw [List.getElem?_eq_none (by omega), List.getElem?_eq_none (by omega)]
  · rw [if_neg hfit] at h3
    omega

theorem EncodedAll.frames {ps fs : List (List UInt8)} (e : EncodedAll ps fs) : fs = ps.map frame := by
  induction e with
  | nil => rfl
  | cons h _ ih => rw [h.is_frame, ih]; rfl

/-- What frames sent and received in order allow. -/
theorem frames_arrive {ps fs : List (List UInt8)} (hf : EncodedAll ps fs) {l : List Ev}
    (hpre : (flow l).received <+: fs.flatten.map byteItem) :
        ∃ rx : List UInt8, (flow l).received = rx.map byteItem ∧ rx <+: fs.flatten ∧
          ∀ before p f after, fs = before ++ f :: after → ps[before.length]? = some p → (before.flatten ++ f).length ≤ rx.length →
            ∀ (A : Arch) (X : Ext) (n : Nat) (h : Heap) (bd bs : Base) (od os : Int) (d : List UInt8),
              let inp := rx.drop before.flatten.length
              h.Fresh → bd.isLit = false → h.Bytes bd od d → h.Bytes bs os inp → Apart bd od d.length bs os inp.length →
              (d.length : Int) ≤ A.intMax → (inp.length : Int) ≤ A.intMax → inp.length + 2 ≤ n → p.length + 1 ≤ d.length →
              ∃ h', sem A X prog n .mu_bisync_decode h [.ptr bd od, .int d.length, .ptr bs os, .int inp.length] =
                  .ok (.int (p.length + 1 : Nat), h') ∧
                h'.Bytes bd od (1 :: p ++ d.drop (p.length + 1)) ∧ Heap.Only (span bd od d.length) h h' := by
  obtain ⟨t, ht⟩ := hpre
  obtain ⟨rx, ry, hsplit, hrx, -⟩ := List.map_eq_append_iff.mp ht.symm
  refine ⟨rx, hrx.symm, ⟨ry, hsplit.symm⟩, ?_⟩
  intro before p f after hfs hp hlen A X n h bd bs od os d inp hfr hw hd hi ha hI hl hn room
  have hfp : f = frame p := by
    have : fs[before.length]? = some f := by rw [hfs]; simp
    rw [hf.frames, List.getElem?_map, hp] at this
    exact (Option.some.inj this).symm
  obtain ⟨rest, hrest⟩ : before.flatten ++ f <+: rx := by
    refine List.prefix_of_prefix_length_le (l₃ := fs.flatten) ?_ ⟨ry, hsplit.symm⟩ hlen
    rw [hfs]; simp
  have e : inp = 1 :: (stuff p ++ 4 :: rest) := by
    show rx.drop before.flatten.length = _
    rw [← hrest, List.append_assoc, List.drop_left, hfp]
    simp [frame]
  clear_value inp
  subst e
  obtain ⟨v, h', r1, r2, r3, -, r5⟩ := C119_decode_source A X n h bd bs od os d (stuff p) p (4 :: rest) hfr hw hd hi ha hI hl hn
    (body_stuff p) (.inr (.inr ⟨_, rfl⟩))
  obtain rfl := (r5 room).1 (.inl ⟨_, rfl⟩)
  refine ⟨h', r1, ?_, r3⟩
  rw [List.take_of_length_le (by simpa using room)] at r2
  exact r2

/-- **C138, frames through the queue**: the frames `fs` that the parsed `mu_bisync_encode` made for the payloads `ps` are sent byte by
byte through the parsed mu_spsc, a byte again when the queue was full.  Under every interleaving, the bytes received so far are
the beginning of the stream; and once a frame has been received completely, the parsed `mu_bisync_decode` given the bytes
received from where the frame starts finds its payload. -/
theorem C138_link (A : Arch) (X : Ext) (Y : AExt) (n m : Nat) (q : Place) (h : Heap)
    (hb : q.b.isLit = false) (hsb : q.sb.isLit = false) (hN : q.N < 65536) (hpow : ∃ k, q.N = 2 ^ k) (htwo : 2 ≤ q.N)
    (hstruct : ∀ k : Nat, k < 4 → (h.at q.b (q.o + k)).isSome = true)
    (hstore : ∀ i : Nat, i < q.N → (h.at q.sb (q.so + i)).isSome = true)
    (hsep : ∀ i : Nat, i < q.N → ∀ k : Nat, k < 4 → ¬(q.b = q.sb ∧ q.o + k = q.so + i))
    (ps fs : List (List UInt8)) (hf : EncodedAll ps fs) :
    ∃ h1, sem A X prog (n + 2) .mu_spsc_init h [.ptr q.b q.o, .ptr q.sb q.so, .int q.N] = .ok (.int 0, h1) ∧
      ∀ l s, Steps (semA A Y prog (m + 1)) q ⟨h1, none, none⟩ l s → Sends (fs.flatten.map byteItem) l →
        ∃ rx : List UInt8, (flow l).received = rx.map byteItem ∧ rx <+: fs.flatten ∧
          ∀ before p f after, fs = before ++ f :: after → ps[before.length]? = some p → (before.flatten ++ f).length ≤ rx.length →
            ∀ (A : Arch) (X : Ext) (n : Nat) (h : Heap) (bd bs : Base) (od os : Int) (d : List UInt8),
              let inp := rx.drop before.flatten.length
              h.Fresh → bd.isLit = false → h.Bytes bd od d → h.Bytes bs os inp → Apart bd od d.length bs os inp.length →
              (d.length : Int) ≤ A.intMax → (inp.length : Int) ≤ A.intMax → inp.length + 2 ≤ n → p.length + 1 ≤ d.length →
              ∃ h', sem A X prog n .mu_bisync_decode h [.ptr bd od, .int d.length, .ptr bs os, .int inp.length] =
                  .ok (.int (p.length + 1 : Nat), h') ∧
                h'.Bytes bd od (1 :: p ++ d.drop (p.length + 1)) ∧ Heap.Only (span bd od d.length) h h' := by
  obtain ⟨h1, e1, k⟩ := C138_fifo A X Y n m q h hb hsb hN hpow htwo hstruct hstore hsep
  refine ⟨h1, e1, fun l s hs snd => ?_⟩
  have hpre := ((k l s hs).1).trans (snd.accepted hs.proper)
  exact frames_arrive hf hpre

/-! ## A concrete run -/

/-- Whether the rest `l` of a history that begins with `pre` is one of a producer that sends `w`. -/
def sendsB (w : List CVal) : List Ev → List Ev → Bool
  | _, [] => true
  | pre, e :: l => (match e with
    | .call .producer (.put v) => decide ((flow pre).accepted ++ [v] <+: w)
    | _ => true) && sendsB w (pre ++ [e]) l

theorem sends_of {w : List CVal} : ∀ {l pre : List Ev}, sendsB w pre l = true → ∀ l1 v l2, l = l1 ++ .call .producer (.put v) :: l2 →
    (flow (pre ++ l1)).accepted ++ [v] <+: w
  | [], _, _, _, _, _, h => by simp at h
  | e :: l, pre, hb, l1, v, l2, h => by
    simp only [sendsB, Bool.and_eq_true] at hb
    cases l1 with
    | nil =>
      obtain ⟨rfl, -⟩ := List.cons.inj h
      simpa using hb.1
    | cons x l1 =>
      obtain ⟨rfl, h'⟩ := List.cons.inj h
      have := sends_of hb.2 l1 v l2 h'
      simpa using this

/-- The frame of the payload 4 is sent through a queue of four slots, so that the fourth `mu_spsc_put` finds it full; then the
first is received, the last is sent while `mu_spsc_get` is under way, and all is received. -/
def flowMoves : List Move :=
  let put (c : Nat) (k : Nat) := Move.put (.int c) :: List.replicate k (.p true)
  let get := Move.get :: List.replicate 17 (.c true)
  put 1 15 ++ put 16 15 ++ put 4 15 ++ put 4 7 ++ get ++ [.get, .c true] ++ put 4 15 ++ List.replicate 16 (.c true) ++ get ++ get

/-- What the threads see of it. -/
def flowEvents : List Ev :=
  let put (c : Nat) (r : Int) := [Ev.call .producer (.put (.int c)), .ret .producer ⟨.int r, none⟩]
  let get (c : Nat) := [Ev.call .consumer (.get (.obj 2) 0), .ret .consumer ⟨.int 0, some (.int c)⟩]
  put 1 0 ++ put 16 0 ++ put 4 0 ++ put 4 2 ++ get 1 ++ [.call .consumer (.get (.obj 2) 0)] ++ put 4 0 ++
  [.ret .consumer ⟨.int 0, some (.int 16)⟩] ++ get 4 ++ get 4

set_option maxRecDepth 20000 in
example : ∃ h1 s, sem Arch.w16 ⟨concExt.fn, fun _ _ _ _ => .error .ptr⟩ prog 2 .mu_spsc_init sDemo [.ptr (.obj 0) 0, .ptr (.obj 1) 0, .int 4] =
      .ok (.int 0, h1) ∧
    Steps (semA Arch.w16 concExt prog 1) concPlace ⟨h1, none, none⟩ flowEvents s ∧
    Sends ([[1, 16, 4, 4]].flatten.map byteItem) flowEvents ∧ (flow flowEvents).received = [1, 16, 4, 4].map byteItem := by
  have hq : ¬ concPlace.cells (.obj 2) 0 := by simp [concPlace, Place.cells, spscCells]
  exact ⟨_, _, rfl, plays_steps hq flowMoves (.nil _) rfl, fun l1 v l2 h => sends_of (pre := []) (by decide) l1 v l2 h, rfl⟩

example : EncodedAll [[4]] [[1, 16, 4, 4]] := by
  have hb : bDemo.Bytes (.obj 0) 1 [4] := by
    refine ⟨by decide, by decide, ?_⟩
    intro i c hc
    match i, hc with
    | 0, hc => cases hc; rfl
  obtain ⟨h', e, b, -⟩ := C119_encode_source .lp64 ⟨concExt.fn, fun _ _ _ _ => .error .ptr⟩ 5 bDemo (.obj 1) (.obj 0) 0 1 (List.replicate 8 9) [4] bDemo_fresh rfl
    bDemo_bytes.2 hb (Or.inl (by simp)) (by decide) (by decide) (by decide)
  refine .cons ⟨.lp64, _, 5, bDemo, h', .obj 1, .obj 0, 0, 1, List.replicate 8 9, bDemo_fresh, rfl, bDemo_bytes.2, hb, Or.inl (by simp), by decide,
    by decide, by decide, e, ?_⟩ .nil
  have := b (by decide)
  exact ⟨this.1, by have := this.2.1; simp [frame, stuff, isControl] at this ⊢; omega, fun i c hc => this.2.2 i c (by
    match i, hc with
    | 0, hc => exact hc
    | 1, hc => exact hc
    | 2, hc => exact hc
    | 3, hc => exact hc)⟩

end Mu.CS.Conc
