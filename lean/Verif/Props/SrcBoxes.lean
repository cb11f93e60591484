import Verif.Lemmas.SrcBoxes

/-! # Property C142: many containers in one program, from the parsed source

`prog` are the syntax trees of the C source, `Ev.spec` (Spec/SrcBoxes.lean) is what a program sees in which
containers are lists and variables are values.  `N` is the fuel, enough for the largest container. -/

namespace Mu.CS

variable {A : Arch} {X : Ext} {ι : Type} [DecidableEq ι] {bs : ι → Box}

/-- Memory agrees with the lists and values. -/
structure BoxInv (A : Arch) (bs : ι → Box) (h0 : Heap) (s : Boxes ι) (h : Heap) : Prop where
  rep : ∀ i l, s.val i = some l → (bs i).Rep A h l
  apart : ∀ i j, i ≠ j → (s.val i).isSome = true → (s.val j).isSome = true →
    ∀ b o, ¬((bs i).cells b o ∧ (bs j).cells b o)
  mem : ∀ b o v, s.mem b o = some v → h.at b o = some v
  hidden : ∀ b o, s.owned bs b o → s.mem b o = none
  cells : ∀ b o, (h.at b o).isSome = true ↔ (h0.at b o).isSome = true

theorem Box.Ok.transfer {h h' : Heap} {x : Box} (q : x.Ok A h)
    (e : ∀ b o, (h'.at b o).isSome = true ↔ (h.at b o).isSome = true) : x.Ok A h' :=
  ⟨q.wr, q.swr, fun k hk => (e _ _).mpr (q.struct k hk), fun i hi => (e _ _).mpr (q.slots i hi), q.sep, q.limit⟩

theorem BoxInv.write {h0 h : Heap} {s : Boxes ι} (q : BoxInv A bs h0 s h) {b : Base} {o : Int} {v : CVal}
    (hw : b.isLit = false) (hs : (h.at b o).isSome = true) (hn : ¬ s.owned bs b o) :
    BoxInv A bs h0 (s.write b o v) (h.upd b o v) := by
  have o1 : Heap.Only (fun b' o' => b' = b ∧ o' = o) h (h.upd b o v) := (Heap.Only.refl _ _).upd ⟨rfl, rfl⟩
  refine ⟨fun i l hi => (q.rep i l hi).only o1 ?_, q.apart, ?_, ?_, fun b' o' => (o1.isSome b' o').trans (q.cells b' o')⟩
  · rintro b' o' hc ⟨rfl, rfl⟩
    exact hn ⟨i, by rw [show s.val i = some l from hi]; rfl, hc⟩
  · intro b' o' w hm
    simp only [Boxes.write] at hm
    by_cases e : b' = b ∧ o' = o
    · obtain ⟨rfl, rfl⟩ := e
      simp only [and_self, if_true, Option.some.injEq] at hm
      subst hm
      simp [csrc, hw, hs]
    · rw [if_neg e] at hm
      rw [o1.cell _ _ e]
      exact q.mem _ _ _ hm
  · intro b' o' ho
    simp only [Boxes.write]
    by_cases e : b' = b ∧ o' = o
    · obtain ⟨rfl, rfl⟩ := e
      exact (hn ho).elim
    · rw [if_neg e]; exact q.hidden _ _ ho

theorem box_event {N : Nat} (hN : ∀ i, (bs i).cap + 3 ≤ N) {h0 h : Heap} {s : Boxes ι} (q : BoxInv A bs h0 s h)
    (e : Ev bs) (hl : e.Legal A h0 s) :
    ∃ h', e.run (sem A X prog N) h = .ok ((e.spec A.szMod s).1, h') ∧ BoxInv A bs h0 (e.spec A.szMod s).2 h' := by
  cases e with
  | init i =>
    obtain ⟨ok, hd⟩ := hl
    obtain ⟨n, rfl⟩ : ∃ n, N = n + 3 := ⟨N - 3, by have := hN i; omega⟩
    obtain ⟨h', e1, r, o1⟩ := box_init (A := A) (X := X) n (ok.transfer q.cells)
    refine ⟨h', by simp only [Ev.run, e1, C.ok_bind]; rfl, ?_, ?_, ?_, ?_, ?_⟩
    · intro j l hj
      simp only [Ev.spec, Boxes.set] at hj
      by_cases hji : j = i
      · subst hji
        rw [if_pos rfl] at hj
        cases hj
        exact r
      · rw [if_neg hji] at hj
        refine (q.rep j l hj).only o1 fun b o hc hc' => hd j hji ?_ b o ⟨hc', hc⟩
        rw [show s.val j = some l from hj]; rfl
    · intro j k hjk hj hk b o ⟨c1, c2⟩
      simp only [Ev.spec, Boxes.set] at hj hk
      by_cases hji : j = i
      · subst hji
        rw [if_neg (fun hh => hjk hh.symm)] at hk
        exact hd k (fun hh => hjk hh.symm) hk b o ⟨c1, c2⟩
      · rw [if_neg hji] at hj
        by_cases hki : k = i
        · subst hki
          exact hd j hji hj b o ⟨c2, c1⟩
        · rw [if_neg hki] at hk
          exact q.apart j k hjk hj hk b o ⟨c1, c2⟩
    · intro b o v hm
      simp only [Ev.spec, Boxes.set, Boxes.forget] at hm
      by_cases hc : (bs i).cells b o
      · rw [if_pos hc] at hm; cases hm
      · rw [if_neg hc] at hm
        rw [o1.cell _ _ hc]
        exact q.mem _ _ _ hm
    · rintro b o ⟨j, hj, hc⟩
      simp only [Ev.spec, Boxes.set, Boxes.forget] at hj ⊢
      by_cases hc' : (bs i).cells b o
      · rw [if_pos hc']
      · rw [if_neg hc']
        by_cases hji : j = i
        · subst hji; exact (hc' hc).elim
        · rw [if_neg hji] at hj
          exact q.hidden _ _ ⟨j, hj, hc⟩
    · exact fun b o => (o1.isSome b o).trans (q.cells b o)
  | call i c =>
    obtain ⟨hlive, ha, ht⟩ := hl
    obtain ⟨l, hl⟩ := Option.isSome_iff_exists.mp hlive
    obtain ⟨h', e1, r, o1, hel⟩ := box_call (A := A) (X := X) (hN i) (q.rep i l hl) c ha
      (fun b o hx => ⟨(ht b o hx).1, (q.cells b o).mpr (ht b o hx).2.1,
        fun hc => (ht b o hx).2.2 ⟨i, hlive, hc⟩⟩)
    refine ⟨h', by simp only [Ev.run, e1, C.ok_bind, Ev.spec, hl]; rfl, ?_⟩
    simp only [Ev.spec, hl, Option.getD_some]
    generalize (bs i).kind.spec (bs i).b (bs i).o A.szMod (bs i).cap l c = y at r hel
    obtain ⟨⟨ret, elem⟩, l'⟩ := y
    simp only at r hel ⊢
    -- everything but the variable
    have hown : ∀ b o, (s.set i (some l')).owned bs b o ↔ s.owned bs b o := by
      intro b o
      constructor
      · rintro ⟨j, hj, hc⟩
        by_cases hji : j = i
        · subst hji; exact ⟨j, hlive, hc⟩
        · simp only [Boxes.set, if_neg hji] at hj
          exact ⟨j, hj, hc⟩
      · rintro ⟨j, hj, hc⟩
        refine ⟨j, ?_, hc⟩
        simp only [Boxes.set]
        by_cases hji : j = i
        · rw [if_pos hji]; rfl
        · rw [if_neg hji]; exact hj
    have hrep : ∀ j l2, (s.set i (some l')).val j = some l2 → (bs j).Rep A h' l2 := by
      intro j l2 hj
      simp only [Boxes.set] at hj
      by_cases hji : j = i
      · subst hji
        rw [if_pos rfl] at hj
        cases hj
        exact r
      · rw [if_neg hji] at hj
        have hjl : (s.val j).isSome = true := by rw [hj]; rfl
        refine (q.rep j l2 hj).only o1 fun b o hc hx => ?_
        rcases hx with hx | hx
        · exact q.apart i j (fun hh => hji hh.symm) hlive hjl b o ⟨hx, hc⟩
        · exact (ht b o hx).2.2 ⟨j, hjl, hc⟩
    have hapart : ∀ j k, j ≠ k → ((s.set i (some l')).val j).isSome = true →
        ((s.set i (some l')).val k).isSome = true → ∀ b o, ¬((bs j).cells b o ∧ (bs k).cells b o) := by
      have live : ∀ j, ((s.set i (some l')).val j).isSome = true → (s.val j).isSome = true := by
        intro j hj
        by_cases hji : j = i
        · subst hji; exact hlive
        · simpa only [Boxes.set, if_neg hji] using hj
      exact fun j k hjk hj hk => q.apart j k hjk (live j hj) (live k hk)
    have hcells : ∀ b o, (h'.at b o).isSome = true ↔ (h0.at b o).isSome = true :=
      fun b o => (o1.isSome b o).trans (q.cells b o)
    -- cells known before, other than the variable
    have hmem : ∀ b o v, s.mem b o = some v → (bs i).kind.target c ≠ some (b, o) → h'.at b o = some v := by
      intro b o v hm hne
      rw [o1.cell b o]
      · exact q.mem _ _ _ hm
      · rintro (hc | hc)
        · have := q.hidden b o ⟨i, hlive, hc⟩
          rw [this] at hm; cases hm
        · exact hne hc
    cases htc : (bs i).kind.target c with
    | none =>
      exact ⟨hrep, hapart, fun b o v hm => hmem b o v hm (by rw [htc]; exact nofun),
        fun b o ho => q.hidden b o ((hown b o).mp ho), hcells⟩
    | some p =>
      obtain ⟨eb, eo⟩ := p
      obtain ⟨t1, t2, t3⟩ := ht eb eo htc
      have hv := hel eb eo htc
      cases elem with
      | none =>
        refine ⟨hrep, hapart, fun b o v hm => ?_, fun b o ho => q.hidden b o ((hown b o).mp ho), hcells⟩
        by_cases hbo : (bs i).kind.target c = some (b, o)
        · rw [htc] at hbo
          cases hbo
          rw [hv]
          exact q.mem _ _ _ hm
        · exact hmem b o v hm hbo
      | some w =>
        refine ⟨hrep, hapart, fun b o v hm => ?_, fun b o ho => ?_, hcells⟩
        · simp only [Boxes.write, Boxes.set] at hm
          by_cases hbo : b = eb ∧ o = eo
          · obtain ⟨rfl, rfl⟩ := hbo
            simp only [and_self, if_true] at hm
            rw [hv]; exact hm
          · rw [if_neg hbo] at hm
            refine hmem b o v hm ?_
            rw [htc]
            intro hx
            cases hx
            exact hbo ⟨rfl, rfl⟩
        · have ho' := (hown b o).mp ho
          simp only [Boxes.write, Boxes.set]
          by_cases hbo : b = eb ∧ o = eo
          · obtain ⟨rfl, rfl⟩ := hbo
            exact (t3 ho').elim
          · rw [if_neg hbo]
            exact q.hidden _ _ ho'
  | drop i =>
    refine ⟨h, rfl, ?_, ?_, q.mem, ?_, q.cells⟩
    · intro j l hj
      simp only [Ev.spec, Boxes.set] at hj
      by_cases hji : j = i
      · rw [if_pos hji] at hj; cases hj
      · rw [if_neg hji] at hj; exact q.rep j l hj
    · have live : ∀ j, (((Ev.drop i : Ev bs).spec A.szMod s).2.val j).isSome = true → (s.val j).isSome = true := by
        intro j hj
        simp only [Ev.spec, Boxes.set] at hj
        by_cases hji : j = i
        · rw [if_pos hji] at hj; cases hj
        · rwa [if_neg hji] at hj
      exact fun j k hjk hj hk => q.apart j k hjk (live j hj) (live k hk)
    · rintro b o ⟨j, hj, hc⟩
      refine q.hidden b o ⟨j, ?_, hc⟩
      simp only [Ev.spec, Boxes.set] at hj
      by_cases hji : j = i
      · rw [if_pos hji] at hj; cases hj
      · rwa [if_neg hji] at hj
  | write b o v =>
    obtain ⟨t1, t2, t3⟩ := hl
    exact ⟨_, rfl, q.write t1 ((q.cells b o).mpr t2) t3⟩

theorem box_events {N : Nat} (hN : ∀ i, (bs i).cap + 3 ≤ N) {h0 : Heap} : ∀ (es : List (Ev bs)) {h : Heap} {s : Boxes ι},
    BoxInv A bs h0 s h → Ev.LegalAll A h0 s es →
    ∃ h', Ev.runAll (sem A X prog N) h es = .ok ((Ev.specAll A.szMod s es).1, h') ∧
      BoxInv A bs h0 (Ev.specAll A.szMod s es).2 h'
  | [], h, s, q, _ => ⟨h, rfl, q⟩
  | e :: es, h, s, q, hl => by
    obtain ⟨h1, e1, q1⟩ := box_event (X := X) hN q e hl.1
    obtain ⟨h2, e2, q2⟩ := box_events hN es q1 hl.2
    refine ⟨h2, ?_, q2⟩
    simp only [Ev.runAll, e1, C.ok_bind, e2]
    rfl

/-- **C142.**  Any number of queues, message queues (without tasks), single-producer queues and arrays, anywhere in
memory, the program's own variables between them; any history of initialisations, calls, writes of the program to its
own memory, and of containers given up so that their memory can serve something else.  If containers in use never
overlap, everything the calls of the source return and deliver is what lists and values give, nothing faults, and
at the end every cell outside the containers in use holds the value last written or delivered to it, or
its value at the start. -/
theorem C142_containers {N : Nat} (hN : ∀ i, (bs i).cap + 3 ≤ N) (h : Heap) (es : List (Ev bs))
    (hl : Ev.LegalAll A h (.start h) es) :
    ∃ h', Ev.runAll (sem A X prog N) h es = .ok ((Ev.specAll A.szMod (.start h) es).1, h') ∧
      ∀ b o v, (Ev.specAll A.szMod (.start h) es).2.mem b o = some v → h'.at b o = some v := by
  have q : BoxInv A bs h (.start h) h :=
    ⟨fun _ _ hi => (by cases hi), fun _ _ _ hi => (by cases hi), fun _ _ _ hm => hm,
      fun _ _ ⟨_, hi, _⟩ => (by cases hi), fun _ _ => Iff.rfl⟩
  obtain ⟨h', e, q'⟩ := box_events (X := X) hN es q hl
  exact ⟨h', e, q'.mem⟩

theorem specAll_append (M : Nat) : ∀ (es1 es2 : List (Ev bs)) (s : Boxes ι),
    (Ev.specAll M s (es1 ++ es2)).1 = (Ev.specAll M s es1).1 ++ (Ev.specAll M (Ev.specAll M s es1).2 es2).1
  | [], _, _ => rfl
  | e :: es1, es2, s => by
    simp only [List.cons_append, Ev.specAll, specAll_append M es1 es2]

theorem specAll_length (M : Nat) : ∀ (es : List (Ev bs)) (s : Boxes ι), (Ev.specAll M s es).1.length = es.length
  | [], _ => rfl
  | e :: es, s => by simp only [Ev.specAll, List.length_cons, specAll_length M es]

theorem answers_spec (M : Nat) (i : ι) : ∀ (es : List (Ev bs)) (s : Boxes ι) (l : List CVal), s.val i = some l →
    (∀ e ∈ es, e.keeps i) →
    Ev.answersOn i es (Ev.specAll M s es).1 =
      ((bs i).kind.specAll (bs i).b (bs i).o M (bs i).cap l (Ev.callsOn i es)).1
  | [], _, _, _, _ => rfl
  | e :: es, s, l, hi, hk => by
    have hk0 := hk e (by simp)
    have hk1 : ∀ e ∈ es, e.keeps i := fun e he => hk e (by simp [he])
    cases e with
    | init j =>
      have hj : j ≠ i := hk0
      simp only [Ev.specAll, Ev.spec, Ev.answersOn, Ev.callsOn]
      refine answers_spec M i es _ l ?_ hk1
      simp only [Boxes.set, Boxes.forget, if_neg (fun hh => hj hh.symm : ¬ i = j)]
      exact hi
    | drop j =>
      have hj : j ≠ i := hk0
      simp only [Ev.specAll, Ev.spec, Ev.answersOn, Ev.callsOn]
      refine answers_spec M i es _ l ?_ hk1
      simp only [Boxes.set, if_neg (fun hh => hj hh.symm : ¬ i = j)]
      exact hi
    | write b o v =>
      simp only [Ev.specAll, Ev.spec, Ev.answersOn, Ev.callsOn]
      exact answers_spec M i es _ l hi hk1
    | call j c =>
      have hval : ∀ x, ((Ev.spec M s (.call j c)).2.val x) =
          if x = j then some ((bs j).kind.spec (bs j).b (bs j).o M (bs j).cap ((s.val j).getD []) c).2 else s.val x := by
        intro x
        simp only [Ev.spec]
        split <;> rfl
      by_cases hj : j = i
      · subst hj
        have h1 := answers_spec M j es (Ev.spec M s (.call j c)).2 _ (by rw [hval, if_pos rfl]) hk1
        rw [hi, Option.getD_some] at h1
        simp only [Ev.specAll, Ev.callsOn, dif_pos, BoxKind.specAll, ← h1]
        have : (Ev.spec M s (.call j c)).1 =
            some ((bs j).kind.spec (bs j).b (bs j).o M (bs j).cap l c).1 := by simp only [Ev.spec, hi, Option.getD_some]
        rw [this]
        simp [Ev.answersOn]
      · have h1 := answers_spec M i es (Ev.spec M s (.call j c)).2 l
          (by rw [hval, if_neg (fun hh => hj hh.symm : ¬ i = j)]; exact hi) hk1
        simp only [Ev.specAll, Ev.callsOn, dif_neg hj, ← h1]
        have : (Ev.spec M s (.call j c)).1 =
            some ((bs j).kind.spec (bs j).b (bs j).o M (bs j).cap ((s.val j).getD []) c).1 := by simp only [Ev.spec]
        rw [this]
        simp [Ev.answersOn, hj]

/-- **C142, each container by itself.**  From its initialisation to the next one, a container answers its calls
as if it were alone: as a list that starts empty and sees its own calls only, whatever else happens in between. -/
theorem C142_each_alone {N : Nat} (hN : ∀ i, (bs i).cap + 3 ≤ N) (h : Heap) (es1 es2 : List (Ev bs)) (i : ι)
    (hl : Ev.LegalAll A h (.start h) (es1 ++ .init i :: es2)) (hk : ∀ e ∈ es2, e.keeps i) :
    ∃ outs h', Ev.runAll (sem A X prog N) h (es1 ++ .init i :: es2) = .ok (outs, h') ∧
      Ev.answersOn i es2 (outs.drop (es1.length + 1)) =
        ((bs i).kind.specAll (bs i).b (bs i).o A.szMod (bs i).cap [] (Ev.callsOn i es2)).1 := by
  obtain ⟨h', e, -⟩ := C142_containers (X := X) hN h _ hl
  refine ⟨_, h', e, ?_⟩
  rw [specAll_append, List.drop_append, specAll_length]
  rw [List.drop_of_length_le (by rw [specAll_length]; omega), Nat.add_sub_cancel_left, List.nil_append]
  simp only [Ev.specAll, List.drop_succ_cons, List.drop_zero]
  exact answers_spec A.szMod i es2 _ [] (by simp only [Ev.spec, Boxes.set, if_true]) hk

/-- Non-vacuity: a queue in objects 0 (struct) and 1 (slots), an array in objects 2 and 3, a message queue in objects 4
and 1, whose slots are those of the queue, and a variable in object 5. -/
def boxDemo : Fin 3 → Box
  | 0 => ⟨.queue, .obj 0, 0, .obj 1, 0, 2⟩
  | 1 => ⟨.array, .obj 2, 0, .obj 3, 0, 2⟩
  | 2 => ⟨.mqueue, .obj 4, 0, .obj 1, 0, 2⟩

/-- The memory of the example. -/
def boxHeap : Heap where
  mem
    | .obj 0 => List.replicate 4 .undef
    | .obj 1 => List.replicate 2 .undef
    | .obj 2 => List.replicate 3 .undef
    | .obj 3 => List.replicate 2 .undef
    | .obj 4 => List.replicate 6 .undef
    | .obj 5 => [.int 77]
    | _ => []
  next := 6

/-- The queue is given up before the message queue takes over its slots. -/
def boxEvents : List (Ev boxDemo) :=
  [.init 0, .call 0 (.put (.int 5)), .init 1, .call 1 (.push (.int 6)), .call 0 (.get (.obj 5) 0),
   .drop 0, .write (.obj 0) 0 (.int 1), .init 2, .call 2 (.put (.int 8)), .call 1 (.pop (.obj 5) 0),
   .call 2 (.get (.obj 5) 0)]

theorem boxDemo_ok (i : Fin 3) : (boxDemo i).Ok .lp64 boxHeap := by
  have h64 : Arch.lp64.szMod = 2 ^ 64 := rfl
  have hi64 : Arch.lp64.intMax = 2 ^ 31 - 1 := by decide
  match i with
  | 0 =>
    refine ⟨rfl, rfl, ?_, ?_, ?_, ?_⟩
    · intro k hk
      match k, hk with
      | 0, _ | 1, _ | 2, _ | 3, _ => rfl
    · intro k hk
      match k, hk with
      | 0, _ | 1, _ => rfl
    · rintro i hi k hk ⟨e, -⟩; cases e
    · show 2 * 2 ≤ Arch.lp64.szMod
      rw [h64]; decide
  | 1 =>
    refine ⟨rfl, rfl, ?_, ?_, ?_, ?_⟩
    · intro k hk
      match k, hk with
      | 0, _ | 1, _ | 2, _ => rfl
    · intro k hk
      match k, hk with
      | 0, _ | 1, _ => rfl
    · rintro i hi k hk ⟨e, -⟩; cases e
    · show ((2 : Nat) : Int) ≤ Arch.lp64.intMax
      rw [hi64]; decide
  | 2 =>
    refine ⟨rfl, rfl, ?_, ?_, ?_, ?_⟩
    · intro k hk
      match k, hk with
      | 0, _ | 1, _ | 2, _ | 3, _ | 4, _ | 5, _ => rfl
    · intro k hk
      match k, hk with
      | 0, _ | 1, _ => rfl
    · rintro i hi k hk ⟨e, -⟩; cases e
    · show 2 * 2 ≤ Arch.lp64.szMod
      rw [h64]; decide

theorem boxDemo_free (s : Boxes (Fin 3)) : ¬ s.owned boxDemo (.obj 5) 0 := by
  rintro ⟨j, -, hc⟩
  match j, hc with
  | 0, hc | 1, hc | 2, hc => rcases hc with ⟨e, -⟩ | ⟨e, -⟩ <;> cases e

theorem boxDemo_apart (i j : Fin 3) (h : (i = 1 ∧ j ≠ 1) ∨ (j = 1 ∧ i ≠ 1)) (b : Base) (o : Int) :
    ¬((boxDemo i).cells b o ∧ (boxDemo j).cells b o) := by
  rintro ⟨h1, h2⟩
  match i, j, h, h1, h2 with
  | 0, 1, _, h1, h2 | 2, 1, _, h1, h2 | 1, 0, _, h1, h2 | 1, 2, _, h1, h2 =>
    rcases h1 with ⟨e1, -⟩ | ⟨e1, -⟩ <;> rcases h2 with ⟨e2, -⟩ | ⟨e2, -⟩ <;> rw [e1] at e2 <;> cases e2
  | 0, 0, h, _, _ | 0, 2, h, _, _ | 2, 0, h, _, _ | 2, 2, h, _, _ | 1, 1, h, _, _ => simp at h

theorem boxDemo_legal : Ev.LegalAll .lp64 boxHeap (.start boxHeap) boxEvents := by
  refine ⟨⟨boxDemo_ok 0, fun j _ hj => by cases hj⟩, ⟨rfl, nofun, nofun⟩, ⟨boxDemo_ok 1, fun j hj _ => ?_⟩,
    ⟨rfl, nofun, nofun⟩, ⟨rfl, trivial, ?_⟩, trivial, ⟨rfl, rfl, ?_⟩, ⟨boxDemo_ok 2, fun j hj hl => ?_⟩,
    ⟨rfl, nofun, nofun⟩, ⟨rfl, trivial, ?_⟩, ⟨rfl, trivial, ?_⟩, trivial⟩
  · exact boxDemo_apart 1 j (.inl ⟨rfl, hj⟩)
  · rintro b o e; cases e; exact ⟨rfl, rfl, boxDemo_free _⟩
  · rintro ⟨j, hj, hc⟩
    match j, hj, hc with
    | 0, hj, _ => cases hj
    | 1, _, hc => rcases hc with ⟨e, -⟩ | ⟨e, -⟩ <;> cases e
    | 2, hj, _ => cases hj
  · match j, hj, hl with
    | 0, _, hl => cases hl
    | 1, _, _ => exact boxDemo_apart 2 1 (.inr ⟨rfl, by decide⟩)
    | 2, hj, _ => exact (hj rfl).elim
  · rintro b o e; cases e; exact ⟨rfl, rfl, boxDemo_free _⟩
  · rintro b o e; cases e; exact ⟨rfl, rfl, boxDemo_free _⟩

/-- What the calls of the example return and deliver. -/
example : (Ev.specAll Arch.lp64.szMod (.start boxHeap) boxEvents).1 =
    [some ⟨.ptr (.obj 0) 0, none⟩, some ⟨.int 1, none⟩, some ⟨.ptr (.obj 2) 0, none⟩, some ⟨.int 1, none⟩,
     some ⟨.int 1, some (.int 5)⟩, none, none, some ⟨.ptr (.obj 4) 0, none⟩, some ⟨.int 1, none⟩,
     some ⟨.int 1, some (.int 6)⟩, some ⟨.int 1, some (.int 8)⟩] := rfl

/-- What is in the variable at the end. -/
example (X : Ext) : ∃ h', Ev.runAll (sem .lp64 X prog 5) boxHeap boxEvents =
    .ok ((Ev.specAll Arch.lp64.szMod (.start boxHeap) boxEvents).1, h') ∧ h'.at (.obj 5) 0 = some (.int 8) := by
  obtain ⟨h', e, hm⟩ := C142_containers (A := .lp64) (X := X) (N := 5)
    (fun i => match i with | 0 | 1 | 2 => by decide) boxHeap boxEvents boxDemo_legal
  exact ⟨h', e, hm (.obj 5) 0 (.int 8) rfl⟩

end Mu.CS
