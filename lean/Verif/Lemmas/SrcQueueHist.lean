import Verif.Lemmas.SrcQueue
import Verif.Spec.SrcQueue

/-! # Histories of calls of the parsed mu_queue.c -/

namespace Mu.CS

variable {A : Arch} {X : Ext}

theorem QCall.Legal.only {own S : Base → Int → Prop} {h h' : Heap} (e : Heap.Only S h h')
    {c : QCall} (hl : c.Legal own h) : c.Legal own h' := by
  cases c <;> simp only [QCall.Legal] at hl ⊢
  · exact hl
  · exact ⟨hl.1, (e.isSome _ _).mpr hl.2.1, hl.2.2⟩
  · exact ⟨hl.1, (e.isSome _ _).mpr hl.2.1, hl.2.2⟩

/-- `mu_queue_init` makes an empty queue of whatever is in the struct. -/
theorem src_queue_init {h : Heap} {b o sb so} (n cap : Nat) (hb : b.isLit = false)
    (hsb : sb.isLit = false) (hq : ∀ k : Nat, k < 4 → (h.at b (o + k)).isSome = true)
    (hst : ∀ i : Nat, i < cap → (h.at sb (so + i)).isSome = true)
    (hsep : ∀ i : Nat, i < cap → ∀ k : Nat, k < 4 → ¬(b = sb ∧ o + k = so + i))
    (hc : cap < A.szMod) :
    ∃ h' m', sem A X prog (n + 2) .mu_queue_init h [.ptr b o, .ptr sb so, .int cap] =
        .ok (.ptr b o, h') ∧ QRep A h' b o sb so m' ∧ Queue.Rep m' [] ∧ m'.capacity = cap ∧
      m'.storage.length = cap ∧ Heap.Only (fun b' o' => b' = b ∧ o ≤ o' ∧ o' < o + 4) h h' ∧
      m' = ⟨(List.range cap).map (fun i : Nat => enc ((h.at sb (so + i)).getD .null)), cap, 0, 0⟩ := by
  have h0 : (h.at b o).isSome = true := by simpa using hq 0 (by omega)
  have h1 : (h.at b (o + 1)).isSome = true := hq 1 (by omega)
  have h2 : (h.at b (o + 2)).isSome = true := hq 2 (by omega)
  have h3 : (h.at b (o + 3)).isSome = true := hq 3 (by omega)
  refine ⟨(((h.upd b o (.ptr sb so)).upd b (o + 1) (.int cap)).upd b (o + 2) (.int 0)).upd b (o + 3)
    (.int 0), ⟨(List.range cap).map (fun i : Nat => enc ((h.at sb (so + i)).getD .null)), cap, 0, 0⟩,
    ?_, ?_, Ring.init _ _ (by simp), rfl, by simp, ?_, rfl⟩
  · have e : sem A X prog (n + 1) .mu_queue_reset ((h.upd b o (.ptr sb so)).upd b (o + 1) (.int cap))
        [.ptr b o] = .ok (.ptr b o, (((h.upd b o (.ptr sb so)).upd b (o + 1) (.int cap)).upd b (o + 2)
          (.int 0)).upd b (o + 3) (.int 0)) := by
      rw [sem_succ (d := Src.mu_queue_reset) rfl, FunDef.run_regs rfl rfl]
      simp [csrc, Src.mu_queue_reset, h2, h3, hb]
    rw [sem_succ (d := Src.mu_queue_init) rfl, FunDef.run_regs rfl rfl]
    simp [csrc, Src.mu_queue_init, h0, h1, hb, e]
  · refine ⟨hb, hsb, ?_, ?_, ?_, ?_, ?_, ?_, hc, A.szMod_pos, A.szMod_pos⟩
    · simp [csrc, h0, hb]
    · simp [csrc, h1, hb]
    · simp [csrc, h2, hb]
    · simp [csrc, h3, hb]
    · intro i v hv
      simp only [List.getElem?_map] at hv
      have hi : i < cap := by
        by_contra hi
        rw [List.getElem?_eq_none (by simp; omega)] at hv
        cases hv
      rw [List.getElem?_range hi] at hv
      obtain rfl := Option.some.inj hv
      have s0 : ¬(b = sb ∧ o = so + i) := by simpa using hsep i hi 0 (by omega)
      have s1 : ¬(b = sb ∧ o + 1 = so + i) := hsep i hi 1 (by omega)
      have s2 : ¬(b = sb ∧ o + 2 = so + i) := hsep i hi 2 (by omega)
      have s3 : ¬(b = sb ∧ o + 3 = so + i) := hsep i hi 3 (by omega)
      rw [Heap.at_upd_sep s3, Heap.at_upd_sep s2, Heap.at_upd_sep s1, Heap.at_upd_sep s0, code_enc]
      obtain ⟨w, hw⟩ := Option.isSome_iff_exists.mp (hst i hi)
      rw [hw]; rfl
    · intro i hi k hk
      exact hsep i (by simpa using hi) k hk
  · exact ((((Heap.Only.refl _ _).upd ⟨rfl, by omega, by omega⟩).upd ⟨rfl, by omega, by omega⟩).upd
      ⟨rfl, by omega, by omega⟩).upd ⟨rfl, by omega, by omega⟩

/-- One call. -/
theorem src_queue_call {h : Heap} {b o sb so m} {l : List Nat} (n : Nat)
    (q : QRep A h b o sb so m) (hr : Queue.Rep m l) (hlen : m.storage.length = m.capacity)
    (hs : 2 * m.capacity ≤ A.szMod) (hu : ∀ x ∈ l, code x ≠ .undef) (c : QCall)
    (hl : c.Legal (queueCells b o sb so m.capacity) h) :
    ∃ h' m' l', QCall.run (sem A X prog (n + 3)) b o h c =
        .ok ((QCall.spec b o m.capacity (l.map code) c).1, h') ∧
      QRep A h' b o sb so m' ∧ Queue.Rep m' l' ∧
      l'.map code = (QCall.spec b o m.capacity (l.map code) c).2 ∧ m'.capacity = m.capacity ∧
      m'.storage.length = m.capacity ∧ (∀ x ∈ l', code x ≠ .undef) ∧
      Heap.Only (fun b' o' => queueCells b o sb so m.capacity b' o' ∨ c.writes b' o') h h' := by
  have hcells : ∀ b' o', QCells b o sb so m.storage.length b' o' →
      queueCells b o sb so m.capacity b' o' := by
    intro b' o' hc; rw [hlen] at hc; exact hc
  have hcells' : ∀ b' o', ¬ queueCells b o sb so m.capacity b' o' →
      ¬ QCells b o sb so m.storage.length b' o' := fun b' o' hn hc => hn (hcells b' o' hc)
  cases c with
  | put v =>
    by_cases hf : l.length < m.capacity
    · obtain ⟨m', p1, p2, p3, p4, -⟩ := Queue.put_ok (P := A.toPlat) hr (enc v) hs hf
      obtain ⟨h', e1, e2, e3⟩ := src_queue_put (X := X) (n + 1) q
        (by simpa [QCall.Legal] using hl) p1
      refine ⟨h', m', l ++ [enc v], ?_, e2, p2, ?_, p3, by omega, ?_, ?_⟩
      · rw [code_enc] at e1
        simp [QCall.run, e1, QCall.spec, hf, CVal.ofBool]
      · simp [QCall.spec, hf]
      · intro x hx
        rcases List.mem_append.mp hx with hx | hx
        · exact hu x hx
        · obtain rfl := List.mem_singleton.mp hx
          simpa [QCall.Legal] using hl
      · exact e3.mono (fun b' o' hc => Or.inl (hcells b' o' hc))
    · obtain ⟨h', e1, e2, e3⟩ := src_queue_put (X := X) (n + 1) q (x := enc v)
        (by simpa [QCall.Legal] using hl) (Queue.put_full (P := A.toPlat) hr (enc v) hf)
      refine ⟨h', m, l, ?_, e2, hr, ?_, rfl, hlen, hu, ?_⟩
      · rw [code_enc] at e1
        simp [QCall.run, e1, QCall.spec, hf, CVal.ofBool]
      · simp [QCall.spec, hf]
      · exact e3.mono (fun b' o' hc => Or.inl (hcells b' o' hc))
  | get eb eo =>
    obtain ⟨l1, l2, l3⟩ := hl
    cases l with
    | nil =>
      obtain ⟨h', e1, e2, e3, e4⟩ := src_queue_get (X := X) n q l1 l2 (hcells' _ _ l3)
        (Queue.access_nil (P := A.toPlat) hr true) (by simp [NULL])
      refine ⟨h', m, [], ?_, e2, hr, ?_, rfl, hlen, hu, ?_⟩
      · simp [QCall.run, e1, e3, QCall.spec, CVal.ofBool, NULL]
      · simp [QCall.spec]
      · exact e4.mono (fun b' o' hc => hc.elim (fun hc => Or.inl (hcells b' o' hc)) Or.inr)
    | cons x t =>
      obtain ⟨h', e1, e2, e3, e4⟩ := src_queue_get (X := X) n q l1 l2 (hcells' _ _ l3)
        (Queue.access_cons (P := A.toPlat) hr hs true) (hu x (by simp))
      refine ⟨h', _, t, ?_, e2, Queue.rep_pop hr, ?_, rfl, hlen,
        fun y hy => hu y (List.mem_cons_of_mem _ hy), ?_⟩
      · simp [QCall.run, e1, e3, QCall.spec, CVal.ofBool]
      · simp [QCall.spec]
      · exact e4.mono (fun b' o' hc => hc.elim (fun hc => Or.inl (hcells b' o' hc)) Or.inr)
  | peek eb eo =>
    obtain ⟨l1, l2, l3⟩ := hl
    cases l with
    | nil =>
      obtain ⟨h', e1, e2, e3, e4⟩ := src_queue_peek (X := X) n q l1 l2 (hcells' _ _ l3)
        (Queue.access_nil (P := A.toPlat) hr false) (by simp [NULL])
      refine ⟨h', m, [], ?_, e2, hr, ?_, rfl, hlen, hu, ?_⟩
      · simp [QCall.run, e1, e3, QCall.spec, CVal.ofBool, NULL]
      · simp [QCall.spec]
      · exact e4.mono (fun b' o' hc => hc.elim (fun hc => Or.inl (hcells b' o' hc)) Or.inr)
    | cons x t =>
      obtain ⟨h', e1, e2, e3, e4⟩ := src_queue_peek (X := X) n q l1 l2 (hcells' _ _ l3)
        (Queue.access_cons (P := A.toPlat) hr hs false) (hu x (by simp))
      refine ⟨h', m, x :: t, ?_, e2, hr, ?_, rfl, hlen, hu, ?_⟩
      · simp [QCall.run, e1, e3, QCall.spec, CVal.ofBool]
      · simp [QCall.spec]
      · exact e4.mono (fun b' o' hc => hc.elim (fun hc => Or.inl (hcells b' o' hc)) Or.inr)
  | reset =>
    obtain ⟨h', e1, e2, e3⟩ := src_queue_reset (X := X) (n + 2) q
    refine ⟨h', _, [], ?_, e2, Ring.reset hr, ?_, rfl, hlen, by simp, ?_⟩
    · simp [QCall.run, e1, QCall.spec]
    · simp [QCall.spec]
    · exact e3.mono (fun b' o' hc => Or.inl (hcells b' o' hc))
  | count =>
    refine ⟨h, m, l, ?_, q, hr, by simp [QCall.spec], rfl, hlen, hu, Heap.Only.refl _ _⟩
    simp [QCall.run, src_queue_count (X := X) (n + 2) q, QCall.spec, Queue.count, hr.len]
  | capacity =>
    refine ⟨h, m, l, ?_, q, hr, by simp [QCall.spec], rfl, hlen, hu, Heap.Only.refl _ _⟩
    simp [QCall.run, src_queue_capacity (X := X) (n + 2) q, QCall.spec, Queue.capacity]
  | isEmpty =>
    refine ⟨h, m, l, ?_, q, hr, by simp [QCall.spec], rfl, hlen, hu, Heap.Only.refl _ _⟩
    simp [QCall.run, src_queue_is_empty (X := X) (n + 2) q, QCall.spec, Queue.isEmpty, ← hr.len,
      CVal.ofBool]
  | isFull =>
    refine ⟨h, m, l, ?_, q, hr, by simp [QCall.spec], rfl, hlen, hu, Heap.Only.refl _ _⟩
    simp [QCall.run, src_queue_is_full (X := X) (n + 2) q, QCall.spec, Queue.isFull, ← hr.len,
      CVal.ofBool]

/-- A history of calls. -/
theorem src_queue_calls {b o sb so} (n : Nat) (cs : List QCall) : ∀ {h : Heap} {m} {l : List Nat},
    QRep A h b o sb so m → Queue.Rep m l → m.storage.length = m.capacity →
    2 * m.capacity ≤ A.szMod → (∀ x ∈ l, code x ≠ .undef) →
    (∀ c ∈ cs, c.Legal (queueCells b o sb so m.capacity) h) →
    ∃ h', QCall.runAll (sem A X prog (n + 3)) b o h cs =
        .ok ((QCall.specAll b o m.capacity (l.map code) cs).1, h') ∧
      Heap.Only (fun b' o' => queueCells b o sb so m.capacity b' o' ∨ ∃ c ∈ cs, c.writes b' o')
        h h' := by
  induction cs with
  | nil => intro h m l _ _ _ _ _ _; exact ⟨h, rfl, Heap.Only.refl _ _⟩
  | cons c cs ih =>
    intro h m l q hr hlen hs hu hl
    obtain ⟨h1, m1, l1, e1, q1, r1, hl1, hc1, hlen1, hu1, only1⟩ :=
      src_queue_call (X := X) n q hr hlen hs hu c (hl c (by simp))
    obtain ⟨h2, e2, only2⟩ := ih q1 r1 (by omega) (by omega) hu1 (by
      intro c' hc'
      rw [hc1]
      exact (hl c' (List.mem_cons_of_mem _ hc')).only only1)
    rw [hc1, hl1] at e2
    rw [hc1] at only2
    refine ⟨h2, ?_, ?_⟩
    · simp [QCall.runAll, e1, e2, QCall.specAll]
    · refine (only1.mono ?_).trans (only2.mono ?_)
      · rintro b' o' (hx | hx)
        · exact Or.inl hx
        · exact Or.inr ⟨c, by simp, hx⟩
      · rintro b' o' (hx | ⟨c', hc', hx⟩)
        · exact Or.inl hx
        · exact Or.inr ⟨c', List.mem_cons_of_mem _ hc', hx⟩

end Mu.CS
