import Verif.Lemmas.SrcSched
import Verif.Lemmas.SrcBBufRotate
import Verif.Spec.SrcLog
import Verif.Spec.SrcMem
import Verif.Props.SrcQueue

/-! # Property C129: the parsed source of mu_log.c

Nothing is assumed about the logging function, which may call mulib again (`X.cb (sem A X prog n) f` is what it does),
except in the theorem about histories. -/

namespace Mu.CS

variable {A : Arch} {X : Ext} {h : Heap} {thr lvl : Int} {fn : CVal}

theorem Arch.Level.common {l : Int} (hl : A.Level l) : (A.it (.common .enum .int)).conv l = l := by
  unfold Arch.Level at hl
  simp only [Arch.it, Arch.promote] at *
  cases he : A.enumSigned <;> simp_all

theorem Heap.Logger.fnDef (q : h.Logger thr lvl fn) : fn ≠ .undef := by
  rintro rfl
  exact q.hook

theorem Arch.Level.range {l : Int} (hl : A.Level l) : -((2 ^ (A.sb - 1) : Nat) : Int) ≤ l ∧ l < ((2 ^ A.sb : Nat) : Int) := by
  unfold Arch.Level at hl
  have h1 : 16 ≤ A.ib := A.toPlat.hib
  have h2 : A.ib ≤ A.sb := A.toPlat.hsb
  have e1 : 2 ^ A.ib = 2 * 2 ^ (A.ib - 1) := by rw [← Nat.pow_succ', Nat.succ_eq_add_one, Nat.sub_add_cancel (by omega)]
  have e2 : 2 ^ A.sb = 2 * 2 ^ (A.sb - 1) := by rw [← Nat.pow_succ', Nat.succ_eq_add_one, Nat.sub_add_cancel (by omega)]
  have e3 : 2 ^ (A.ib - 1) ≤ 2 ^ (A.sb - 1) := Nat.pow_le_pow_right (by decide) (by omega)
  have e4 : 0 < 2 ^ (A.ib - 1) := Nat.pow_pos (by decide)
  cases he : A.enumSigned with
  | true =>
    simp only [Arch.it, he, IT.conv_signed] at hl
    have g1 := Int.le_bmod (x := l) (m := 2 ^ A.ib) (by omega)
    have g2 := Int.bmod_lt (x := l) (m := 2 ^ A.ib) (by omega)
    rw [hl] at g1 g2
    omega
  | false =>
    simp only [Arch.it, he, IT.conv_unsigned] at hl
    rw [two_pow_cast] at hl
    have g1 := Int.emod_nonneg l (b := ((2 ^ A.ib : Nat) : Int)) (by omega)
    have g2 := Int.emod_lt_of_pos l (b := ((2 ^ A.ib : Nat) : Int)) (by omega)
    omega

/-- **C129, settings**: each changes one variable (`mu_log_init` two) and nothing else. -/
theorem C129_set (A : Arch) (X : Ext) (n : Nat) (q : h.Logger thr lvl fn) (t : Int) {f : CVal} (hf : Hook f) :
    (∃ h', sem A X prog (n + 1) .mu_log_set_reporting_threshold h [.int t] = .ok (.undef, h') ∧ h'.Logger t lvl fn ∧
      Heap.Only LogVar h h') ∧
    (∃ h', sem A X prog (n + 1) .mu_log_set_logging_function h [f] = .ok (.undef, h') ∧ h'.Logger thr lvl f ∧
      Heap.Only LogVar h h') ∧
    (∃ h', sem A X prog (n + 2) .mu_log_init h [.int t, f] = .ok (.undef, h') ∧ h'.Logger t lvl f ∧
      Heap.Only LogVar h h') := by
  have hu : f ≠ .undef := by rintro rfl; exact hf
  have one : ∀ {h : Heap} {thr lvl : Int} {fn : CVal}, h.Logger thr lvl fn →
      ∃ h', sem A X prog (n + 1) .mu_log_set_reporting_threshold h [.int t] = .ok (.undef, h') ∧ h'.Logger t lvl fn ∧
      Heap.Only LogVar h h' := by
    intro h thr lvl fn q
    refine ⟨h.upd (.glob .s_reporting_threshold) 0 (.int t), ?_, ⟨q.hook, ?_, ?_, ?_⟩, ?_⟩
    · rw [sem_succ (d := Src.mu_log_set_reporting_threshold) rfl, FunDef.run_regs rfl rfl]
      simp [csrc, Src.mu_log_set_reporting_threshold, q.thr]
    · simp [csrc, q.thr]
    · simp [csrc, q.lvl]
    · simp [csrc, q.fn]
    · exact (Heap.Only.refl _ _).upd (Or.inl rfl)
  have two : ∀ {h : Heap} {thr lvl : Int} {fn : CVal}, h.Logger thr lvl fn →
      ∃ h', sem A X prog (n + 1) .mu_log_set_logging_function h [f] = .ok (.undef, h') ∧ h'.Logger thr lvl f ∧
      Heap.Only LogVar h h' := by
    intro h thr lvl fn q
    refine ⟨h.upd (.glob .s_logging_fn) 0 f, ?_, ⟨hf, ?_, ?_, ?_⟩, ?_⟩
    · rw [sem_succ (d := Src.mu_log_set_logging_function) rfl, FunDef.run_regs rfl rfl]
      simp [csrc, Src.mu_log_set_logging_function, q.fn, hu]
    · simp [csrc, q.thr]
    · simp [csrc, q.lvl]
    · simp [csrc, q.fn]
    · exact (Heap.Only.refl _ _).upd (Or.inr (Or.inr rfl))
  refine ⟨one q, two q, ?_⟩
  obtain ⟨h1, e1, q1, o1⟩ := one q
  obtain ⟨h2, e2, q2, o2⟩ := two q1
  refine ⟨h2, ?_, q2, o1.trans o2⟩
  rw [sem_succ (d := Src.mu_log_init) rfl, FunDef.run_regs rfl rfl]
  simp [csrc, Src.mu_log_init, hu, e1, e2]

/-- **C129, questions** are answered from the variables and change nothing; a level is reported if it is not below the
threshold. -/
theorem C129_get (A : Arch) (X : Ext) (n : Nat) (q : h.Logger thr lvl fn) :
    sem A X prog (n + 1) .mu_log_get_reporting_threshold h [] = .ok (.int thr, h) ∧
    sem A X prog (n + 1) .mu_log_get_logging_function h [] = .ok (fn, h) ∧
    sem A X prog (n + 1) .mu_log_get_reporting_level h [] = .ok (.int lvl, h) ∧
    (∀ l, A.Level l → A.Level thr →
      sem A X prog (n + 1) .mu_log_is_reporting h [.int l] = .ok (.ofBool (decide (thr ≤ l)), h)) := by
  refine ⟨?_, ?_, ?_, fun l hl ht => ?_⟩
  · rw [sem_succ (d := Src.mu_log_get_reporting_threshold) rfl, FunDef.run_regs rfl rfl]
    simp [csrc, Src.mu_log_get_reporting_threshold, q.thr]
  · rw [sem_succ (d := Src.mu_log_get_logging_function) rfl, FunDef.run_regs rfl rfl]
    simp [csrc, Src.mu_log_get_logging_function, q.fn, q.fnDef]
  · rw [sem_succ (d := Src.mu_log_get_reporting_level) rfl, FunDef.run_regs rfl rfl]
    simp [csrc, Src.mu_log_get_reporting_level, q.lvl]
  · rw [sem_succ (d := Src.mu_log_is_reporting) rfl, FunDef.run_regs rfl rfl]
    have e1 := hl.common
    have e2 := ht.common
    by_cases hh : thr ≤ l <;> simp [csrc, Src.mu_log_is_reporting, q.thr, e1, e2, COp.run, CVal.ofBool, hh]

theorem Heap.at_withArgs {h : Heap} {args : List CVal} {b : Base} {o : Int} (hb : b ≠ .obj h.next) :
    (h.withArgs args).at b o = h.at b o := by
  unfold Heap.at Heap.withArgs
  cases b <;> simp_all [Heap.cells, Heap.put]

theorem Heap.withArgs_upd {h : Heap} {args : List CVal} {g : Glob} {v : CVal} :
    (h.withArgs args).upd (.glob g) 0 v = (h.upd (.glob g) 0 v).withArgs args := by
  simp only [Heap.withArgs, Heap.upd, Heap.put, Int.le_refl, if_true]
  congr 1
  funext b
  by_cases e1 : b = .glob g <;> by_cases e2 : b = .obj h.next <;> simp_all

theorem Heap.release_withArgs {h : Heap} (hf : h.Fresh) (args : List CVal) : (h.withArgs args).release h.next = h := by
  unfold Heap.withArgs Heap.release Heap.put
  cases h with
  | mk mem next =>
    congr 1
    funext b
    cases b with
    | obj k =>
      by_cases hk : next ≤ k
      · have := hf k hk
        simp_all
      · have : k ≠ next := by omega
        simp [hk, this]
    | _ => simp

theorem FunDef.run_va {A : Arch} {K : Calls} {fuel : Nat} {d : FunDef} {i : Nat} (hm : d.mems = [])
    (hv : d.va = some i) (h : Heap) (args : List CVal) :
    d.run A K fuel h args = (do
      let (f, s) ← exec A K fuel d.body
        ⟨(args.take d.params ++ List.replicate d.locals CVal.undef).set i (.ptr (.obj h.next) 0),
          h.withArgs (args.drop d.params)⟩
      .ok (f.result, s.h.release h.next)) := by
  simp [FunDef.run, hm, hv, allocs, allocVa, Heap.withArgs]

/-- **C129, `mu_log`, reported**: if the level is not below the threshold and there is a logging function, the level is
made available and the logging function is called, once, with the format and the arguments, unchanged; `mu_log` returns
if it returns, and memory is as it leaves it. -/
theorem C129_log (A : Arch) (X : Ext) (n : Nat) {f : Nat} (q : h.Logger thr lvl (.fn f)) {l : Int} (hl : A.Level l)
    (ht : A.Level thr) (hle : thr ≤ l) {fmt : CVal} (hfmt : fmt ≠ .undef) (args : List CVal) :
    sem A X prog (n + 2) .mu_log h (.int l :: fmt :: args) = (do
      let (_, h2) ← X.cb (sem A X prog (n + 1)) f (h.reporting l args) [fmt, .ptr (.obj h.next) 0]
      .ok (.undef, h2.release h.next)) := by
  have q' : (h.withArgs args).Logger thr lvl (.fn f) :=
    ⟨q.hook, by rw [Heap.at_withArgs (by simp)]; exact q.thr, by rw [Heap.at_withArgs (by simp)]; exact q.lvl,
      by rw [Heap.at_withArgs (by simp)]; exact q.fn⟩
  have e1 := (C129_get A X n q').2.2.2 l hl ht
  rw [sem_succ (d := Src.mu_log) rfl, FunDef.run_va rfl rfl]
  generalize sem A X prog (n + 1) = S at *
  have e2 : ((h.withArgs args).upd (.glob .s_reporting_level) 0 (.int l)).at (.glob .s_logging_fn) 0 = some (.fn f) := by
    simp [csrc, q'.fn]
  rw [Heap.withArgs_upd, ← Heap.reporting.eq_def] at e2
  cases hx : X.cb S f (h.reporting l args) [fmt, .ptr (.obj h.next) 0] <;>
    simp [csrc, Src.mu_log, e1, e2, q'.lvl, q'.fn, hle, CVal.ofBool, hfmt, COp.runPtr, Heap.withArgs_upd, hx,
      ← Heap.reporting.eq_def]

/-- **C129, `mu_log`, not reported**: below the threshold or without a logging function nothing happens at all. -/
theorem C129_quiet (A : Arch) (X : Ext) (n : Nat) (hf : h.Fresh) (q : h.Logger thr lvl fn) {l : Int} (hl : A.Level l)
    (ht : A.Level thr) (hq : l < thr ∨ fn = .null) {fmt : CVal} (hfmt : fmt ≠ .undef) (args : List CVal) :
    sem A X prog (n + 2) .mu_log h (.int l :: fmt :: args) = .ok (.undef, h) := by
  have q' : (h.withArgs args).Logger thr lvl fn :=
    ⟨q.hook, by rw [Heap.at_withArgs (by simp)]; exact q.thr, by rw [Heap.at_withArgs (by simp)]; exact q.lvl,
      by rw [Heap.at_withArgs (by simp)]; exact q.fn⟩
  have e1 := (C129_get A X n q').2.2.2 l hl ht
  rw [sem_succ (d := Src.mu_log) rfl, FunDef.run_va rfl rfl]
  generalize sem A X prog (n + 1) = S at *
  by_cases hle : thr ≤ l
  · obtain rfl : fn = .null := by rcases hq with hq | hq; exact absurd hle (by omega); exact hq
    simp [csrc, Src.mu_log, e1, q'.lvl, q'.fn, hle, CVal.ofBool, COp.runPtr, Heap.release_withArgs hf]
  · simp [csrc, Src.mu_log, e1, hle, CVal.ofBool, Heap.release_withArgs hf]

/-- **C129, `mu_log_level_name`** returns the name of the level, or "UNKNOWN" for any other value of the type, and changes
nothing. -/
theorem C129_level_name (A : Arch) (X : Ext) (n : Nat) (hn : h.cells (.glob .s_level_names) = Src.init_s_level_names)
    {l : Int} (hl : A.Level l) :
    ∃ p, sem A X prog (n + 1) .mu_log_level_name h [.int l] = .ok (p, h) ∧ h.Text p (levelText l) := by
  have h65 := szMod_ge A.toPlat
  have c6 : IT.conv ⟨A.sb, false⟩ 6 = 6 := conv_size_lt (A := A) (n := 6) (by omega)
  have c1 : IT.conv ⟨A.sb, false⟩ 1 = 1 := conv_size_lt (A := A) (n := 1) (by omega)
  have d : AOp.run ⟨A.sb, false⟩ .div 6 1 = .ok 6 := by
    simp only [AOp.run, IT.arith, Bool.false_eq_true, if_false]
    rw [if_neg (by decide)]
    exact congrArg Except.ok (by simpa [IT.conv_unsigned] using c6)
  have txt : ∀ (s : String) (t : List UInt8), s.toList.map Char.toNat = t.map UInt8.toNat → h.Text (.ptr (.lit t) 0) s := by
    intro s t e0
    refine ⟨_, 0, rfl, fun i c e => ?_⟩
    have : (litCells t)[i]? = some (.int c) := by
      rw [show litCells t = (t.map UInt8.toNat ++ [0]).map (fun c : Nat => CVal.int c) by simp [litCells]]
      rw [List.getElem?_map, ← e0, e]
      rfl
    simpa [Heap.at, Heap.cells] using this
  have known : ∀ k : Nat, k < 6 → ∀ p, Src.init_s_level_names[k]? = some p → p ≠ .undef →
      sem A X prog (n + 1) .mu_log_level_name h [.int k] = .ok (p, h) := by
    intro k hk p hp hu
    have ck : IT.conv ⟨A.sb, false⟩ (k : Int) = k := conv_size_lt (by omega)
    have hat : h.at (.glob .s_level_names) (k : Int) = some p := by
      simp [Heap.at, hn, hp]
    have hlen : (h.cells (.glob .s_level_names)).length = 6 := by rw [hn]; rfl
    have hlt : ((k : Int) < 6) = True := by simp; omega
    have hin : ((k : Int) ≤ 6) = True := by simp; omega
    rw [sem_succ (d := Src.mu_log_level_name) rfl, FunDef.run_regs rfl rfl]
    simp [csrc, Src.mu_log_level_name, c6, c1, d, ck, COp.run, CVal.ofBool, hlt, Heap.padd, hlen, hin, hat, hu]
  have other : ¬ (0 ≤ l ∧ l < 6) →
      sem A X prog (n + 1) .mu_log_level_name h [.int l] = .ok (.ptr (.lit [85, 78, 75, 78, 79, 87, 78]) 0, h) := by
    intro hno
    have hlt : (IT.conv ⟨A.sb, false⟩ l < 6) = False := by
      simp only [eq_iff_iff, iff_false]
      obtain ⟨g1, g2⟩ := hl.range
      have h2 : A.ib ≤ A.sb := A.toPlat.hsb
      have h1 : 16 ≤ A.ib := A.toPlat.hib
      have e2 : 2 ^ A.sb = 2 * 2 ^ (A.sb - 1) := by rw [← Nat.pow_succ', Nat.succ_eq_add_one, Nat.sub_add_cancel (by omega)]
      have e3 : 2 ^ 15 ≤ 2 ^ (A.sb - 1) := Nat.pow_le_pow_right (by decide) (by omega)
      rw [IT.conv_unsigned, two_pow_cast]
      by_cases hneg : l < 0
      · have := Int.emod_add_mul_ediv l ((2 ^ A.sb : Nat) : Int)
        rw [← Int.add_emod_right, Int.emod_eq_of_lt (by omega) (by omega)]
        omega
      · rw [Int.emod_eq_of_lt (by omega) (by omega)]
        omega
    rw [sem_succ (d := Src.mu_log_level_name) rfl, FunDef.run_regs rfl rfl]
    simp [csrc, Src.mu_log_level_name, c6, c1, d, COp.run, CVal.ofBool, hlt]
  by_cases hin : 0 ≤ l ∧ l < 6
  · obtain ⟨k, rfl⟩ : ∃ k : Nat, l = k := ⟨l.toNat, by omega⟩
    have hk : k < 6 := by omega
    have : k = 0 ∨ k = 1 ∨ k = 2 ∨ k = 3 ∨ k = 4 ∨ k = 5 := by omega
    rcases this with rfl | rfl | rfl | rfl | rfl | rfl <;>
      exact ⟨_, known _ (by decide) _ rfl (by simp), txt _ _ (by decide)⟩
  · refine ⟨_, other hin, txt _ _ ?_⟩
    have : levelText l = "UNKNOWN" := by
      unfold levelText
      repeat rw [if_neg (by omega)]
    rw [this]
    decide

theorem Heap.Fresh.only {S : Base → Int → Prop} {h h' : Heap} (hf : h.Fresh) (e : Heap.Only S h h') : h'.Fresh := by
  intro k hk
  rw [e.next] at hk
  have h1 : h.mem (.obj k) = [] := hf k hk
  have := e.size (.obj k)
  simp only [Heap.cells, h1, List.length_nil] at this
  exact List.eq_nil_of_length_eq_zero this

theorem Heap.fresh_release (h : Heap) (n : Nat) : (h.release n).Fresh := by
  intro k hk
  have hk : n ≤ k := hk
  simp [Heap.release, hk]

theorem Heap.cells_reporting {l : Int} {args : List CVal} {b : Base} (hb : LogVar b 0) :
    (h.reporting l args).cells b = (h.upd (.glob .s_reporting_level) 0 (.int l)).cells b := by
  rcases hb with rfl | rfl | rfl <;> simp [Heap.reporting, Heap.withArgs, Heap.cells, Heap.put]

/-- **C129, histories**: any sequence of calls answers, and delivers to the logging functions, exactly what it should, and
the variables are as they should be. -/
theorem C129_history (A : Arch) (X : Ext) (n : Nat) (I : List Report → Heap → Prop)
    (hI : LogsTo (X.cb (sem A X prog (n + 1))) I) :
    ∀ (cs : List LogCall) (tr : List Report) (h : Heap) (thr lvl : Int) (fn : CVal), h.Fresh → h.Logger thr lvl fn →
      A.Level thr → I tr h → (∀ c ∈ cs, c.Legal A) →
      ∃ h', LogCall.runAll (sem A X prog (n + 2)) h cs = .ok ((LogCall.specAll thr lvl fn cs).1, h') ∧
        h'.Logger (LogCall.specAll thr lvl fn cs).2.2.1 (LogCall.specAll thr lvl fn cs).2.2.2.1
          (LogCall.specAll thr lvl fn cs).2.2.2.2 ∧
        I (tr ++ (LogCall.specAll thr lvl fn cs).2.1) h' ∧ h'.Fresh := by
  intro cs
  induction cs with
  | nil =>
    intro tr h thr lvl fn hf q _ i _
    exact ⟨h, rfl, q, by simpa [LogCall.specAll] using i, hf⟩
  | cons c cs ih =>
    intro tr h thr lvl fn hf q ht i leg
    have hc := leg c (by simp)
    have leg' : ∀ c ∈ cs, c.Legal A := fun c hx => leg c (by simp [hx])
    suffices hs : ∃ h1, c.run (sem A X prog (n + 2)) h = .ok ((c.spec thr lvl fn).1, h1) ∧ h1.Fresh ∧
        h1.Logger (c.spec thr lvl fn).2.1 (c.spec thr lvl fn).2.2.1 (c.spec thr lvl fn).2.2.2.1 ∧
        A.Level (c.spec thr lvl fn).2.1 ∧ I (tr ++ (c.spec thr lvl fn).2.2.2.2) h1 by
      obtain ⟨h1, e1, f1, q1, t1, i1⟩ := hs
      obtain ⟨h2, e2, q2, i2, f2⟩ := ih _ h1 _ _ _ f1 q1 t1 i1 leg'
      refine ⟨h2, ?_, q2, by simpa [LogCall.specAll] using i2, f2⟩
      simp [LogCall.runAll, e1, e2, LogCall.specAll]
    have set := fun (n : Nat) (t : Int) (f : CVal) (hf : Hook f) => C129_set A X n q t hf
    have keep : ∀ h1, Heap.Only LogVar h h1 → h1.Fresh ∧ I tr h1 := fun h1 e => ⟨hf.only e, hI.stable _ _ _ i e⟩
    have get := C129_get A X (n + 1) q
    cases c with
    | init t f =>
      obtain ⟨h1, e1, q1, o1⟩ := (set n t f hc.2).2.2
      exact ⟨h1, e1, (keep h1 o1).1, q1, hc.1, by simpa [LogCall.spec] using (keep h1 o1).2⟩
    | setThr t =>
      obtain ⟨h1, e1, q1, o1⟩ := (set (n + 1) t .null trivial).1
      exact ⟨h1, e1, (keep h1 o1).1, q1, hc, by simpa [LogCall.spec] using (keep h1 o1).2⟩
    | getThr => exact ⟨h, get.1, hf, q, ht, by simpa [LogCall.spec] using i⟩
    | setFn f =>
      obtain ⟨h1, e1, q1, o1⟩ := (set (n + 1) 0 f hc).2.1
      exact ⟨h1, e1, (keep h1 o1).1, q1, ht, by simpa [LogCall.spec] using (keep h1 o1).2⟩
    | getFn => exact ⟨h, get.2.1, hf, q, ht, by simpa [LogCall.spec] using i⟩
    | getLevel => exact ⟨h, get.2.2.1, hf, q, ht, by simpa [LogCall.spec] using i⟩
    | isReporting l => exact ⟨h, get.2.2.2 l hc ht, hf, q, ht, by simpa [LogCall.spec] using i⟩
    | log l fmt args =>
      have quiet : l < thr ∨ fn = .null → ∃ h1, LogCall.run (sem A X prog (n + 2)) h (.log l fmt args) =
          .ok (.undef, h1) ∧ h1.Fresh ∧ h1.Logger thr lvl fn ∧ A.Level thr ∧ I tr h1 := fun hq =>
        ⟨h, C129_quiet A X n hf q hc.1 ht hq hc.2 args, hf, q, ht, i⟩
      cases fn with
      | null => simpa [LogCall.spec] using quiet (Or.inr rfl)
      | fn f =>
        by_cases hle : thr ≤ l
        · obtain ⟨v, h2, e1, e2, e3⟩ := hI.call tr h f l fmt args i hf
          refine ⟨h2.release h.next, ?_, h2.fresh_release _, ?_, ?_, ?_⟩
          · have := C129_log A X n q hc.1 ht hle hc.2 args
            simp [LogCall.run, this, e1, LogCall.spec, hle]
          · have k : ∀ b, LogVar b 0 → (∀ m, b ≠ .obj m) → (h2.release h.next).at b 0 =
                (h.upd (.glob .s_reporting_level) 0 (.int l)).at b 0 := fun b hb hm => by
              rw [Heap.at_release (fun m hx => absurd hx (hm m))]
              unfold Heap.at
              rw [e3 b hb, Heap.cells_reporting hb]
            simp only [LogCall.spec, hle, if_true]
            refine ⟨trivial, ?_, ?_, ?_⟩
            · rw [k _ (Or.inl rfl) (by simp)]; simp [csrc, q.thr]
            · rw [k _ (Or.inr (Or.inl rfl)) (by simp)]; simp [csrc, q.lvl]
            · rw [k _ (Or.inr (Or.inr rfl)) (by simp)]; simp [csrc, q.fn]
          · simpa [LogCall.spec, hle] using ht
          · simpa [LogCall.spec, hle] using e2
        · simpa [LogCall.spec, hle] using quiet (Or.inl (by omega))
      | _ => exact absurd q.hook (by simp [Hook])

/-- A memory with the variables of mu_log.c as at start-up, and a counter. -/
def logDemo : Heap where
  mem
    | .glob .s_reporting_threshold => Src.init_s_reporting_threshold
    | .glob .s_reporting_level => Src.init_s_reporting_level
    | .glob .s_logging_fn => Src.init_s_logging_fn
    | .glob .s_level_names => Src.init_s_level_names
    | .obj 0 => [.int 0]
    | _ => []
  next := 1

/-- A logging function that counts the messages. -/
def logDemoFns (X : Ext) : Ext where
  fn := X.fn
  cb _ _ h _ :=
    match h.at (.obj 0) 0 with
    | some (.int k) => .ok (.undef, h.upd (.obj 0) 0 (.int (k + 1)))
    | _ => .error .oob

theorem logDemo_logs (X : Ext) (S : Fn → SemFn) :
    LogsTo ((logDemoFns X).cb S) (fun tr h => 0 < h.next ∧ h.at (.obj 0) 0 = some (.int tr.length)) where
  call := by
    rintro tr h f l fmt args ⟨i1, i2⟩ hf
    have e : (h.reporting l args).at (.obj 0) 0 = some (.int tr.length) := by
      have hx : (h.upd (.glob .s_reporting_level) 0 (.int l)).next = h.next := by simp [Heap.upd, Heap.put]
      rw [Heap.reporting, Heap.at_withArgs (by rw [hx]; simp; omega)]
      simp [csrc, i2]
    refine ⟨.undef, (h.reporting l args).upd (.obj 0) 0 (.int (tr.length + 1)), by simp [logDemoFns, e], ⟨i1, ?_⟩, ?_⟩
    · rw [Heap.at_release (by rintro k hk; cases hk; exact i1), Heap.at_upd_same rfl (by rw [e]; rfl)]
      simp
    · rintro b (rfl | rfl | rfl) <;> simp [Heap.upd, Heap.put, Heap.cells]
  stable := by
    rintro tr h h' ⟨i1, i2⟩ e
    exact ⟨e.next ▸ i1, (e.cell _ _ (by simp [LogVar])).trans i2⟩

/-- Of four messages two are delivered: one is below the threshold, one comes before there is a logging function. -/
example (X : Ext) : ∃ h', LogCall.runAll (sem .lp64 (logDemoFns X) prog 2) logDemo
      [.log 5 .null [], .init 3 (.fn 0), .log 3 .null [.int 7], .log 2 .null [], .log 4 .null [], .getLevel] =
      .ok ([.undef, .undef, .undef, .undef, .undef, .int 4], h') ∧ h'.at (.obj 0) 0 = some (.int 2) := by
  obtain ⟨h', e, -, i, -⟩ := C129_history .lp64 (logDemoFns X) 0 _ (logDemo_logs X _)
    [.log 5 .null [], .init 3 (.fn 0), .log 3 .null [.int 7], .log 2 .null [], .log 4 .null [], .getLevel] [] logDemo 0 0 .null
    (by intro k hk; cases k with
        | zero => cases hk
        | succ k => rfl) ⟨trivial, rfl, rfl, rfl⟩ rfl ⟨by decide, rfl⟩
    (by intro c hc
        simp only [List.mem_cons, List.not_mem_nil, or_false] at hc
        rcases hc with rfl | rfl | rfl | rfl | rfl | rfl <;> simp [LogCall.Legal, Hook] <;> rfl)
  exact ⟨h', e, i.2⟩

end Mu.CS
