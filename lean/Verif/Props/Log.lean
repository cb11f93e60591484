import Verif.Spec.Log

/-! # Properties of mu_log: C36, C37 -/

namespace Mu.Log
open Spec

theorem conforms_append (a b : List Ev) : ∀ σ : St,
    Conforms σ (a ++ b) ↔ Conforms σ a ∧ Conforms (track σ a) b := by
  induction a with
  | nil => intro σ; simp [Conforms, track]
  | cons e a ih => intro σ; simp [Conforms, track, ih, and_assoc]

theorem track_append (a b : List Ev) (σ : St) : track σ (a ++ b) = track (track σ a) b := by
  simp [track]

/-- The books corresponding to the variables. -/
def mk (w : World) (st : List Phase) : St := ⟨w.threshold, w.fn, w.level, st⟩

theorem run_good (p : Prog) : ∀ w st, userCode st → Conforms (mk w st) (run w p).1 ∧
    track (mk w st) (run w p).1 = mk (run w p).2 st := by
  induction p with
  | done => intro w st h; exact ⟨trivial, rfl⟩
  | init l f p ih => intro w st h; exact ⟨⟨h, (ih ⟨l, w.level, f⟩ st h).1⟩, (ih ⟨l, w.level, f⟩ st h).2⟩
  | setThreshold l p ih =>
    intro w st h
    exact ⟨⟨h, (ih ⟨l, w.level, w.fn⟩ st h).1⟩, (ih ⟨l, w.level, w.fn⟩ st h).2⟩
  | getThreshold p ih => intro w st h; exact ⟨⟨⟨h, rfl⟩, (ih w st h).1⟩, (ih w st h).2⟩
  | setFn f p ih =>
    intro w st h
    exact ⟨⟨h, (ih ⟨w.threshold, w.level, f⟩ st h).1⟩, (ih ⟨w.threshold, w.level, f⟩ st h).2⟩
  | getFn p ih => intro w st h; exact ⟨⟨⟨h, rfl⟩, (ih w st h).1⟩, (ih w st h).2⟩
  | getLevel p ih => intro w st h; exact ⟨⟨⟨h, rfl⟩, (ih w st h).1⟩, (ih w st h).2⟩
  | isReporting l p ih =>
    intro w st h
    exact ⟨⟨⟨h, by simp [isReporting, mk]⟩, (ih w st h).1⟩, (ih w st h).2⟩
  | log l msg b p ih1 ih2 =>
    intro w st h
    have hlog : Conforms (mk w st) (log w l msg (fun w => run w b)).1 ∧
        track (mk w st) (log w l msg (fun w => run w b)).1 =
          mk (log w l msg (fun w => run w b)).2 st := by
      unfold log
      split
      · rename_i hc
        simp only [isReporting, decide_eq_true_eq] at hc
        obtain ⟨g1, g2⟩ := ih1 { w with level := l } (.logging l msg :: st) trivial
        have hn : ∀ r, track (mk w st) (.logEnter l msg :: .fnCalled w.fn msg ::
            (run { w with level := l } b).1 ++ r) =
            track (mk (run { w with level := l } b).2 (.logging l msg :: st)) r := by
          intro r
          rw [← g2, ← track_append]; rfl
        refine ⟨?_, ?_⟩
        · refine (conforms_append _ _ _).mpr ⟨⟨h, ⟨l, rfl, hc.1, rfl, hc.2⟩, g1⟩, ?_⟩
          have := hn []
          rw [List.append_nil] at this
          rw [this]
          exact ⟨⟨l, msg, rfl⟩, .inl rfl, trivial⟩
        · simp only
          rw [hn]; rfl
      · rename_i hc
        refine ⟨⟨h, .inr ⟨l, msg, rfl, ?_⟩, trivial⟩, rfl⟩
        simp only [isReporting, decide_eq_true_eq, ge_iff_le] at hc
        change l < w.threshold ∨ w.fn = NULL
        by_cases hl : l < w.threshold
        · exact .inl hl
        · right
          by_cases hf : w.fn = NULL
          · exact hf
          · exact absurd ⟨Int.not_lt.mp hl, hf⟩ hc
    obtain ⟨g1, g2⟩ := hlog
    obtain ⟨k1, k2⟩ := ih2 (log w l msg (fun w => run w b)).2 st h
    simp only [run]
    exact ⟨(conforms_append _ _ _).mpr ⟨g1, by rw [g2]; exact k1⟩,
      by rw [track_append, g2, k2]⟩

/-- C36.  For every history of configuration and logging calls, including those made by the logging
function itself, from any contents `w` of the static variables: a message is delivered exactly when
its level is at least the threshold set last and the function set last is not NULL, once, to that
function, before `mu_log` returns; the getters return what was set last; and
`mu_log_get_reporting_level` returns the level of the message delivered last. -/
theorem C36_conforms (w : World) (p : Prog) :
    Conforms ⟨w.threshold, w.fn, w.level, []⟩ (run w p).1 ∧
      (track ⟨w.threshold, w.fn, w.level, []⟩ (run w p).1).stack = [] := by
  obtain ⟨h1, h2⟩ := run_good p w [] trivial
  exact ⟨h1, by rw [mk] at h2; rw [h2]; rfl⟩

/-- C36, the reporting level: asked in the logging function (before it logs anything itself), it is
the level of the message being delivered. -/
theorem C36_level_in_logging_function (w : World) {l : Int} {msg : Val} {body next : Prog}
    (hl : w.threshold ≤ l) (hf : w.fn ≠ NULL) :
    ∃ tr, (run w (.log l msg (.getLevel body) next)).1 =
      .logEnter l msg :: .fnCalled w.fn msg :: .getLevelRet l :: tr := by
  have : isReporting w l = true ∧ w.fn ≠ NULL := ⟨by simpa [isReporting] using hl, hf⟩
  simp only [run, log, if_pos this]
  exact ⟨_, rfl⟩

/-- `mu_log_level_name` on anything between `-SIZE_MAX + 5` and `SIZE_MAX`. -/
theorem levelName_range (P : Plat) (l : Int) (h1 : 6 - (P.szMod : Int) ≤ l) (h2 : l < P.szMod) :
    levelName P l = .ok (
      if l = 0 then "TRACE" else if l = 1 then "DEBUG" else if l = 2 then "INFO"
      else if l = 3 then "WARN" else if l = 4 then "ERROR" else if l = 5 then "FATAL"
      else "UNKNOWN") := by
  have hs : 6 < P.szMod := by
    have := P.intMax_ge
    have := P.intMax_lt_szMod
    omega
  unfold levelName
  have h6 : levelNames.length = 6 := rfl
  rw [h6]
  by_cases h0 : 0 ≤ l
  · rw [Plat.toSz_of_lt h0 h2]
    by_cases h : l < 6
    · rw [if_pos (by omega)]
      rcases (by omega : l = 0 ∨ l = 1 ∨ l = 2 ∨ l = 3 ∨ l = 4 ∨ l = 5) with
        rfl | rfl | rfl | rfl | rfl | rfl <;> rfl
    · rw [if_neg (by omega)]
      rw [if_neg (by omega), if_neg (by omega), if_neg (by omega), if_neg (by omega),
        if_neg (by omega), if_neg (by omega)]
  · have : P.toSz l = (l + P.szMod).toNat := by
      unfold Plat.toSz
      rw [← Int.add_emod_right, Int.emod_eq_of_lt (by omega) (by omega)]
    rw [this, if_neg (by omega)]
    rw [if_neg (by omega), if_neg (by omega), if_neg (by omega), if_neg (by omega),
      if_neg (by omega), if_neg (by omega)]

/-- C37.  `mu_log_level_name` is defined for every value an enumeration argument can carry (any
`int`, any `unsigned int`): the documented name for the six levels 0..5, "UNKNOWN" for all others. -/
theorem C37_level_name (P : Plat) (l : Int) (h : P.intMin ≤ l ∧ l ≤ P.intMax ∨
    0 ≤ l ∧ l < 2 ^ P.ib) :
    levelName P l = .ok (
      if l = 0 then "TRACE" else if l = 1 then "DEBUG" else if l = 2 then "INFO"
      else if l = 3 then "WARN" else if l = 4 then "ERROR" else if l = 5 then "FATAL"
      else "UNKNOWN") := by
  suffices h' : 6 - (P.szMod : Int) ≤ l ∧ l < P.szMod from levelName_range P l h'.1 h'.2
  have h0 := P.intMax_ge
  have h1 := P.intMax_lt_szMod
  have h2 := P.intMin_eq
  have h3 := P.pow_split
  unfold Plat.intMax at *
  omega

namespace Example

/-- The logging function (21) lowers the threshold, logs again and asks for the level. -/
def prog : Prog :=
  .init 3 21 <| .log 2 100 .done <|
  .log 4 101 (.getLevel <| .setThreshold 1 <| .log 2 102 (.setFn 0 .done) <| .getLevel .done) <|
  .log 5 103 .done <| .isReporting 1 <| .getFn .done

example : (run ⟨0, 0, 0⟩ prog).1 =
    [.initRet 3 21, .logEnter 2 100, .logRet,
     .logEnter 4 101, .fnCalled 21 101, .getLevelRet 4, .setThresholdRet 1,
       .logEnter 2 102, .fnCalled 21 102, .setFnRet 0, .fnDone, .logRet, .getLevelRet 2,
     .fnDone, .logRet,
     .logEnter 5 103, .logRet, .isReportingRet 1 true, .getFnRet 0] := by decide +kernel

example : levelName .lp64 (-1) = .ok "UNKNOWN" ∧ levelName .ilp32 4294967295 = .ok "UNKNOWN" ∧
    levelName .ip16 5 = .ok "FATAL" ∧ levelName .lp64 6 = .ok "UNKNOWN" := by decide

end Example

end Mu.Log
