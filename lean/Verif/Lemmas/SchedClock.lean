import Verif.Lemmas.SchedProps
import Verif.Lemmas.SchedWait

/-! # The scheduler with two clocks that agree on the comparisons it makes -/

namespace Mu.Sched
open Spec

variable {T R T' R' : Type} [DecidableEq T] {cfg : Cfg T R} {cfg' : Cfg T' R'}

def Entry.map (f : T → T') (d : Entry T) : Entry T' := ⟨f d.time, d.task⟩

def LSt.map (f : T → T') (L : LSt T) : LSt T' :=
  ⟨L.irq, L.dq.map (Entry.map f), L.immed, L.curr, L.idle⟩

omit [DecidableEq T] in
theorem ins_map {f : T → T'} {x : Entry T} : ∀ {D : List (Entry T)},
    (∀ d ∈ D, cfg'.precedes (f x.time) (f d.time) = cfg.precedes x.time d.time) →
    ins cfg' (x.map f) (D.map (Entry.map f)) = (ins cfg x D).map (Entry.map f) := by
  intro D
  induction D with
  | nil => intro _; rfl
  | cons d ds ih =>
    intro h
    simp only [List.map_cons, ins]
    have h1 := h d (by simp)
    have e : cfg'.precedes (x.map f).time (d.map f).time = cfg.precedes x.time d.time := h1
    rw [e]
    split
    · rfl
    · rw [ih fun d hd => h d (List.mem_cons_of_mem _ hd)]; rfl

omit [DecidableEq T] in
theorem lfetch_map {f : T → T'} {now : T} {D : List (Entry T)}
    (h : ∀ d ∈ D, cfg'.precedes (f now) (f d.time) = cfg.precedes now d.time) :
    lfetch cfg' (f now) (D.map (Entry.map f)) =
      ((lfetch cfg now D).1, (lfetch cfg now D).2.1.map (Ev.map f),
        (lfetch cfg now D).2.2.map (Entry.map f)) := by
  cases D with
  | nil => rfl
  | cons d ds =>
    have e : cfg'.precedes (f now) (d.map f).time = cfg.precedes now d.time := h d (by simp)
    simp only [List.map_cons, lfetch, e]
    split <;> rfl

omit [DecidableEq T] in
theorem lselect_map {f : T → T'} {now : T} {L : LSt T}
    (h : L.irq = [] → ∀ d ∈ L.dq, cfg'.precedes (f now) (f d.time) = cfg.precedes now d.time) :
    lselect cfg' (f now) (L.map f) =
      ((lselect cfg now L).1.map (Ev.map f), (lselect cfg now L).2.map f) := by
  obtain ⟨irq, dq, immed, curr, idle⟩ := L
  cases irq with
  | cons t r => rfl
  | nil =>
    simp only [lselect, LSt.map, lfetch_map (h rfl)]
    split
    · rfl
    · cases immed <;> simp [LSt.map, Ev.map]

omit [DecidableEq T] in
/-- The clock is read in a step unless a task from an interrupt is waiting. -/
theorem lselect_clock (now : T) (L : LSt T) (h : L.irq = []) :
    ∃ l, (lselect cfg now L).1 = .clock now :: l := by
  obtain ⟨irq, dq, immed, curr, idle⟩ := L
  simp only at h
  subst h
  have : ∃ l, (lfetch cfg now dq).2.1 = .clock now :: l := by
    cases dq with
    | nil => exact ⟨_, rfl⟩
    | cons d ds => simp only [lfetch]; split <;> exact ⟨_, rfl⟩
  obtain ⟨l, hl⟩ := this
  simp only [lselect]
  split
  · exact ⟨l, hl⟩
  · cases immed <;> simp [hl]

theorem lrun_map (f : T → T') (g : R → R')
    (hoff : ∀ a r, cfg'.offset (f a) (g r) = f (cfg.offset a r))
    (h1 : cfg'.maxIrq = cfg.maxIrq) (h2 : cfg'.maxImmed = cfg.maxImmed)
    (h3 : cfg'.maxDeferred = cfg.maxDeferred) (p : Prog T R) : ∀ {σ : St T} {L : LSt T}, Sim σ L →
    σ.cur = L.curr → Always (agree cfg cfg' f) σ (lrun cfg L p).1 →
    lrun cfg' (L.map f) (p.map f g) =
      ((lrun cfg L p).1.map (Ev.map f), (lrun cfg L p).2.map f) := by
  have immed_map : ∀ (L : LSt T) t, limmed cfg' (L.map f) t =
      ((limmed cfg L t).1, (limmed cfg L t).2.map f) := by
    intro L t
    simp only [limmed, h2, LSt.map]
    split <;> rfl
  have isr_map : ∀ (L : LSt T) t, lisr cfg' (L.map f) t =
      ((lisr cfg L t).1, (lisr cfg L t).2.map f) := by
    intro L t
    simp only [lisr, h1, LSt.map]
    split <;> rfl
  have defer_map : ∀ (σ : St T) (L : LSt T) t time, Sim σ L →
      agree cfg cfg' f σ (.deferRet t time (ldefer cfg L t time).1) →
      ldefer cfg' (L.map f) t (f time) = ((ldefer cfg L t time).1, (ldefer cfg L t time).2.map f) := by
    intro σ L t time hs ha
    simp only [ldefer] at ha ⊢
    simp only [h3, LSt.map, List.length_map]
    split
    · rename_i hl
      rw [if_pos hl] at ha
      have := ins_map (cfg := cfg) (cfg' := cfg') (f := f) (x := ⟨time, t⟩) (D := L.dq)
        fun d hd => ha d (hs.dq.mem_iff.mp hd)
      simp only [LSt.map]
      rw [← this]; rfl
    · rfl
  have remove_map : ∀ (L : LSt T) t, lremove (L.map f) t = ((lremove L t).1, (lremove L t).2.map f) := by
    intro L t
    simp only [lremove, LSt.map]
    refine Prod.ext ?_ ?_
    · simp [Entry.map]
    · simp only [LSt.mk.injEq, true_and, and_true]
      rw [List.filter_map]; rfl
  have next_map : ∀ (L : LSt T), lnext (L.map f) = lnext L := by
    intro L
    obtain ⟨irq, dq, immed, curr, idle⟩ := L
    cases dq <;> rfl
  induction p with
  | done => intro σ L _ _ _; rfl
  | step now body nx ih1 ih2 =>
    intro σ L h hc ha
    simp only [lrun, always_append] at ha
    have g1 := lstep_good (cfg := cfg) now h hc (fun L => lrun cfg L body)
      (fun σ L h hc => lrun_good body h hc)
    obtain ⟨ha1, ha2⟩ := ha
    have hs : lstep cfg' (f now) (fun L => lrun cfg' L (body.map f g)) (L.map f) =
        ((lstep cfg now (fun L => lrun cfg L body) L).1.map (Ev.map f),
          (lstep cfg now (fun L => lrun cfg L body) L).2.map f) := by
      simp only [lstep, List.cons_append, List.append_assoc] at ha1
      obtain ⟨-, ha1⟩ := ha1
      rw [always_append] at ha1
      obtain ⟨ha0, ha1⟩ := ha1
      have hsel := lselect_map (cfg := cfg) (cfg' := cfg') (f := f) (now := now) (L := L) (by
        intro hi d hd
        obtain ⟨l, hl⟩ := lselect_clock (cfg := cfg) now L hi
        rw [hl] at ha0
        exact ha0.1 d (h.dq.mem_iff.mp hd))
      obtain ⟨s1, s2, s3, s4, s5⟩ := select_sim (cfg := cfg) (σ := next σ .stepEnter) (L := L) now
        ⟨h.irq, h.immed, h.idle, h.dq⟩ rfl
      simp only [lstep, hsel]
      by_cases hn : (lselect cfg now L).2.curr = NULL
      · have hn' : ((lselect cfg now L).2.map f).curr = NULL := hn
        simp only [hn, hn', ne_eq, not_true, if_false]
        simp [LSt.map, Ev.map]
      · have hn' : ((lselect cfg now L).2.map f).curr ≠ NULL := hn
        simp only [hn, hn', ne_eq, not_false_eq_true, if_true]
        simp only [hn, ne_eq, not_false_eq_true, if_true, List.cons_append] at ha1
        obtain ⟨-, ha1⟩ := ha1
        rw [always_append] at ha1
        have := ih1 (σ := next (track (next σ .stepEnter) (lselect cfg now L).1)
            (.called (lselect cfg now L).2.curr)) (L := (lselect cfg now L).2)
          ⟨s2.irq, s2.immed, s2.idle, s2.dq⟩ rfl ha1.1
        rw [this]
        simp [LSt.map, Ev.map]
    simp only [Prog.map, lrun, hs]
    rw [ih2 g1.2.1 g1.2.2.2.1 ha2]
    simp
  | immed t nx ih =>
    intro σ L h hc ha
    have g1 := limmed_good (cfg := cfg) h hc t
    simp only [Prog.map, lrun, immed_map]
    rw [ih g1.2.1 g1.2.2.2.1 ha.2]
    rfl
  | transfer t hook nx ih1 ih2 =>
    intro σ L h hc ha
    simp only [lrun, List.cons_append] at ha
    obtain ⟨-, ha⟩ := ha
    rw [always_append] at ha
    have g1 := lrun_good (cfg := cfg) hook (σ := σ) h hc
    have e1 := ih1 (σ := σ) h hc ha.1
    have g2 := limmed_good (cfg := cfg) g1.2.1 g1.2.2.2.1 t
    simp only [Prog.map, lrun, e1, immed_map]
    rw [ih2 g2.2.1 g2.2.2.2.1 ha.2.2]
    simp [Ev.map]
  | fromIsr t nx ih =>
    intro σ L h hc ha
    have g1 := lisr_good (cfg := cfg) h hc t
    simp only [Prog.map, lrun, isr_map]
    rw [ih g1.2.1 g1.2.2.2.1 ha.2]
    rfl
  | deferUntil t time nx ih =>
    intro σ L h hc ha
    have g1 := ldefer_good (cfg := cfg) h hc t time
    simp only [Prog.map, lrun, defer_map σ L t time h ha.1]
    rw [ih g1.2.1 g1.2.2.2.1 ha.2]
    rfl
  | deferFor t now delay nx ih =>
    intro σ L h hc ha
    have h0 : Sim (next σ (.clock now)) L := ⟨h.irq, h.immed, h.idle, h.dq⟩
    have g1 := ldefer_good (cfg := cfg) h0 hc t (cfg.offset now delay)
    simp only [Prog.map, lrun, hoff, defer_map _ L t _ h0 ha.2.1]
    rw [ih g1.2.1 g1.2.2.2.1 ha.2.2]
    rfl
  | remove t nx ih =>
    intro σ L h hc ha
    have g1 := lremove_good (cfg := cfg) h hc t
    simp only [Prog.map, lrun, remove_map]
    rw [ih g1.2.1 g1.2.2.2.1 ha.2]
    rfl
  | reset nx ih =>
    intro σ L h hc ha
    simp only [Prog.map, lrun]
    have : lreset (L.map f) = (lreset L).map f := rfl
    rw [this, ih (σ := next σ .resetRet) (L := lreset L) ⟨rfl, rfl, h.idle, List.Perm.refl _⟩ rfl ha.2]
    rfl
  | setIdle t nx ih =>
    intro σ L h hc ha
    simp only [Prog.map, lrun]
    have := ih (σ := next σ (.setIdleRet t)) (L := { L with idle := t }) ⟨h.irq, h.immed, rfl, h.dq⟩ hc ha.2
    rw [show ({ L.map f with idle := t } : LSt T') = ({ L with idle := t } : LSt T).map f from rfl, this]
    rfl
  | getIdle nx ih =>
    intro σ L h hc ha
    simp only [Prog.map, lrun]
    rw [ih (σ := σ) h hc ha.2]
    rfl
  | current nx ih =>
    intro σ L h hc ha
    simp only [Prog.map, lrun]
    rw [ih (σ := σ) h hc ha.2]
    rfl
  | nextTask nx ih =>
    intro σ L h hc ha
    simp only [Prog.map, lrun, next_map]
    rw [ih (σ := σ) h hc ha.2]
    rfl
  | wait t nx ih =>
    intro σ L h hc ha
    simp only [Prog.map, lrun]
    rw [ih (σ := σ) h hc ha.2]
    rfl

/-- The low `w` bits of two times less than half of the range apart compare as the times do. -/
theorem wrap_ofNat {w : Nat} (hw : 0 < w) {a b : Nat} (h1 : a < b + 2 ^ (w - 1))
    (h2 : b ≤ a + 2 ^ (w - 1)) :
    wrapPrecedes w (BitVec.ofNat w a) (BitVec.ofNat w b) = decide (a < b) := by
  have e2 : 2 ^ w = 2 * 2 ^ (w - 1) := by
    obtain ⟨k, rfl⟩ : ∃ k, w = k + 1 := ⟨w - 1, by omega⟩
    rw [Nat.pow_succ, Nat.add_sub_cancel]; omega
  have hp : 0 < 2 ^ (w - 1) := Nat.two_pow_pos _
  unfold wrapPrecedes
  have : (BitVec.ofNat w a - BitVec.ofNat w b).toInt = (a : Int) - b := by
    rw [BitVec.toInt_sub, BitVec.toInt_ofNat', BitVec.toInt_ofNat', Int.sub_bmod_bmod, Int.bmod_sub_bmod]
    rw [Int.bmod_eq_of_le] <;> omega
  rw [this]
  simp only [decide_eq_decide]
  omega

theorem near_agree {w : Nat} (hw : 0 < w) {P : Plat} {a b c : Nat} : ∀ (h : List (Ev Nat)) (σ : St Nat),
    Always (near w) σ h →
    Always (agree (unbounded P a b c) (wrapping w P a b c) (BitVec.ofNat w)) σ h := by
  refine always_mono ?_
  intro σ e h
  cases e with
  | clock n => exact fun d hd => wrap_ofNat hw (h d hd).1 (h d hd).2
  | deferRet t time er =>
    cases er with
    | none => exact fun d hd => wrap_ofNat hw (h d hd).1 (h d hd).2
    | _ => trivial
  | _ => trivial

end Mu.Sched
