import Verif.Lemmas.SrcTask
import Verif.Lemmas.SrcBBufRotate
import Verif.Spec.SrcTask
import Verif.Props.SrcQueue

/-! # Property C126: the parsed source of mu_task.c

Every function of mu_task.c, as an exact description of what it does to memory and which functions of the
user it calls, with what, in what order.  `X.cb (sem A X prog n) f` is what the user's function `f` does; nothing
is assumed about it: it may call the functions of mulib again, install hooks, change tasks, or fault. -/

namespace Mu.CS

variable {A : Arch} {X : Ext} {h : Heap} {b : Base} {o : Int}

/-- **C126, `mu_task_init`** fills the struct, whatever was in it, and returns it. -/
theorem C126_init (A : Arch) (X : Ext) (n : Nat) {f s u : CVal} (hb : b.isLit = false)
    (hm : ∀ k : Nat, k < 3 → (h.at b (o + k)).isSome = true) (hf : f ≠ .undef) (hs : s ≠ .undef) (hu : u ≠ .undef) :
    ∃ h', sem A X prog (n + 1) .mu_task_init h [.ptr b o, f, s, u] = .ok (.ptr b o, h') ∧
      h'.Task b o f s u ∧ Heap.Only (span b o 3) h h' := by
  have h0 : (h.at b o).isSome = true := by simpa using hm 0 (by omega)
  have h1 : (h.at b (o + 1)).isSome = true := hm 1 (by omega)
  have h2 : (h.at b (o + 2)).isSome = true := hm 2 (by omega)
  refine ⟨((h.upd b o f).upd b (o + 1) s).upd b (o + 2) u, ?_, ⟨hb, ?_, ?_, ?_⟩,
    (((Heap.Only.refl _ _).upd ⟨rfl, by omega, by omega⟩).upd ⟨rfl, by omega, by omega⟩).upd ⟨rfl, by omega, by omega⟩⟩
  · rw [sem_succ (d := Src.mu_task_init) rfl, FunDef.run_regs rfl rfl]
    simp [csrc, Src.mu_task_init, h0, h1, h2, hb, hf, hs, hu]
  · simp [csrc, h0, hb]
  · simp [csrc, h1, hb]
  · simp [csrc, h2, hb]

/-- **C126, the getters** return the members and change nothing. -/
theorem C126_getters (A : Arch) (X : Ext) (n : Nat) {f s u : CVal} (t : h.Task b o f s u) (hf : f ≠ .undef)
    (hs : s ≠ .undef) (hu : u ≠ .undef) :
    sem A X prog (n + 1) .mu_task_get_fn h [.ptr b o] = .ok (f, h) ∧
    sem A X prog (n + 1) .mu_task_get_state h [.ptr b o] = .ok (s, h) ∧
    sem A X prog (n + 1) .mu_task_get_user_info h [.ptr b o] = .ok (u, h) := by
  have h0 := t.fn
  have h1 := t.st
  have h2 := t.info
  refine ⟨?_, ?_, ?_⟩
  · rw [sem_succ (d := Src.mu_task_get_fn) rfl, FunDef.run_regs rfl rfl]
    simp [csrc, Src.mu_task_get_fn, h0, hf]
  · rw [sem_succ (d := Src.mu_task_get_state) rfl, FunDef.run_regs rfl rfl]
    simp [csrc, Src.mu_task_get_state, h1, hs]
  · rw [sem_succ (d := Src.mu_task_get_user_info) rfl, FunDef.run_regs rfl rfl]
    simp [csrc, Src.mu_task_get_user_info, h2, hu]

/-- **C126, `mu_task_set_user_info`** changes that member only. -/
theorem C126_set_user_info (A : Arch) (X : Ext) (n : Nat) {f s u v : CVal} (t : h.Task b o f s u) (hv : v ≠ .undef) :
    ∃ h', sem A X prog (n + 1) .mu_task_set_user_info h [.ptr b o, v] = .ok (.undef, h') ∧
      h'.Task b o f s v ∧ Heap.Only (span b (o + 2) 1) h h' := by
  have h2 := t.info
  have hb := t.wr
  refine ⟨h.upd b (o + 2) v, ?_, ⟨hb, ?_, ?_, ?_⟩, (Heap.Only.refl _ _).upd ⟨rfl, by omega, by omega⟩⟩
  · rw [sem_succ (d := Src.mu_task_set_user_info) rfl, FunDef.run_regs rfl rfl]
    simp [csrc, Src.mu_task_set_user_info, h2, hb, hv]
  · simp [csrc, t.fn]
  · simp [csrc, t.st]
  · simp [csrc, h2, hb]

/-- **C126, installing a hook** changes the variable of that hook only; the last one installed counts. -/
theorem C126_install (A : Arch) (X : Ext) (n : Nat) {k : CVal} (hk : Hook k) :
    (∀ w, h.at (.glob .s_call_hook) 0 = some w → ∃ h', sem A X prog (n + 1) .mu_task_install_call_hook h [k] = .ok (.undef, h') ∧
      h'.at (.glob .s_call_hook) 0 = some k ∧ Heap.Only (span (.glob .s_call_hook) 0 1) h h') ∧
    (∀ w, h.at (.glob .s_set_state_hook) 0 = some w → ∃ h', sem A X prog (n + 1) .mu_task_install_set_state_hook h [k] = .ok (.undef, h') ∧
      h'.at (.glob .s_set_state_hook) 0 = some k ∧ Heap.Only (span (.glob .s_set_state_hook) 0 1) h h') ∧
    (∀ w, h.at (.glob .s_transfer_hook) 0 = some w → ∃ h', sem A X prog (n + 1) .mu_task_install_transfer_hook h [k] = .ok (.undef, h') ∧
      h'.at (.glob .s_transfer_hook) 0 = some k ∧ Heap.Only (span (.glob .s_transfer_hook) 0 1) h h') := by
  have hu : k ≠ .undef := by rintro rfl; exact hk
  refine ⟨fun w hw => ⟨h.upd (.glob .s_call_hook) 0 k, ?_, ?_, ?_⟩, fun w hw => ⟨h.upd (.glob .s_set_state_hook) 0 k, ?_, ?_, ?_⟩,
    fun w hw => ⟨h.upd (.glob .s_transfer_hook) 0 k, ?_, ?_, ?_⟩⟩
  · rw [sem_succ (d := Src.mu_task_install_call_hook) rfl, FunDef.run_regs rfl rfl]
    simp [csrc, Src.mu_task_install_call_hook, hw, hu]
  · simp [csrc, hw]
  · exact (Heap.Only.refl _ _).upd ⟨rfl, by omega, by omega⟩
  · rw [sem_succ (d := Src.mu_task_install_set_state_hook) rfl, FunDef.run_regs rfl rfl]
    simp [csrc, Src.mu_task_install_set_state_hook, hw, hu]
  · simp [csrc, hw]
  · exact (Heap.Only.refl _ _).upd ⟨rfl, by omega, by omega⟩
  · rw [sem_succ (d := Src.mu_task_install_transfer_hook) rfl, FunDef.run_regs rfl rfl]
    simp [csrc, Src.mu_task_install_transfer_hook, hw, hu]
  · simp [csrc, hw]
  · exact (Heap.Only.refl _ _).upd ⟨rfl, by omega, by omega⟩

/-- **C126, NULL tasks** are ignored by `mu_task_call` and `mu_task_set_state`. -/
theorem C126_null (A : Arch) (X : Ext) (n : Nat) {s : CVal} (hs : s ≠ .undef) :
    sem A X prog (n + 1) .mu_task_call h [.null] = .ok (.undef, h) ∧
    sem A X prog (n + 1) .mu_task_set_state h [.null, s] = .ok (.null, h) := by
  constructor
  · rw [sem_succ (d := Src.mu_task_call) rfl, FunDef.run_regs rfl rfl]
    simp [csrc, Src.mu_task_call]
  · rw [sem_succ (d := Src.mu_task_set_state) rfl, FunDef.run_regs rfl rfl]
    simp [csrc, Src.mu_task_set_state]

/-- **C126, `mu_task_call`**: if a call hook is installed it is called once, with the task, in the memory as it
is; if that does not return, nor does the call; otherwise the function that the task has *then* is called once,
with the task, and memory is as that function leaves it. -/
theorem C126_call (A : Arch) (X : Ext) (n : Nat) {k : CVal} (hk : Hook k) (hh : h.at (.glob .s_call_hook) 0 = some k) :
    (∀ h1 f, told (X.cb (sem A X prog n)) k h [.ptr b o] = .ok h1 → h1.at b o = some (.fn f) →
      sem A X prog (n + 1) .mu_task_call h [.ptr b o] = (do
        let (_, h2) ← X.cb (sem A X prog n) f h1 [.ptr b o]
        .ok (.undef, h2))) ∧
    (∀ e, told (X.cb (sem A X prog n)) k h [.ptr b o] = .error e →
      sem A X prog (n + 1) .mu_task_call h [.ptr b o] = .error e) := by
  rw [sem_succ (d := Src.mu_task_call) rfl, FunDef.run_regs rfl rfl]
  generalize sem A X prog n = S
  refine ⟨fun h1 f ht hf => ?_, fun e ht => ?_⟩
  · cases k with
    | null =>
      obtain rfl : h = h1 := Except.ok.inj ht
      cases hx : X.cb S f h [.ptr b o] <;> simp [csrc, Src.mu_task_call, hh, hf, hx]
    | fn g =>
      obtain ⟨⟨r, h2⟩, e1, e2⟩ := C.bind_eq_ok (c := X.cb S g h [.ptr b o]) ht
      obtain rfl : h2 = h1 := Except.ok.inj e2
      cases hx : X.cb S f h2 [.ptr b o] <;> simp [csrc, Src.mu_task_call, hh, hf, hx, e1]
    | _ => exact hk.elim
  · cases k with
    | null => cases ht
    | fn g =>
      cases hx : X.cb S g h [.ptr b o] with
      | ok r => simp [told, hx] at ht
      | error e' =>
        have : e' = e := by simpa [told, hx] using ht
        subst this
        simp [csrc, Src.mu_task_call, hh, hx]
    | _ => exact hk.elim

/-- **C126, `mu_task_set_state`**: if a hook is installed it is called once, with the task and the new state,
in the memory as it is; when it has returned the state becomes `s`, whatever it was, no other cell changes, and
the task is returned. -/
theorem C126_set_state (A : Arch) (X : Ext) (n : Nat) {k s : CVal} (hk : Hook k) (hs : s ≠ .undef) (hb : b.isLit = false)
    (hh : h.at (.glob .s_set_state_hook) 0 = some k) :
    (∀ h1, told (X.cb (sem A X prog n)) k h [.ptr b o, s] = .ok h1 → (h1.at b (o + 1)).isSome = true →
      ∃ h', sem A X prog (n + 1) .mu_task_set_state h [.ptr b o, s] = .ok (.ptr b o, h') ∧
        h'.at b (o + 1) = some s ∧ Heap.Only (span b (o + 1) 1) h1 h') ∧
    (∀ e, told (X.cb (sem A X prog n)) k h [.ptr b o, s] = .error e →
      sem A X prog (n + 1) .mu_task_set_state h [.ptr b o, s] = .error e) := by
  rw [sem_succ (d := Src.mu_task_set_state) rfl, FunDef.run_regs rfl rfl]
  generalize sem A X prog n = S
  refine ⟨fun h1 ht hf => ⟨h1.upd b (o + 1) s, ?_, by simp [csrc, hb, hf],
    (Heap.Only.refl _ _).upd ⟨rfl, by omega, by omega⟩⟩, fun e ht => ?_⟩
  · cases k with
    | null =>
      obtain rfl : h = h1 := Except.ok.inj ht
      simp [csrc, Src.mu_task_set_state, hh, hf, hb, hs]
    | fn g =>
      obtain ⟨⟨r, h2⟩, e1, e2⟩ := C.bind_eq_ok (c := X.cb S g h [.ptr b o, s]) ht
      obtain rfl : h2 = h1 := Except.ok.inj e2
      simp [csrc, Src.mu_task_set_state, hh, hf, hb, hs, e1]
    | _ => exact hk.elim
  · cases k with
    | null => cases ht
    | fn g =>
      cases hx : X.cb S g h [.ptr b o, s] with
      | ok r => simp [told, hx] at ht
      | error e' =>
        have : e' = e := by simpa [told, hx] using ht
        subst this
        simp [csrc, Src.mu_task_set_state, hh, hs, hx]
    | _ => exact hk.elim

/-- **C126, `mu_task_call_transfer_hook`** calls the hook, if one is installed, with the argument, and does
nothing else. -/
theorem C126_transfer (A : Arch) (X : Ext) (n : Nat) {k t : CVal} (hk : Hook k) (ht : t ≠ .undef)
    (hh : h.at (.glob .s_transfer_hook) 0 = some k) :
    sem A X prog (n + 1) .mu_task_call_transfer_hook h [t] = (do
      let h1 ← told (X.cb (sem A X prog n)) k h [t]
      .ok (.undef, h1)) := by
  rw [sem_succ (d := Src.mu_task_call_transfer_hook) rfl, FunDef.run_regs rfl rfl]
  generalize sem A X prog n = S
  cases k with
  | null => simp [csrc, Src.mu_task_call_transfer_hook, hh, told]
  | fn g => cases hx : X.cb S g h [t] <;> simp [csrc, Src.mu_task_call_transfer_hook, hh, told, hx, ht]
  | _ => exact hk.elim

/-- Non-vacuity: a task in object 0, and the three hooks not installed. -/
def taskDemo : Heap where
  mem
    | .obj 0 => [.undef, .undef, .undef]
    | .glob .s_call_hook => Src.init_s_call_hook
    | .glob .s_set_state_hook => Src.init_s_set_state_hook
    | .glob .s_transfer_hook => Src.init_s_transfer_hook
    | _ => []
  next := 1

/-- Functions 1 and 2 store a number as the `user_info` of their argument; the hook 3 gives the task that is
called the function 2. -/
def taskDemoFns (X : Ext) : Ext :=
  { X with
    cb := fun _ f h args =>
      match f, args with
      | 1, [.ptr b o] => .ok (.undef, h.upd b (o + 2) (.int 11))
      | 2, [.ptr b o] => .ok (.undef, h.upd b (o + 2) (.int 22))
      | 3, [.ptr b o] => .ok (.undef, h.upd b o (.fn 2))
      | _, _ => .error .ptr }

example (X : Ext) : ∃ h1 h2 h3 h4,
    sem .lp64 (taskDemoFns X) prog 2 .mu_task_init taskDemo [.ptr (.obj 0) 0, .fn 1, .int 5, .null] =
      .ok (.ptr (.obj 0) 0, h1) ∧ h1.Task (.obj 0) 0 (.fn 1) (.int 5) .null ∧
    sem .lp64 (taskDemoFns X) prog 2 .mu_task_call h1 [.ptr (.obj 0) 0] = .ok (.undef, h2) ∧
      h2.Task (.obj 0) 0 (.fn 1) (.int 5) (.int 11) ∧
    sem .lp64 (taskDemoFns X) prog 2 .mu_task_install_call_hook h2 [.fn 3] = .ok (.undef, h3) ∧
    sem .lp64 (taskDemoFns X) prog 2 .mu_task_call h3 [.ptr (.obj 0) 0] = .ok (.undef, h4) ∧
      h4.Task (.obj 0) 0 (.fn 2) (.int 5) (.int 22) := by
  obtain ⟨h1, e1, t1, o1⟩ := C126_init .lp64 (taskDemoFns X) 1 (h := taskDemo) (b := .obj 0) (o := 0) (f := .fn 1)
    (s := .int 5) (u := .null) rfl (by decide) (by decide) (by decide) (by decide)
  have k1 : h1.at (.glob .s_call_hook) 0 = some .null := o1.at_of rfl (by rintro ⟨e, -⟩; cases e)
  have i1 : h1.at (.obj 0) 2 = some .null := t1.info
  have e2 := (C126_call .lp64 (taskDemoFns X) 1 (b := .obj 0) (o := 0) (k := .null) trivial k1).1 h1 1 rfl t1.fn
  have t2 : (h1.upd (.obj 0) 2 (.int 11)).Task (.obj 0) 0 (.fn 1) (.int 5) (.int 11) := by
    refine ⟨rfl, ?_, ?_, ?_⟩
    · rw [Heap.at_upd_sep (by omega)]; exact t1.fn
    · rw [Heap.at_upd_sep (by omega)]; exact t1.st
    · exact Heap.at_upd_same rfl (by rw [i1]; rfl)
  have k2 : (h1.upd (.obj 0) 2 (.int 11)).at (.glob .s_call_hook) 0 = some .null := by
    rw [Heap.at_upd_sep (by rintro ⟨e, -⟩; cases e)]; exact k1
  obtain ⟨h3, e3, k3, o3⟩ := (C126_install .lp64 (taskDemoFns X) 1 (k := .fn 3) trivial).1 _ k2
  have n3 : ∀ j, ¬ span (.glob .s_call_hook) 0 1 (.obj 0) j := by rintro j ⟨e, -⟩; cases e
  have f3 : h3.at (.obj 0) 0 = some (.fn 1) := o3.at_of t2.fn (n3 _)
  have s3 : h3.at (.obj 0) 1 = some (.int 5) := o3.at_of t2.st (n3 _)
  have i3 : h3.at (.obj 0) 2 = some (.int 11) := o3.at_of t2.info (n3 _)
  have f4 : (h3.upd (.obj 0) 0 (.fn 2)).at (.obj 0) 0 = some (.fn 2) := Heap.at_upd_same rfl (by rw [f3]; rfl)
  have e4 := (C126_call .lp64 (taskDemoFns X) 1 (b := .obj 0) (o := 0) (k := .fn 3) trivial k3).1 (h3.upd (.obj 0) 0 (.fn 2)) 2
    rfl f4
  refine ⟨h1, _, h3, (h3.upd (.obj 0) 0 (.fn 2)).upd (.obj 0) 2 (.int 22), e1, t1, e2, t2, e3, e4, rfl, ?_, ?_, ?_⟩
  · rw [Heap.at_upd_sep (by omega)]; exact f4
  · rw [Heap.at_upd_sep (by omega), Heap.at_upd_sep (by omega)]; exact s3
  · exact Heap.at_upd_same rfl (by rw [Heap.at_upd_sep (by omega)]; exact (by rw [i3]; rfl))

end Mu.CS
