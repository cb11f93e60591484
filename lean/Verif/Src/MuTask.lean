import Verif.C.Src

/-! Generated by tools/csrc.py from /repo/mulib/mu_task.c: do not edit. -/

namespace Mu.CS.Src

/-- Initial contents of `s_set_state_hook`, mu_task.c:42. -/
def init_s_set_state_hook : List CVal :=
  [.null]

/-- Initial contents of `s_call_hook`, mu_task.c:44. -/
def init_s_call_hook : List CVal :=
  [.null]

/-- Initial contents of `s_transfer_hook`, mu_task.c:46. -/
def init_s_transfer_hook : List CVal :=
  [.null]

/-- `mu_task_init`, mu_task.c:51-58.  Locals: 0 task, 1 fn, 2 initial_state, 3 user_info. -/
def mu_task_init : FunDef where
  params := 4
  locals := 0
  body :=
    (.seq
     (.expr (.store (.fld (.var 0) 0) (.var 1)))
     (.seq
      (.expr (.store (.fld (.var 0) 1) (.var 2)))
      (.seq
       (.expr (.store (.fld (.var 0) 2) (.var 3)))
       (.ret (.var 0)))))

/-- `mu_task_install_set_state_hook`, mu_task.c:60-62.  Locals: 0 fn. -/
def mu_task_install_set_state_hook : FunDef where
  params := 1
  locals := 0
  body :=
    (.expr (.store (.glob .s_set_state_hook) (.var 0)))

/-- `mu_task_install_call_hook`, mu_task.c:64-66.  Locals: 0 fn. -/
def mu_task_install_call_hook : FunDef where
  params := 1
  locals := 0
  body :=
    (.expr (.store (.glob .s_call_hook) (.var 0)))

/-- `mu_task_install_transfer_hook`, mu_task.c:68-70.  Locals: 0 fn. -/
def mu_task_install_transfer_hook : FunDef where
  params := 1
  locals := 0
  body :=
    (.expr (.store (.glob .s_transfer_hook) (.var 0)))

/-- `mu_task_call`, mu_task.c:72-82.  Locals: 0 task. -/
def mu_task_call : FunDef where
  params := 1
  locals := 0
  body :=
    (.ite (.bin (.pcmp .ne) (.var 0) .null)
     (.seq
      (.ite (.bin (.pcmp .ne) (.load (.glob .s_call_hook)) .null)
       (.expr (.callp (.load (.glob .s_call_hook)) [.var 0]))
       .skip)
      (.expr (.callp (.load (.fld (.var 0) 0)) [.var 0])))
     .skip)

/-- `mu_task_get_fn`, mu_task.c:84.  Locals: 0 task. -/
def mu_task_get_fn : FunDef where
  params := 1
  locals := 0
  body :=
    (.ret (.load (.fld (.var 0) 0)))

/-- `mu_task_get_state`, mu_task.c:86.  Locals: 0 task. -/
def mu_task_get_state : FunDef where
  params := 1
  locals := 0
  body :=
    (.ret (.load (.fld (.var 0) 1)))

/-- `mu_task_set_state`, mu_task.c:88-99.  Locals: 0 task, 1 state. -/
def mu_task_set_state : FunDef where
  params := 2
  locals := 0
  body :=
    (.seq
     (.ite (.bin (.pcmp .ne) (.var 0) .null)
      (.seq
       (.ite (.bin (.pcmp .ne) (.load (.glob .s_set_state_hook)) .null)
        (.expr (.callp (.load (.glob .s_set_state_hook)) [.var 0, .var 1]))
        .skip)
       (.expr (.store (.fld (.var 0) 1) (.var 1))))
      .skip)
     (.ret (.var 0)))

/-- `mu_task_get_user_info`, mu_task.c:101-103.  Locals: 0 task. -/
def mu_task_get_user_info : FunDef where
  params := 1
  locals := 0
  body :=
    (.ret (.load (.fld (.var 0) 2)))

/-- `mu_task_set_user_info`, mu_task.c:105-107.  Locals: 0 task, 1 user_info. -/
def mu_task_set_user_info : FunDef where
  params := 2
  locals := 0
  body :=
    (.expr (.store (.fld (.var 0) 2) (.var 1)))

/-- `mu_task_call_transfer_hook`, mu_task.c:109-114.  Locals: 0 to_task. -/
def mu_task_call_transfer_hook : FunDef where
  params := 1
  locals := 0
  body :=
    (.ite (.bin (.pcmp .ne) (.load (.glob .s_transfer_hook)) .null)
     (.expr (.callp (.load (.glob .s_transfer_hook)) [.var 0]))
     .skip)

end Mu.CS.Src
