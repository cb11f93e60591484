import Verif.C.Src

/-! Generated by tools/csrc.py from /repo/mulib/mu_log.c: do not edit. -/

namespace Mu.CS.Src

/-- Initial contents of `s_level_names`, mu_log.c:42. -/
def init_s_level_names : List CVal :=
  [.ptr (.lit [84, 82, 65, 67, 69]) 0,
   .ptr (.lit [68, 69, 66, 85, 71]) 0,
   .ptr (.lit [73, 78, 70, 79]) 0,
   .ptr (.lit [87, 65, 82, 78]) 0,
   .ptr (.lit [69, 82, 82, 79, 82]) 0,
   .ptr (.lit [70, 65, 84, 65, 76]) 0]

/-- Initial contents of `s_reporting_threshold`, mu_log.c:46. -/
def init_s_reporting_threshold : List CVal :=
  [.int 0]

/-- Initial contents of `s_reporting_level`, mu_log.c:49. -/
def init_s_reporting_level : List CVal :=
  [.int 0]

/-- Initial contents of `s_logging_fn`, mu_log.c:51. -/
def init_s_logging_fn : List CVal :=
  [.null]

/-- `mu_log_init`, mu_log.c:59-62.  Locals: 0 reporting_threshold, 1 logging_fn. -/
def mu_log_init : FunDef where
  params := 2
  locals := 0
  body :=
    (.seq
     (.expr (.call .mu_log_set_reporting_threshold [.var 0]))
     (.expr (.call .mu_log_set_logging_function [.var 1])))

/-- `mu_log_set_reporting_threshold`, mu_log.c:64-66.  Locals: 0 reporting_threshold. -/
def mu_log_set_reporting_threshold : FunDef where
  params := 1
  locals := 0
  body :=
    (.expr (.store (.glob .s_reporting_threshold) (.var 0)))

/-- `mu_log_get_reporting_threshold`, mu_log.c:68-70. -/
def mu_log_get_reporting_threshold : FunDef where
  params := 0
  locals := 0
  body :=
    (.ret (.load (.glob .s_reporting_threshold)))

/-- `mu_log_set_logging_function`, mu_log.c:72-74.  Locals: 0 logging_fn. -/
def mu_log_set_logging_function : FunDef where
  params := 1
  locals := 0
  body :=
    (.expr (.store (.glob .s_logging_fn) (.var 0)))

/-- `mu_log_get_logging_function`, mu_log.c:76-78. -/
def mu_log_get_logging_function : FunDef where
  params := 0
  locals := 0
  body :=
    (.ret (.load (.glob .s_logging_fn)))

/-- `mu_log_get_reporting_level`, mu_log.c:80-82. -/
def mu_log_get_reporting_level : FunDef where
  params := 0
  locals := 0
  body :=
    (.ret (.load (.glob .s_reporting_level)))

/-- `mu_log_is_reporting`, mu_log.c:84-86.  Locals: 0 reporting_level. -/
def mu_log_is_reporting : FunDef where
  params := 1
  locals := 0
  body :=
    (.ret (.tobool (.bin (.cmp .ge (.common .enum .int)) (.var 0) (.load (.glob .s_reporting_threshold)))))

/-- `mu_log_level_name`, mu_log.c:88-94.  Locals: 0 level. -/
def mu_log_level_name : FunDef where
  params := 1
  locals := 0
  body :=
    (.ite (.bin (.cmp .lt .size) (.var 0) (.bin (.arith .div .size) (.num 6) (.num 1)))
     (.ret (.load (.bin (.padd 1) (.glob .s_level_names) (.var 0))))
     (.ret (.str [85, 78, 75, 78, 79, 87, 78])))

/-- `mu_log`, mu_log.c:96-104.  Locals: 0 level, 1 fmt, 2 ap, 3 (variable arguments). -/
def mu_log : FunDef where
  params := 2
  locals := 2
  va := some 3
  body :=
    (.ite (.land (.call .mu_log_is_reporting [.var 0]) (.bin (.pcmp .ne) (.load (.glob .s_logging_fn)) .null))
     (.seq
      (.expr (.store (.glob .s_reporting_level) (.var 0)))
      (.seq
       (.undef 2)
       (.seq
        (.expr (.setv 2 (.var 3)))
        (.seq
         (.expr (.callp (.load (.glob .s_logging_fn)) [.var 1, .var 2]))
         (.expr (.num 0))))))
     .skip)

end Mu.CS.Src
