import Verif.C.Src

/-! Generated by tools/csrc.py from /repo/mulib/mu_sched.c: do not edit. -/

namespace Mu.CS.Src

/-- Initial contents of `s_irq_store`, mu_sched.c:81. -/
def init_s_irq_store : List CVal :=
  [.null,
   .null,
   .null,
   .null,
   .null,
   .null,
   .null,
   .null]

/-- Initial contents of `s_immed_store`, mu_sched.c:82. -/
def init_s_immed_store : List CVal :=
  [.null,
   .null,
   .null,
   .null,
   .null,
   .null,
   .null,
   .null,
   .null,
   .null,
   .null,
   .null,
   .null,
   .null,
   .null,
   .null,
   .null,
   .null,
   .null,
   .null]

/-- Initial contents of `s_deferred_tasks`, mu_sched.c:83. -/
def init_s_deferred_tasks : List CVal :=
  [.int 0,
   .null,
   .int 0,
   .null,
   .int 0,
   .null,
   .int 0,
   .null,
   .int 0,
   .null,
   .int 0,
   .null,
   .int 0,
   .null,
   .int 0,
   .null,
   .int 0,
   .null,
   .int 0,
   .null,
   .int 0,
   .null,
   .int 0,
   .null,
   .int 0,
   .null,
   .int 0,
   .null,
   .int 0,
   .null,
   .int 0,
   .null,
   .int 0,
   .null,
   .int 0,
   .null,
   .int 0,
   .null,
   .int 0,
   .null]

/-- Initial contents of `s_sched`, mu_sched.c:84. -/
def init_s_sched : List CVal :=
  [.int 0,
   .int 0,
   .int 0,
   .null,
   .null,
   .int 0,
   .int 0,
   .int 0,
   .int 0,
   .null,
   .null]

/-- `mu_sched_init`, mu_sched.c:89-96. -/
def mu_sched_init : FunDef where
  params := 0
  locals := 0
  body :=
    (.seq
     (.expr (.call .mu_spsc_init [.fld (.glob .s_sched) 0, .glob .s_irq_store, .num 8]))
     (.seq
      (.expr (.call .mu_queue_init [.fld (.glob .s_sched) 4, .glob .s_immed_store, .num 20]))
      (.seq
       (.expr (.store (.fld (.glob .s_sched) 8) (.num 0)))
       (.seq
        (.expr (.store (.fld (.glob .s_sched) 9) .null))
        (.expr (.store (.fld (.glob .s_sched) 10) .null))))))

/-- `mu_sched_reset`, mu_sched.c:98-103. -/
def mu_sched_reset : FunDef where
  params := 0
  locals := 0
  body :=
    (.seq
     (.expr (.call .mu_spsc_reset [.fld (.glob .s_sched) 0]))
     (.seq
      (.expr (.call .mu_queue_reset [.fld (.glob .s_sched) 4]))
      (.seq
       (.expr (.store (.fld (.glob .s_sched) 8) (.num 0)))
       (.expr (.store (.fld (.glob .s_sched) 9) .null)))))

/-- `mu_sched_step`, mu_sched.c:105-129.  Locals: 0 item. -/
def mu_sched_step : FunDef where
  params := 0
  locals := 1
  body :=
    (.seq
     (.expr (.setv 0 (.fld (.glob .s_sched) 9)))
     (.seq
      (.ite (.bin (.cmp .eq (.common .enum .int)) (.call .mu_spsc_get [.fld (.glob .s_sched) 0, .var 0]) (.num 0))
       .skip
       (.ite (.bin (.pcmp .ne) (.store (.fld (.glob .s_sched) 9) (.call .fetch_runnable_deferred_task__sched [])) .null)
        .skip
        (.ite (.bin (.cmp .eq .int) (.call .mu_queue_get [.fld (.glob .s_sched) 4, .fld (.glob .s_sched) 9]) (.num 1))
         .skip
         (.expr (.store (.fld (.glob .s_sched) 9) (.load (.fld (.glob .s_sched) 10)))))))
      (.seq
       (.expr (.call .mu_task_call [.load (.fld (.glob .s_sched) 9)]))
       (.expr (.store (.fld (.glob .s_sched) 9) .null)))))

/-- `mu_sched_get_idle_task`, mu_sched.c:131. -/
def mu_sched_get_idle_task : FunDef where
  params := 0
  locals := 0
  body :=
    (.ret (.load (.fld (.glob .s_sched) 10)))

/-- `mu_sched_set_idle_task`, mu_sched.c:133.  Locals: 0 task. -/
def mu_sched_set_idle_task : FunDef where
  params := 1
  locals := 0
  body :=
    (.expr (.store (.fld (.glob .s_sched) 10) (.var 0)))

/-- `mu_sched_current_task`, mu_sched.c:135. -/
def mu_sched_current_task : FunDef where
  params := 0
  locals := 0
  body :=
    (.ret (.load (.fld (.glob .s_sched) 9)))

/-- `mu_sched_next_task`, mu_sched.c:137-143.  Locals: 0 deferred_task. -/
def mu_sched_next_task : FunDef where
  params := 0
  locals := 1
  body :=
    (.seq
     (.expr (.setv 0 (.call .next_deferred_task__sched [])))
     (.seq
      (.ite (.bin (.pcmp .eq) (.var 0) .null)
       (.ret .null)
       .skip)
      (.ret (.load (.fld (.var 0) 1)))))

/-- `mu_sched_wait`, mu_sched.c:145-148.  Locals: 0 task. -/
def mu_sched_wait : FunDef where
  params := 1
  locals := 0
  body :=
    (.ret (.num 0))

/-- `mu_sched_transfer`, mu_sched.c:150-153.  Locals: 0 to_task. -/
def mu_sched_transfer : FunDef where
  params := 1
  locals := 0
  body :=
    (.seq
     (.expr (.call .mu_task_call_transfer_hook [.var 0]))
     (.ret (.call .mu_sched_immed [.var 0])))

/-- `mu_sched_immed`, mu_sched.c:155-162.  Locals: 0 task. -/
def mu_sched_immed : FunDef where
  params := 1
  locals := 0
  body :=
    (.ite (.bin (.cmp .eq .int) (.call .mu_queue_put [.fld (.glob .s_sched) 4, .var 0]) (.num 0))
     (.ret (.num 1))
     (.ret (.num 0)))

/-- `mu_sched_from_isr`, mu_sched.c:164-170.  Locals: 0 task. -/
def mu_sched_from_isr : FunDef where
  params := 1
  locals := 0
  body :=
    (.ite (.bin (.cmp .eq (.common .enum .int)) (.call .mu_spsc_put [.fld (.glob .s_sched) 0, .var 0]) (.num 2))
     (.ret (.num 1))
     (.ret (.num 0)))

/-- `mu_sched_defer_until`, mu_sched.c:172-174.  Locals: 0 task, 1 at. -/
def mu_sched_defer_until : FunDef where
  params := 2
  locals := 0
  body :=
    (.ret (.call .defer_aux__sched [.var 0, .var 1]))

/-- `mu_sched_defer_for`, mu_sched.c:176-179.  Locals: 0 task, 1 in, 2 at. -/
def mu_sched_defer_for : FunDef where
  params := 2
  locals := 1
  body :=
    (.seq
     (.expr (.setv 2 (.call .mu_time_offset [.call .mu_time_now [], .var 1])))
     (.ret (.call .defer_aux__sched [.var 0, .var 2])))

/-- A loop of `mu_sched_remove_deferred_task`, mu_sched.c:181-200. -/
def mu_sched_remove_deferred_task_loop1 : Stmt :=
  .loop (.bin (.cmp .gt .size) (.var 2) (.num 0)) none
   (.seq
    (.expr (.setv 3 (.bin (.padd 2) (.glob .s_deferred_tasks) (.bin (.arith .sub .size) (.var 2) (.num 1)))))
    (.seq
     (.ite (.bin (.pcmp .eq) (.load (.fld (.var 3) 1)) (.var 0))
      (.seq
       (.expr (.setv 4 (.bin (.arith .sub .size) (.load (.fld (.glob .s_sched) 8)) (.var 2))))
       (.seq
        (.ite (.bin (.cmp .gt .size) (.var 4) (.num 0))
         (.seq
          (.expr (.setv 5 (.bin (.padd 2) (.glob .s_deferred_tasks) (.var 2))))
          (.expr (.call .memmove [.var 3, .var 5, .bin (.arith .mul .size) (.var 4) (.num 2)])))
         .skip)
        (.seq
         (.expr (.upd (.fld (.glob .s_sched) 8) (.arith .sub .size) (some .size) false (.num 1)))
         (.expr (.setv 1 (.num 0))))))
      .skip)
     (.expr (.updv 2 (.arith .sub .size) (some .size) false (.num 1)))))

/-- `mu_sched_remove_deferred_task`, mu_sched.c:181-200.  Locals: 0 task, 1 err, 2 i, 3 deferred_task, 4 to_move, 5 src. -/
def mu_sched_remove_deferred_task : FunDef where
  params := 1
  locals := 5
  body :=
    (.seq
     (.expr (.setv 1 (.num 2)))
     (.seq
      (.expr (.setv 2 (.load (.fld (.glob .s_sched) 8))))
      (.seq
       mu_sched_remove_deferred_task_loop1
       (.ret (.var 1)))))

/-- `next_deferred_task`, mu_sched.c:205-211.  Locals: 0 deferred_task. -/
def next_deferred_task__sched : FunDef where
  params := 0
  locals := 1
  body :=
    (.seq
     (.expr (.setv 0 .null))
     (.seq
      (.ite (.bin (.cmp .gt .size) (.load (.fld (.glob .s_sched) 8)) (.num 0))
       (.expr (.setv 0 (.bin (.padd 2) (.glob .s_deferred_tasks) (.bin (.arith .sub .size) (.load (.fld (.glob .s_sched) 8)) (.num 1)))))
       .skip)
      (.ret (.var 0))))

/-- `fetch_runnable_deferred_task`, mu_sched.c:213-228.  Locals: 0 deferred_task, 1 now. -/
def fetch_runnable_deferred_task__sched : FunDef where
  params := 0
  locals := 2
  body :=
    (.seq
     (.undef 0)
     (.seq
      (.expr (.setv 1 (.call .mu_time_now [])))
      (.seq
       (.expr (.setv 0 (.call .next_deferred_task__sched [])))
       (.ite (.land (.var 0) (.lnot (.call .mu_time_precedes [.var 1, .load (.fld (.var 0) 0)])))
        (.seq
         (.expr (.upd (.fld (.glob .s_sched) 8) (.arith .sub .size) (some .size) false (.num 1)))
         (.ret (.load (.fld (.var 0) 1))))
        (.ret .null)))))

/-- A loop of `defer_aux`, mu_sched.c:230-265. -/
def defer_aux__sched_loop1 : Stmt :=
  .loop (.bin (.cmp .gt .size) (.var 3) (.num 0)) none
   (.seq
    (.expr (.setv 2 (.bin (.padd 2) (.glob .s_deferred_tasks) (.bin (.arith .sub .size) (.var 3) (.num 1)))))
    (.seq
     (.ite (.call .mu_time_precedes [.var 1, .load (.fld (.var 2) 0)])
      .brk
      .skip)
     (.expr (.updv 3 (.arith .sub .size) (some .size) false (.num 1)))))

/-- `defer_aux`, mu_sched.c:230-265.  Locals: 0 task, 1 at, 2 deferred_task, 3 i, 4 to_move, 5 src, 6 dst. -/
def defer_aux__sched : FunDef where
  params := 2
  locals := 5
  body :=
    (.seq
     (.undef 2)
     (.seq
      (.ite (.bin (.cmp .eq .size) (.load (.fld (.glob .s_sched) 8)) (.num 20))
       (.ret (.num 1))
       .skip)
      (.seq
       (.expr (.setv 3 (.load (.fld (.glob .s_sched) 8))))
       (.seq
        defer_aux__sched_loop1
        (.seq
         (.expr (.setv 4 (.cast .int (.bin (.arith .sub .size) (.load (.fld (.glob .s_sched) 8)) (.var 3)))))
         (.seq
          (.ite (.bin (.cmp .gt .int) (.var 4) (.num 0))
           (.seq
            (.expr (.setv 5 (.bin (.padd 2) (.glob .s_deferred_tasks) (.var 3))))
            (.seq
             (.expr (.setv 6 (.bin (.padd 2) (.glob .s_deferred_tasks) (.bin (.arith .add .size) (.var 3) (.num 1)))))
             (.expr (.call .memmove [.var 6, .var 5, .bin (.arith .mul .size) (.var 4) (.num 2)]))))
           .skip)
          (.seq
           (.expr (.setv 2 (.bin (.padd 2) (.glob .s_deferred_tasks) (.var 3))))
           (.seq
            (.expr (.store (.fld (.var 2) 0) (.var 1)))
            (.seq
             (.expr (.store (.fld (.var 2) 1) (.var 0)))
             (.seq
              (.expr (.upd (.fld (.glob .s_sched) 8) (.arith .add .size) (some .size) false (.num 1)))
              (.ret (.num 0))))))))))))

end Mu.CS.Src
