import Verif.C.Src

/-! Generated by tools/csrc.py from /repo/mulib/mu_mqueue.c: do not edit. -/

namespace Mu.CS.Src

/-- `mu_mqueue_init`, mu_mqueue.c:48-56.  Locals: 0 mqueue, 1 storage, 2 capacity, 3 on_put, 4 on_get. -/
def mu_mqueue_init : FunDef where
  params := 5
  locals := 0
  body :=
    (.seq
     (.expr (.store (.fld (.var 0) 0) (.var 1)))
     (.seq
      (.expr (.store (.fld (.var 0) 1) (.var 2)))
      (.seq
       (.expr (.store (.fld (.var 0) 4) (.var 3)))
       (.seq
        (.expr (.store (.fld (.var 0) 5) (.var 4)))
        (.ret (.call .mu_mqueue_reset [.var 0]))))))

/-- `mu_mqueue_reset`, mu_mqueue.c:58-62.  Locals: 0 mqueue. -/
def mu_mqueue_reset : FunDef where
  params := 1
  locals := 0
  body :=
    (.seq
     (.expr (.store (.fld (.var 0) 2) (.num 0)))
     (.seq
      (.expr (.store (.fld (.var 0) 3) (.num 0)))
      (.ret (.var 0))))

/-- `mu_mqueue_capacity`, mu_mqueue.c:64.  Locals: 0 mqueue. -/
def mu_mqueue_capacity : FunDef where
  params := 1
  locals := 0
  body :=
    (.ret (.load (.fld (.var 0) 1)))

/-- `mu_mqueue_count`, mu_mqueue.c:66.  Locals: 0 mqueue. -/
def mu_mqueue_count : FunDef where
  params := 1
  locals := 0
  body :=
    (.ret (.load (.fld (.var 0) 2)))

/-- `mu_mqueue_is_empty`, mu_mqueue.c:68.  Locals: 0 mqueue. -/
def mu_mqueue_is_empty : FunDef where
  params := 1
  locals := 0
  body :=
    (.ret (.tobool (.bin (.cmp .eq .size) (.load (.fld (.var 0) 2)) (.num 0))))

/-- `mu_mqueue_is_full`, mu_mqueue.c:70-72.  Locals: 0 mqueue. -/
def mu_mqueue_is_full : FunDef where
  params := 1
  locals := 0
  body :=
    (.ret (.tobool (.bin (.cmp .eq .size) (.load (.fld (.var 0) 2)) (.load (.fld (.var 0) 1)))))

/-- `mu_mqueue_put`, mu_mqueue.c:74-90.  Locals: 0 mqueue, 1 element. -/
def mu_mqueue_put : FunDef where
  params := 2
  locals := 0
  body :=
    (.ite (.lnot (.call .mu_mqueue_is_full [.var 0]))
     (.seq
      (.expr (.store (.bin (.padd 1) (.load (.fld (.var 0) 0)) (.load (.fld (.var 0) 3))) (.var 1)))
      (.seq
       (.expr (.store (.fld (.var 0) 3) (.bin (.arith .mod .size) (.bin (.arith .add .size) (.load (.fld (.var 0) 3)) (.num 1)) (.load (.fld (.var 0) 1)))))
       (.seq
        (.expr (.upd (.fld (.var 0) 2) (.arith .add .size) (some .size) false (.num 1)))
        (.seq
         (.ite (.load (.fld (.var 0) 4))
          (.expr (.call .mu_task_call [.load (.fld (.var 0) 4)]))
          .skip)
         (.ret (.tobool (.num 1)))))))
     (.ret (.tobool (.num 0))))

/-- `mu_mqueue_get`, mu_mqueue.c:92-94.  Locals: 0 mqueue, 1 element. -/
def mu_mqueue_get : FunDef where
  params := 2
  locals := 0
  body :=
    (.ret (.call .access_queue__mqueue [.var 0, .var 1, .tobool (.num 1)]))

/-- `mu_mqueue_peek`, mu_mqueue.c:96-98.  Locals: 0 mqueue, 1 element. -/
def mu_mqueue_peek : FunDef where
  params := 2
  locals := 0
  body :=
    (.ret (.call .access_queue__mqueue [.var 0, .var 1, .tobool (.num 0)]))

/-- `access_queue`, mu_mqueue.c:103-123.  Locals: 0 mqueue, 1 element, 2 fetch, 3 idx. -/
def access_queue__mqueue : FunDef where
  params := 3
  locals := 1
  body :=
    (.ite (.lnot (.call .mu_mqueue_is_empty [.var 0]))
     (.seq
      (.expr (.setv 3 (.bin (.arith .sub .size) (.bin (.arith .add .size) (.load (.fld (.var 0) 1)) (.load (.fld (.var 0) 3))) (.load (.fld (.var 0) 2)))))
      (.seq
       (.ite (.bin (.cmp .ge .size) (.var 3) (.load (.fld (.var 0) 1)))
        (.expr (.updv 3 (.arith .sub .size) (some .size) false (.load (.fld (.var 0) 1))))
        .skip)
       (.seq
        (.expr (.store (.var 1) (.load (.bin (.padd 1) (.load (.fld (.var 0) 0)) (.var 3)))))
        (.seq
         (.ite (.var 2)
          (.seq
           (.expr (.upd (.fld (.var 0) 2) (.arith .sub .size) (some .size) false (.num 1)))
           (.ite (.load (.fld (.var 0) 5))
            (.expr (.call .mu_task_call [.load (.fld (.var 0) 5)]))
            .skip))
          .skip)
         (.ret (.tobool (.num 1)))))))
     (.seq
      (.expr (.store (.var 1) .null))
      (.ret (.tobool (.num 0)))))

end Mu.CS.Src
