import Verif.C.Src

/-! Generated by tools/csrc.py from /repo/mulib/mu_queue.c: do not edit. -/

namespace Mu.CS.Src

/-- `mu_queue_init`, mu_queue.c:56-61.  Locals: 0 queue, 1 storage, 2 capacity. -/
def mu_queue_init : FunDef where
  params := 3
  locals := 0
  body :=
    (.seq
     (.expr (.store (.fld (.var 0) 0) (.var 1)))
     (.seq
      (.expr (.store (.fld (.var 0) 1) (.var 2)))
      (.ret (.call .mu_queue_reset [.var 0]))))

/-- `mu_queue_reset`, mu_queue.c:63-67.  Locals: 0 queue. -/
def mu_queue_reset : FunDef where
  params := 1
  locals := 0
  body :=
    (.seq
     (.expr (.store (.fld (.var 0) 2) (.num 0)))
     (.seq
      (.expr (.store (.fld (.var 0) 3) (.num 0)))
      (.ret (.var 0))))

/-- `mu_queue_capacity`, mu_queue.c:69.  Locals: 0 queue. -/
def mu_queue_capacity : FunDef where
  params := 1
  locals := 0
  body :=
    (.ret (.load (.fld (.var 0) 1)))

/-- `mu_queue_count`, mu_queue.c:71.  Locals: 0 queue. -/
def mu_queue_count : FunDef where
  params := 1
  locals := 0
  body :=
    (.ret (.load (.fld (.var 0) 2)))

/-- `mu_queue_is_empty`, mu_queue.c:73.  Locals: 0 queue. -/
def mu_queue_is_empty : FunDef where
  params := 1
  locals := 0
  body :=
    (.ret (.tobool (.bin (.cmp .eq .size) (.load (.fld (.var 0) 2)) (.num 0))))

/-- `mu_queue_is_full`, mu_queue.c:75-77.  Locals: 0 queue. -/
def mu_queue_is_full : FunDef where
  params := 1
  locals := 0
  body :=
    (.ret (.tobool (.bin (.cmp .eq .size) (.load (.fld (.var 0) 2)) (.load (.fld (.var 0) 1)))))

/-- `mu_queue_put`, mu_queue.c:79-88.  Locals: 0 queue, 1 element. -/
def mu_queue_put : FunDef where
  params := 2
  locals := 0
  body :=
    (.ite (.lnot (.call .mu_queue_is_full [.var 0]))
     (.seq
      (.expr (.store (.bin (.padd 1) (.load (.fld (.var 0) 0)) (.load (.fld (.var 0) 3))) (.var 1)))
      (.seq
       (.expr (.store (.fld (.var 0) 3) (.bin (.arith .mod .size) (.bin (.arith .add .size) (.load (.fld (.var 0) 3)) (.num 1)) (.load (.fld (.var 0) 1)))))
       (.seq
        (.expr (.upd (.fld (.var 0) 2) (.arith .add .size) (some .size) false (.num 1)))
        (.ret (.tobool (.num 1))))))
     (.ret (.tobool (.num 0))))

/-- `mu_queue_get`, mu_queue.c:90-92.  Locals: 0 queue, 1 element. -/
def mu_queue_get : FunDef where
  params := 2
  locals := 0
  body :=
    (.ret (.call .access_queue__queue [.var 0, .var 1, .tobool (.num 1)]))

/-- `mu_queue_peek`, mu_queue.c:94-96.  Locals: 0 queue, 1 element. -/
def mu_queue_peek : FunDef where
  params := 2
  locals := 0
  body :=
    (.ret (.call .access_queue__queue [.var 0, .var 1, .tobool (.num 0)]))

/-- `access_queue`, mu_queue.c:101-117.  Locals: 0 queue, 1 element, 2 fetch, 3 idx. -/
def access_queue__queue : FunDef where
  params := 3
  locals := 1
  body :=
    (.ite (.lnot (.call .mu_queue_is_empty [.var 0]))
     (.seq
      (.expr (.setv 3 (.bin (.arith .sub .size) (.bin (.arith .add .size) (.load (.fld (.var 0) 1)) (.load (.fld (.var 0) 3))) (.load (.fld (.var 0) 2)))))
      (.seq
       (.ite (.bin (.cmp .ge .size) (.var 3) (.load (.fld (.var 0) 1)))
        (.expr (.updv 3 (.arith .sub .size) (some .size) false (.load (.fld (.var 0) 1))))
        .skip)
       (.seq
        (.expr (.store (.var 1) (.load (.bin (.padd 1) (.load (.fld (.var 0) 0)) (.var 3)))))
        (.seq
         (.ite (.var 2)
          (.expr (.upd (.fld (.var 0) 2) (.arith .sub .size) (some .size) false (.num 1)))
          .skip)
         (.ret (.tobool (.num 1)))))))
     (.seq
      (.expr (.store (.var 1) .null))
      (.ret (.tobool (.num 0)))))

end Mu.CS.Src
