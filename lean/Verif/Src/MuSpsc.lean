import Verif.C.Src

/-! Generated by tools/csrc.py from /repo/mulib/mu_spsc.c: do not edit. -/

namespace Mu.CS.Src

/-- `mu_spsc_init`, mu_spsc.c:46-54.  Locals: 0 q, 1 store, 2 store_size. -/
def mu_spsc_init : FunDef where
  params := 3
  locals := 0
  body :=
    (.seq
     (.ite (.lor (.bin (.cmp .lt (.common .u16 .int)) (.var 2) (.num 2)) (.lnot (.bin (.cmp .eq (.common .u16 .int)) (.bin (.arith .band (.common .u16 .int)) (.var 2) (.bin (.arith .sub (.common .u16 .int)) (.var 2) (.num 1))) (.num 0))))
      (.ret (.num 3))
      .skip)
     (.seq
      (.expr (.store (.fld (.var 0) 3) (.var 1)))
      (.seq
       (.expr (.store (.fld (.var 0) 0) (.cast .u16 (.bin (.arith .sub (.common .u16 .int)) (.var 2) (.num 1)))))
       (.ret (.call .mu_spsc_reset [.var 0])))))

/-- `mu_spsc_reset`, mu_spsc.c:56-60.  Locals: 0 q. -/
def mu_spsc_reset : FunDef where
  params := 1
  locals := 0
  body :=
    (.seq
     (.expr (.store (.fld (.var 0) 1) (.num 0)))
     (.seq
      (.expr (.store (.fld (.var 0) 2) (.num 0)))
      (.ret (.num 0))))

/-- `mu_spsc_capacity`, mu_spsc.c:62.  Locals: 0 q. -/
def mu_spsc_capacity : FunDef where
  params := 1
  locals := 0
  body :=
    (.ret (.load (.fld (.var 0) 0)))

/-- `mu_spsc_put`, mu_spsc.c:67-79.  Locals: 0 q, 1 item, 2 err, 3 next_tail. -/
def mu_spsc_put : FunDef where
  params := 2
  locals := 2
  body :=
    (.seq
     (.expr (.setv 2 (.num 0)))
     (.seq
      (.expr (.setv 3 (.cast .u16 (.bin (.arith .band (.common .u16 .int)) (.bin (.arith .add (.common .u16 .int)) (.load (.fld (.var 0) 2)) (.num 1)) (.load (.fld (.var 0) 0))))))
      (.seq
       (.ite (.bin (.cmp .eq (.common .u16 .int)) (.var 3) (.load (.fld (.var 0) 1)))
        (.expr (.setv 2 (.num 2)))
        (.seq
         (.expr (.store (.bin (.padd 1) (.load (.fld (.var 0) 3)) (.load (.fld (.var 0) 2))) (.var 1)))
         (.expr (.store (.fld (.var 0) 2) (.var 3)))))
       (.ret (.var 2)))))

/-- `mu_spsc_get`, mu_spsc.c:84-96.  Locals: 0 q, 1 item, 2 err. -/
def mu_spsc_get : FunDef where
  params := 2
  locals := 1
  body :=
    (.seq
     (.expr (.setv 2 (.num 0)))
     (.seq
      (.ite (.bin (.cmp .eq (.common .u16 .int)) (.load (.fld (.var 0) 1)) (.load (.fld (.var 0) 2)))
       (.seq
        (.expr (.setv 2 (.num 1)))
        (.expr (.store (.var 1) .null)))
       (.seq
        (.expr (.store (.var 1) (.load (.bin (.padd 1) (.load (.fld (.var 0) 3)) (.load (.fld (.var 0) 1))))))
        (.expr (.store (.fld (.var 0) 1) (.cast .u16 (.bin (.arith .band (.common .u16 .int)) (.bin (.arith .add (.common .u16 .int)) (.load (.fld (.var 0) 1)) (.num 1)) (.load (.fld (.var 0) 0))))))))
      (.ret (.var 2))))

end Mu.CS.Src
