import Verif.C.Src

/-! Generated by tools/csrc.py from /repo/mulib/mu_bvec.c: do not edit. -/

namespace Mu.CS.Src

/-- `mu_bvec_init`, mu_bvec.c:47-50.  Locals: 0 bvec, 1 bbuf. -/
def mu_bvec_init : FunDef where
  params := 2
  locals := 0
  body :=
    (.seq
     (.expr (.call .mu_bbuf_copy [.fld (.var 0) 0, .var 1]))
     (.ret (.call .mu_bvec_reset [.var 0])))

/-- `mu_bvec_init_ro`, mu_bvec.c:52-55.  Locals: 0 bvec, 1 bytes, 2 capacity. -/
def mu_bvec_init_ro : FunDef where
  params := 3
  locals := 0
  body :=
    (.seq
     (.expr (.call .mu_bbuf_init_ro [.fld (.var 0) 0, .var 1, .var 2]))
     (.ret (.call .mu_bvec_reset [.var 0])))

/-- `mu_bvec_init_rw`, mu_bvec.c:57-60.  Locals: 0 bvec, 1 bytes, 2 capacity. -/
def mu_bvec_init_rw : FunDef where
  params := 3
  locals := 0
  body :=
    (.seq
     (.expr (.call .mu_bbuf_init_rw [.fld (.var 0) 0, .var 1, .var 2]))
     (.ret (.call .mu_bvec_reset [.var 0])))

/-- `mu_bvec_reset`, mu_bvec.c:62-65.  Locals: 0 bvec. -/
def mu_bvec_reset : FunDef where
  params := 1
  locals := 0
  body :=
    (.seq
     (.expr (.store (.fld (.var 0) 2) (.num 0)))
     (.ret (.var 0)))

/-- `mu_bvec_get_bbuf`, mu_bvec.c:67-69.  Locals: 0 bvec. -/
def mu_bvec_get_bbuf : FunDef where
  params := 1
  locals := 0
  body :=
    (.ret (.fld (.var 0) 0))

/-- `mu_bvec_get_capacity`, mu_bvec.c:71-73.  Locals: 0 bvec. -/
def mu_bvec_get_capacity : FunDef where
  params := 1
  locals := 0
  body :=
    (.ret (.call .mu_bbuf_capacity [.fld (.var 0) 0]))

/-- `mu_bvec_get_count`, mu_bvec.c:75-77.  Locals: 0 bvec. -/
def mu_bvec_get_count : FunDef where
  params := 1
  locals := 0
  body :=
    (.ret (.load (.fld (.var 0) 2)))

/-- `mu_bvec_set_count`, mu_bvec.c:79-81.  Locals: 0 bvec, 1 count. -/
def mu_bvec_set_count : FunDef where
  params := 2
  locals := 0
  body :=
    (.expr (.store (.fld (.var 0) 2) (.var 1)))

/-- `mu_bvec_get_available`, mu_bvec.c:83-90.  Locals: 0 bvec, 1 capacity. -/
def mu_bvec_get_available : FunDef where
  params := 1
  locals := 1
  body :=
    (.seq
     (.expr (.setv 1 (.call .mu_bbuf_capacity [.fld (.var 0) 0])))
     (.ite (.bin (.cmp .gt .size) (.load (.fld (.var 0) 2)) (.var 1))
      (.ret (.num 0))
      (.ret (.bin (.arith .sub .size) (.var 1) (.load (.fld (.var 0) 2))))))

/-- `mu_bvec_ref_ro`, mu_bvec.c:92-94.  Locals: 0 bvec, 1 index. -/
def mu_bvec_ref_ro : FunDef where
  params := 2
  locals := 0
  body :=
    (.ret (.call .mu_bbuf_ref_ro [.fld (.var 0) 0, .var 1]))

/-- `mu_bvec_ref_rw`, mu_bvec.c:96-98.  Locals: 0 bvec, 1 index. -/
def mu_bvec_ref_rw : FunDef where
  params := 2
  locals := 0
  body :=
    (.ret (.call .mu_bbuf_ref_rw [.fld (.var 0) 0, .var 1]))

/-- `mu_bvec_read_byte`, mu_bvec.c:100-108.  Locals: 0 bvec, 1 byte, 2 p. -/
def mu_bvec_read_byte : FunDef where
  params := 2
  locals := 1
  body :=
    (.seq
     (.expr (.setv 2 (.call .mu_bvec_ref_ro [.var 0, .upd (.fld (.var 0) 2) (.arith .add .size) (some .size) true (.num 1)])))
     (.ite (.bin (.pcmp .eq) (.var 2) .null)
      (.ret (.tobool (.num 0)))
      (.seq
       (.expr (.store (.var 1) (.load (.var 2))))
       (.ret (.tobool (.num 1))))))

/-- `mu_bvec_write_byte`, mu_bvec.c:110-118.  Locals: 0 bvec, 1 byte, 2 p. -/
def mu_bvec_write_byte : FunDef where
  params := 2
  locals := 1
  body :=
    (.seq
     (.expr (.setv 2 (.call .mu_bvec_ref_rw [.var 0, .upd (.fld (.var 0) 2) (.arith .add .size) (some .size) true (.num 1)])))
     (.ite (.bin (.pcmp .eq) (.var 2) .null)
      (.ret (.tobool (.num 0)))
      (.seq
       (.expr (.store (.var 2) (.var 1)))
       (.ret (.tobool (.num 1))))))

end Mu.CS.Src
