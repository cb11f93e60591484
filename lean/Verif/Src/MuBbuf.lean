import Verif.C.Src

/-! Generated by tools/csrc.py from /repo/mulib/mu_bbuf.c: do not edit. -/

namespace Mu.CS.Src

/-- `mu_bbuf_init_ro`, mu_bbuf.c:61-65.  Locals: 0 bbuf, 1 bytes, 2 capacity. -/
def mu_bbuf_init_ro : FunDef where
  params := 3
  locals := 0
  body :=
    (.seq
     (.expr (.store (.fld (.var 0) 0) (.var 1)))
     (.seq
      (.expr (.store (.fld (.var 0) 1) (.var 2)))
      (.ret (.var 0))))

/-- `mu_bbuf_init_rw`, mu_bbuf.c:67-71.  Locals: 0 bbuf, 1 bytes, 2 capacity. -/
def mu_bbuf_init_rw : FunDef where
  params := 3
  locals := 0
  body :=
    (.seq
     (.expr (.store (.fld (.var 0) 0) (.var 1)))
     (.seq
      (.expr (.store (.fld (.var 0) 1) (.var 2)))
      (.ret (.var 0))))

/-- `mu_bbuf_init_cstr`, mu_bbuf.c:74-78.  Locals: 0 bbuf, 1 cstr. -/
def mu_bbuf_init_cstr : FunDef where
  params := 2
  locals := 0
  body :=
    (.seq
     (.expr (.store (.fld (.var 0) 0) (.var 1)))
     (.seq
      (.expr (.store (.fld (.var 0) 1) (.call .strlen [.var 1])))
      (.ret (.var 0))))

/-- `mu_bbuf_copy`, mu_bbuf.c:80-84.  Locals: 0 dst, 1 src. -/
def mu_bbuf_copy : FunDef where
  params := 2
  locals := 0
  body :=
    (.seq
     (.expr (.store (.fld (.var 0) 0) (.load (.fld (.var 1) 0))))
     (.seq
      (.expr (.store (.fld (.var 0) 1) (.load (.fld (.var 1) 1))))
      (.ret (.var 0))))

/-- `mu_bbuf_bytes_ro`, mu_bbuf.c:86-88.  Locals: 0 bbuf. -/
def mu_bbuf_bytes_ro : FunDef where
  params := 1
  locals := 0
  body :=
    (.ret (.load (.fld (.var 0) 0)))

/-- `mu_bbuf_bytes_rw`, mu_bbuf.c:90-92.  Locals: 0 bbuf. -/
def mu_bbuf_bytes_rw : FunDef where
  params := 1
  locals := 0
  body :=
    (.ret (.load (.fld (.var 0) 0)))

/-- `mu_bbuf_capacity`, mu_bbuf.c:94.  Locals: 0 bbuf. -/
def mu_bbuf_capacity : FunDef where
  params := 1
  locals := 0
  body :=
    (.ret (.load (.fld (.var 0) 1)))

/-- `mu_bbuf_ref_ro`, mu_bbuf.c:96-102.  Locals: 0 bbuf, 1 index. -/
def mu_bbuf_ref_ro : FunDef where
  params := 2
  locals := 0
  body :=
    (.ite (.bin (.cmp .lt .size) (.var 1) (.load (.fld (.var 0) 1)))
     (.ret (.bin (.padd 1) (.load (.fld (.var 0) 0)) (.var 1)))
     (.ret .null))

/-- `mu_bbuf_ref_rw`, mu_bbuf.c:104-110.  Locals: 0 bbuf, 1 index. -/
def mu_bbuf_ref_rw : FunDef where
  params := 2
  locals := 0
  body :=
    (.ite (.bin (.cmp .lt .size) (.var 1) (.load (.fld (.var 0) 1)))
     (.ret (.bin (.padd 1) (.load (.fld (.var 0) 0)) (.var 1)))
     (.ret .null))

/-- `mu_bbuf_compare`, mu_bbuf.c:112-114.  Locals: 0 b1, 1 b2. -/
def mu_bbuf_compare : FunDef where
  params := 2
  locals := 0
  body :=
    (.ret (.call .str_compare_aux__bbuf [.var 0, .call .mu_bbuf_bytes_ro [.var 1], .cast .int (.call .mu_bbuf_capacity [.var 1])]))

/-- `mu_bbuf_compare_cstr`, mu_bbuf.c:116-118.  Locals: 0 b1, 1 cstr. -/
def mu_bbuf_compare_cstr : FunDef where
  params := 2
  locals := 0
  body :=
    (.ret (.call .str_compare_aux__bbuf [.var 0, .var 1, .cast .int (.call .strlen [.var 1])]))

/-- `mu_bbuf_slice`, mu_bbuf.c:120-143.  Locals: 0 dst, 1 src, 2 start, 3 end. -/
def mu_bbuf_slice : FunDef where
  params := 4
  locals := 0
  body :=
    (.seq
     (.ite (.bin (.cmp .lt .int) (.var 2) (.num 0))
      (.expr (.setv 2 (.cast .int (.bin (.arith .add .size) (.load (.fld (.var 1) 1)) (.var 2)))))
      (.ite (.lor (.bin (.cmp .gt .size) (.var 2) (.load (.fld (.var 1) 1))) (.bin (.cmp .eq .int) (.var 2) .intMax))
       (.expr (.setv 2 (.cast .int (.load (.fld (.var 1) 1)))))
       .skip))
     (.seq
      (.ite (.bin (.cmp .lt .int) (.var 3) (.num 0))
       (.expr (.setv 3 (.cast .int (.bin (.arith .add .size) (.load (.fld (.var 1) 1)) (.var 3)))))
       (.ite (.lor (.bin (.cmp .ge .size) (.var 3) (.load (.fld (.var 1) 1))) (.bin (.cmp .eq .int) (.var 3) .intMax))
        (.expr (.setv 3 (.cast .int (.load (.fld (.var 1) 1)))))
        .skip))
      (.seq
       (.ite (.bin (.cmp .lt .int) (.var 3) (.var 2))
        (.expr (.setv 3 (.var 2)))
        .skip)
       (.ret (.call .mu_bbuf_init_ro [.var 0, .bin (.padd 1) (.load (.fld (.var 1) 0)) (.var 2), .cast .size (.bin (.arith .sub .int) (.var 3) (.var 2))])))))

/-- `mu_bbuf_bisect`, mu_bbuf.c:145-164.  Locals: 0 left, 1 right, 2 src, 3 index, 4 src_capacity. -/
def mu_bbuf_bisect : FunDef where
  params := 4
  locals := 1
  body :=
    (.seq
     (.expr (.setv 4 (.cast .int (.call .mu_bbuf_capacity [.var 2]))))
     (.seq
      (.ite (.bin (.cmp .lt .int) (.var 3) (.num 0))
       (.expr (.setv 3 (.bin (.arith .add .int) (.var 4) (.var 3))))
       (.ite (.lor (.bin (.cmp .gt .int) (.var 3) (.var 4)) (.bin (.cmp .eq .int) (.var 3) .intMax))
        (.expr (.setv 3 (.var 4)))
        .skip))
      (.seq
       (.ite (.bin (.pcmp .ne) (.var 0) .null)
        (.expr (.call .mu_bbuf_init_ro [.var 0, .call .mu_bbuf_bytes_ro [.var 2], .cast .size (.var 3)]))
        .skip)
       (.seq
        (.ite (.bin (.pcmp .ne) (.var 1) .null)
         (.expr (.call .mu_bbuf_init_ro [.var 1, .bin (.padd 1) (.call .mu_bbuf_bytes_ro [.var 2]) (.var 3), .cast .size (.bin (.arith .sub .int) (.var 4) (.var 3))]))
         .skip)
        (.ret (.var 2))))))

/-- `mu_bbuf_matches`, mu_bbuf.c:166-168.  Locals: 0 b1, 1 b2. -/
def mu_bbuf_matches : FunDef where
  params := 2
  locals := 0
  body :=
    (.ret (.tobool (.bin (.cmp .eq .int) (.call .str_compare_aux__bbuf [.var 0, .call .mu_bbuf_bytes_ro [.var 1], .cast .int (.call .mu_bbuf_capacity [.var 1])]) (.num 0))))

/-- `mu_bbuf_matches_cstr`, mu_bbuf.c:170-172.  Locals: 0 b1, 1 cstr. -/
def mu_bbuf_matches_cstr : FunDef where
  params := 2
  locals := 0
  body :=
    (.ret (.tobool (.bin (.cmp .eq .int) (.call .str_compare_aux__bbuf [.var 0, .var 1, .cast .int (.call .strlen [.var 1])]) (.num 0))))

/-- `mu_bbuf_has_prefix`, mu_bbuf.c:174-176.  Locals: 0 b1, 1 b2. -/
def mu_bbuf_has_prefix : FunDef where
  params := 2
  locals := 0
  body :=
    (.ret (.call .has_prefix__bbuf [.var 0, .call .mu_bbuf_bytes_ro [.var 1], .cast .int (.call .mu_bbuf_capacity [.var 1])]))

/-- `mu_bbuf_has_prefix_cstr`, mu_bbuf.c:178-180.  Locals: 0 b1, 1 cstr. -/
def mu_bbuf_has_prefix_cstr : FunDef where
  params := 2
  locals := 0
  body :=
    (.ret (.call .has_prefix__bbuf [.var 0, .var 1, .cast .int (.call .strlen [.var 1])]))

/-- `mu_bbuf_has_suffix`, mu_bbuf.c:182-184.  Locals: 0 b1, 1 b2. -/
def mu_bbuf_has_suffix : FunDef where
  params := 2
  locals := 0
  body :=
    (.ret (.call .has_suffix__bbuf [.var 0, .call .mu_bbuf_bytes_ro [.var 1], .cast .int (.call .mu_bbuf_capacity [.var 1])]))

/-- `mu_bbuf_has_suffix_cstr`, mu_bbuf.c:186-188.  Locals: 0 b1, 1 cstr. -/
def mu_bbuf_has_suffix_cstr : FunDef where
  params := 2
  locals := 0
  body :=
    (.ret (.call .has_suffix__bbuf [.var 0, .var 1, .cast .int (.call .strlen [.var 1])]))

/-- `mu_bbuf_find_substr`, mu_bbuf.c:190-193.  Locals: 0 bbuf, 1 substr, 2 skip_substr. -/
def mu_bbuf_find_substr : FunDef where
  params := 3
  locals := 0
  body :=
    (.ret (.call .mu_bbuf_find_aux__bbuf [.var 0, .call .mu_bbuf_bytes_ro [.var 1], .cast .int (.call .mu_bbuf_capacity [.var 1]), .var 2]))

/-- `mu_bbuf_find_subcstr`, mu_bbuf.c:195-199.  Locals: 0 bbuf, 1 cstr, 2 skip_substr. -/
def mu_bbuf_find_subcstr : FunDef where
  params := 3
  locals := 0
  body :=
    (.ret (.call .mu_bbuf_find_aux__bbuf [.var 0, .var 1, .cast .int (.call .strlen [.var 1]), .var 2]))

/-- `mu_bbuf_rfind_substr`, mu_bbuf.c:201-204.  Locals: 0 bbuf, 1 substr, 2 skip_substr. -/
def mu_bbuf_rfind_substr : FunDef where
  params := 3
  locals := 0
  body :=
    (.ret (.call .mu_bbuf_rfind_aux__bbuf [.var 0, .call .mu_bbuf_bytes_ro [.var 1], .cast .int (.call .mu_bbuf_capacity [.var 1]), .var 2]))

/-- `mu_bbuf_rfind_subcstr`, mu_bbuf.c:206-210.  Locals: 0 bbuf, 1 cstr, 2 skip_substr. -/
def mu_bbuf_rfind_subcstr : FunDef where
  params := 3
  locals := 0
  body :=
    (.ret (.call .mu_bbuf_rfind_aux__bbuf [.var 0, .var 1, .cast .int (.call .strlen [.var 1]), .var 2]))

/-- A loop of `mu_bbuf_find_byte`, mu_bbuf.c:212-219. -/
def mu_bbuf_find_byte_loop1 : Stmt :=
  .loop (.bin (.cmp .lt .size) (.var 2) (.load (.fld (.var 0) 1))) (some (.updv 2 (.arith .add .int) (some .int) true (.num 1)))
   (.ite (.bin (.cmp .eq .int) (.load (.bin (.padd 1) (.load (.fld (.var 0) 0)) (.var 2))) (.var 1))
    (.ret (.var 2))
    .skip)

/-- `mu_bbuf_find_byte`, mu_bbuf.c:212-219.  Locals: 0 bbuf, 1 byte, 2 i. -/
def mu_bbuf_find_byte : FunDef where
  params := 2
  locals := 1
  body :=
    (.seq
     (.expr (.setv 2 (.num 0)))
     (.seq
      mu_bbuf_find_byte_loop1
      (.ret .intMax)))

/-- A loop of `mu_bbuf_rfind_byte`, mu_bbuf.c:221-228. -/
def mu_bbuf_rfind_byte_loop1 : Stmt :=
  .loop (.bin (.cmp .ge .int) (.var 2) (.num 0)) (some (.updv 2 (.arith .sub .int) (some .int) false (.num 1)))
   (.ite (.bin (.cmp .eq .int) (.load (.bin (.padd 1) (.load (.fld (.var 0) 0)) (.var 2))) (.var 1))
    (.ret (.var 2))
    .skip)

/-- `mu_bbuf_rfind_byte`, mu_bbuf.c:221-228.  Locals: 0 bbuf, 1 byte, 2 i. -/
def mu_bbuf_rfind_byte : FunDef where
  params := 2
  locals := 1
  body :=
    (.seq
     (.expr (.setv 2 (.cast .int (.bin (.arith .sub .size) (.load (.fld (.var 0) 1)) (.num 1)))))
     (.seq
      mu_bbuf_rfind_byte_loop1
      (.ret .intMax)))

/-- A loop of `mu_bbuf_find_predicate`, mu_bbuf.c:230-240. -/
def mu_bbuf_find_predicate_loop1 : Stmt :=
  .loop (.bin (.cmp .lt .int) (.var 5) (.var 3)) (some (.updv 5 (.arith .add .int) (some .int) true (.num 1)))
   (.ite (.lnot (.callp (.var 1) [.load (.updv 4 (.padd 1) none true (.num 1)), .var 2]))
    (.ret (.var 5))
    .skip)

/-- `mu_bbuf_find_predicate`, mu_bbuf.c:230-240.  Locals: 0 bbuf, 1 predicate, 2 arg, 3 bbuf_capacity, 4 bytes, 5 idx. -/
def mu_bbuf_find_predicate : FunDef where
  params := 3
  locals := 3
  body :=
    (.seq
     (.expr (.setv 3 (.cast .int (.call .mu_bbuf_capacity [.var 0]))))
     (.seq
      (.expr (.setv 4 (.call .mu_bbuf_bytes_ro [.var 0])))
      (.seq
       (.expr (.setv 5 (.num 0)))
       (.seq
        mu_bbuf_find_predicate_loop1
        (.ret .intMax)))))

/-- A loop of `mu_bbuf_rfind_predicate`, mu_bbuf.c:242-252. -/
def mu_bbuf_rfind_predicate_loop1 : Stmt :=
  .loop (.bin (.cmp .gt .int) (.var 5) (.num 0)) (some (.updv 5 (.arith .sub .int) (some .int) true (.num 1)))
   (.ite (.lnot (.callp (.var 1) [.load (.updv 4 (.psub 1) none false (.num 1)), .var 2]))
    (.ret (.bin (.arith .sub .int) (.var 5) (.num 1)))
    .skip)

/-- `mu_bbuf_rfind_predicate`, mu_bbuf.c:242-252.  Locals: 0 bbuf, 1 predicate, 2 arg, 3 bbuf_capacity, 4 bytes, 5 idx. -/
def mu_bbuf_rfind_predicate : FunDef where
  params := 3
  locals := 3
  body :=
    (.seq
     (.expr (.setv 3 (.cast .int (.call .mu_bbuf_capacity [.var 0]))))
     (.seq
      (.expr (.setv 4 (.bin (.padd 1) (.call .mu_bbuf_bytes_ro [.var 0]) (.var 3))))
      (.seq
       (.expr (.setv 5 (.var 3)))
       (.seq
        mu_bbuf_rfind_predicate_loop1
        (.ret .intMax)))))

/-- `mu_bbuf_trim`, mu_bbuf.c:254-258.  Locals: 0 dst, 1 bbuf, 2 predicate, 3 arg. -/
def mu_bbuf_trim : FunDef where
  params := 4
  locals := 0
  body :=
    (.ret (.call .mu_bbuf_rtrim [.var 0, .call .mu_bbuf_ltrim [.var 0, .var 1, .var 2, .var 3], .var 2, .var 3]))

/-- `mu_bbuf_ltrim`, mu_bbuf.c:260-269.  Locals: 0 dst, 1 bbuf, 2 predicate, 3 arg, 4 idx. -/
def mu_bbuf_ltrim : FunDef where
  params := 4
  locals := 1
  body :=
    (.seq
     (.expr (.setv 4 (.call .mu_bbuf_find_predicate [.var 1, .var 2, .var 3])))
     (.ite (.bin (.cmp .eq .int) (.var 4) .intMax)
      (.ret (.call .mu_bbuf_copy [.var 0, .var 1]))
      (.ret (.call .mu_bbuf_slice [.var 0, .var 1, .var 4, .intMax]))))

/-- `mu_bbuf_rtrim`, mu_bbuf.c:271-280.  Locals: 0 dst, 1 bbuf, 2 predicate, 3 arg, 4 idx. -/
def mu_bbuf_rtrim : FunDef where
  params := 4
  locals := 1
  body :=
    (.seq
     (.expr (.setv 4 (.call .mu_bbuf_rfind_predicate [.var 1, .var 2, .var 3])))
     (.ite (.bin (.cmp .eq .int) (.var 4) .intMax)
      (.ret (.call .mu_bbuf_copy [.var 0, .var 1]))
      (.ret (.call .mu_bbuf_slice [.var 0, .var 1, .num 0, .var 4]))))

/-- A loop of `mu_bbuf_parse_int`, mu_bbuf.c:312-312. -/
def mu_bbuf_parse_int_loop1 : Stmt :=
  .loop (.land (.bin (.cmp .gt .int) (.updv 2 (.arith .sub .int) (some .int) true (.num 1)) (.num 0)) (.call .is_decimal__bbuf [.load (.var 1)])) none
   (.expr (.setv 3 (.bin (.arith .add .int) (.bin (.arith .mul .int) (.var 3) (.num 10)) (.bin (.arith .sub .int) (.load (.updv 1 (.padd 1) none true (.num 1))) (.num 48)))))

/-- `mu_bbuf_parse_int`, mu_bbuf.c:312.  Locals: 0 bbuf, 1 buf, 2 len, 3 v, 4 is_negative. -/
def mu_bbuf_parse_int : FunDef where
  params := 1
  locals := 4
  body :=
    (.seq
     (.expr (.setv 1 (.call .mu_bbuf_bytes_ro [.var 0])))
     (.seq
      (.expr (.setv 2 (.cast .int (.call .mu_bbuf_capacity [.var 0]))))
      (.seq
       (.expr (.setv 3 (.num 0)))
       (.seq
        (.expr (.setv 4 (.tobool (.num 0))))
        (.seq
         (.ite (.land (.bin (.cmp .ge .int) (.var 2) (.num 1)) (.bin (.cmp .eq .int) (.load (.var 1)) (.num 45)))
          (.seq
           (.expr (.updv 2 (.arith .sub .int) (some .int) false (.num 1)))
           (.seq
            (.expr (.updv 1 (.padd 1) none true (.num 1)))
            (.expr (.setv 4 (.tobool (.num 1))))))
          .skip)
         (.seq
          mu_bbuf_parse_int_loop1
          (.ret (.cond (.var 4) (.neg .int (.var 3)) (.var 3)))))))))

/-- A loop of `mu_bbuf_parse_unsigned_int`, mu_bbuf.c:313-313. -/
def mu_bbuf_parse_unsigned_int_loop1 : Stmt :=
  .loop (.land (.bin (.cmp .gt .int) (.updv 2 (.arith .sub .int) (some .int) true (.num 1)) (.num 0)) (.call .is_decimal__bbuf [.load (.var 1)])) none
   (.expr (.setv 3 (.bin (.arith .add .uint) (.bin (.arith .mul .uint) (.var 3) (.num 10)) (.bin (.arith .sub .int) (.load (.updv 1 (.padd 1) none true (.num 1))) (.num 48)))))

/-- `mu_bbuf_parse_unsigned_int`, mu_bbuf.c:313.  Locals: 0 bbuf, 1 buf, 2 len, 3 v. -/
def mu_bbuf_parse_unsigned_int : FunDef where
  params := 1
  locals := 3
  body :=
    (.seq
     (.expr (.setv 1 (.call .mu_bbuf_bytes_ro [.var 0])))
     (.seq
      (.expr (.setv 2 (.cast .int (.call .mu_bbuf_capacity [.var 0]))))
      (.seq
       (.expr (.setv 3 (.num 0)))
       (.seq
        mu_bbuf_parse_unsigned_int_loop1
        (.ret (.var 3))))))

/-- A loop of `mu_bbuf_parse_int8`, mu_bbuf.c:314-314. -/
def mu_bbuf_parse_int8_loop1 : Stmt :=
  .loop (.land (.bin (.cmp .gt .int) (.updv 2 (.arith .sub .int) (some .int) true (.num 1)) (.num 0)) (.call .is_decimal__bbuf [.load (.var 1)])) none
   (.expr (.setv 3 (.cast .i8 (.bin (.arith .add .int) (.bin (.arith .mul .int) (.var 3) (.num 10)) (.bin (.arith .sub .int) (.load (.updv 1 (.padd 1) none true (.num 1))) (.num 48))))))

/-- `mu_bbuf_parse_int8`, mu_bbuf.c:314.  Locals: 0 bbuf, 1 buf, 2 len, 3 v, 4 is_negative. -/
def mu_bbuf_parse_int8 : FunDef where
  params := 1
  locals := 4
  body :=
    (.seq
     (.expr (.setv 1 (.call .mu_bbuf_bytes_ro [.var 0])))
     (.seq
      (.expr (.setv 2 (.cast .int (.call .mu_bbuf_capacity [.var 0]))))
      (.seq
       (.expr (.setv 3 (.num 0)))
       (.seq
        (.expr (.setv 4 (.tobool (.num 0))))
        (.seq
         (.ite (.land (.bin (.cmp .ge .int) (.var 2) (.num 1)) (.bin (.cmp .eq .int) (.load (.var 1)) (.num 45)))
          (.seq
           (.expr (.updv 2 (.arith .sub .int) (some .int) false (.num 1)))
           (.seq
            (.expr (.updv 1 (.padd 1) none true (.num 1)))
            (.expr (.setv 4 (.tobool (.num 1))))))
          .skip)
         (.seq
          mu_bbuf_parse_int8_loop1
          (.ret (.cast .i8 (.cond (.var 4) (.neg .int (.var 3)) (.cast .int (.var 3)))))))))))

/-- A loop of `mu_bbuf_parse_uint8`, mu_bbuf.c:315-315. -/
def mu_bbuf_parse_uint8_loop1 : Stmt :=
  .loop (.land (.bin (.cmp .gt .int) (.updv 2 (.arith .sub .int) (some .int) true (.num 1)) (.num 0)) (.call .is_decimal__bbuf [.load (.var 1)])) none
   (.expr (.setv 3 (.cast .u8 (.bin (.arith .add .int) (.bin (.arith .mul .int) (.var 3) (.num 10)) (.bin (.arith .sub .int) (.load (.updv 1 (.padd 1) none true (.num 1))) (.num 48))))))

/-- `mu_bbuf_parse_uint8`, mu_bbuf.c:315.  Locals: 0 bbuf, 1 buf, 2 len, 3 v. -/
def mu_bbuf_parse_uint8 : FunDef where
  params := 1
  locals := 3
  body :=
    (.seq
     (.expr (.setv 1 (.call .mu_bbuf_bytes_ro [.var 0])))
     (.seq
      (.expr (.setv 2 (.cast .int (.call .mu_bbuf_capacity [.var 0]))))
      (.seq
       (.expr (.setv 3 (.num 0)))
       (.seq
        mu_bbuf_parse_uint8_loop1
        (.ret (.var 3))))))

/-- A loop of `mu_bbuf_parse_int16`, mu_bbuf.c:316-316. -/
def mu_bbuf_parse_int16_loop1 : Stmt :=
  .loop (.land (.bin (.cmp .gt .int) (.updv 2 (.arith .sub .int) (some .int) true (.num 1)) (.num 0)) (.call .is_decimal__bbuf [.load (.var 1)])) none
   (.expr (.setv 3 (.cast .i16 (.bin (.arith .add .int) (.bin (.arith .mul .int) (.var 3) (.num 10)) (.bin (.arith .sub .int) (.load (.updv 1 (.padd 1) none true (.num 1))) (.num 48))))))

/-- `mu_bbuf_parse_int16`, mu_bbuf.c:316.  Locals: 0 bbuf, 1 buf, 2 len, 3 v, 4 is_negative. -/
def mu_bbuf_parse_int16 : FunDef where
  params := 1
  locals := 4
  body :=
    (.seq
     (.expr (.setv 1 (.call .mu_bbuf_bytes_ro [.var 0])))
     (.seq
      (.expr (.setv 2 (.cast .int (.call .mu_bbuf_capacity [.var 0]))))
      (.seq
       (.expr (.setv 3 (.num 0)))
       (.seq
        (.expr (.setv 4 (.tobool (.num 0))))
        (.seq
         (.ite (.land (.bin (.cmp .ge .int) (.var 2) (.num 1)) (.bin (.cmp .eq .int) (.load (.var 1)) (.num 45)))
          (.seq
           (.expr (.updv 2 (.arith .sub .int) (some .int) false (.num 1)))
           (.seq
            (.expr (.updv 1 (.padd 1) none true (.num 1)))
            (.expr (.setv 4 (.tobool (.num 1))))))
          .skip)
         (.seq
          mu_bbuf_parse_int16_loop1
          (.ret (.cast .i16 (.cond (.var 4) (.neg .int (.var 3)) (.cast .int (.var 3)))))))))))

/-- A loop of `mu_bbuf_parse_uint16`, mu_bbuf.c:317-317. -/
def mu_bbuf_parse_uint16_loop1 : Stmt :=
  .loop (.land (.bin (.cmp .gt .int) (.updv 2 (.arith .sub .int) (some .int) true (.num 1)) (.num 0)) (.call .is_decimal__bbuf [.load (.var 1)])) none
   (.expr (.setv 3 (.cast .u16 (.bin (.arith .add (.common .u16 .int)) (.bin (.arith .mul (.common .u16 .int)) (.var 3) (.num 10)) (.bin (.arith .sub .int) (.load (.updv 1 (.padd 1) none true (.num 1))) (.num 48))))))

/-- `mu_bbuf_parse_uint16`, mu_bbuf.c:317.  Locals: 0 bbuf, 1 buf, 2 len, 3 v. -/
def mu_bbuf_parse_uint16 : FunDef where
  params := 1
  locals := 3
  body :=
    (.seq
     (.expr (.setv 1 (.call .mu_bbuf_bytes_ro [.var 0])))
     (.seq
      (.expr (.setv 2 (.cast .int (.call .mu_bbuf_capacity [.var 0]))))
      (.seq
       (.expr (.setv 3 (.num 0)))
       (.seq
        mu_bbuf_parse_uint16_loop1
        (.ret (.var 3))))))

/-- A loop of `mu_bbuf_parse_int32`, mu_bbuf.c:318-318. -/
def mu_bbuf_parse_int32_loop1 : Stmt :=
  .loop (.land (.bin (.cmp .gt .int) (.updv 2 (.arith .sub .int) (some .int) true (.num 1)) (.num 0)) (.call .is_decimal__bbuf [.load (.var 1)])) none
   (.expr (.setv 3 (.cast .i32 (.bin (.arith .add (.common .i32 .int)) (.bin (.arith .mul (.common .i32 .int)) (.var 3) (.num 10)) (.bin (.arith .sub .int) (.load (.updv 1 (.padd 1) none true (.num 1))) (.num 48))))))

/-- `mu_bbuf_parse_int32`, mu_bbuf.c:318.  Locals: 0 bbuf, 1 buf, 2 len, 3 v, 4 is_negative. -/
def mu_bbuf_parse_int32 : FunDef where
  params := 1
  locals := 4
  body :=
    (.seq
     (.expr (.setv 1 (.call .mu_bbuf_bytes_ro [.var 0])))
     (.seq
      (.expr (.setv 2 (.cast .int (.call .mu_bbuf_capacity [.var 0]))))
      (.seq
       (.expr (.setv 3 (.num 0)))
       (.seq
        (.expr (.setv 4 (.tobool (.num 0))))
        (.seq
         (.ite (.land (.bin (.cmp .ge .int) (.var 2) (.num 1)) (.bin (.cmp .eq .int) (.load (.var 1)) (.num 45)))
          (.seq
           (.expr (.updv 2 (.arith .sub .int) (some .int) false (.num 1)))
           (.seq
            (.expr (.updv 1 (.padd 1) none true (.num 1)))
            (.expr (.setv 4 (.tobool (.num 1))))))
          .skip)
         (.seq
          mu_bbuf_parse_int32_loop1
          (.ret (.cast .i32 (.cond (.var 4) (.neg (.common .i32 .int) (.var 3)) (.cast (.common .i32 .int) (.var 3)))))))))))

/-- A loop of `mu_bbuf_parse_uint32`, mu_bbuf.c:319-319. -/
def mu_bbuf_parse_uint32_loop1 : Stmt :=
  .loop (.land (.bin (.cmp .gt .int) (.updv 2 (.arith .sub .int) (some .int) true (.num 1)) (.num 0)) (.call .is_decimal__bbuf [.load (.var 1)])) none
   (.expr (.setv 3 (.cast .u32 (.bin (.arith .add (.common .u32 .int)) (.bin (.arith .mul (.common .u32 .int)) (.var 3) (.num 10)) (.bin (.arith .sub .int) (.load (.updv 1 (.padd 1) none true (.num 1))) (.num 48))))))

/-- `mu_bbuf_parse_uint32`, mu_bbuf.c:319.  Locals: 0 bbuf, 1 buf, 2 len, 3 v. -/
def mu_bbuf_parse_uint32 : FunDef where
  params := 1
  locals := 3
  body :=
    (.seq
     (.expr (.setv 1 (.call .mu_bbuf_bytes_ro [.var 0])))
     (.seq
      (.expr (.setv 2 (.cast .int (.call .mu_bbuf_capacity [.var 0]))))
      (.seq
       (.expr (.setv 3 (.num 0)))
       (.seq
        mu_bbuf_parse_uint32_loop1
        (.ret (.var 3))))))

/-- A loop of `mu_bbuf_parse_int64`, mu_bbuf.c:320-320. -/
def mu_bbuf_parse_int64_loop1 : Stmt :=
  .loop (.land (.bin (.cmp .gt .int) (.updv 2 (.arith .sub .int) (some .int) true (.num 1)) (.num 0)) (.call .is_decimal__bbuf [.load (.var 1)])) none
   (.expr (.setv 3 (.cast .i64 (.bin (.arith .add (.common .i64 .int)) (.bin (.arith .mul (.common .i64 .int)) (.var 3) (.num 10)) (.bin (.arith .sub .int) (.load (.updv 1 (.padd 1) none true (.num 1))) (.num 48))))))

/-- `mu_bbuf_parse_int64`, mu_bbuf.c:320.  Locals: 0 bbuf, 1 buf, 2 len, 3 v, 4 is_negative. -/
def mu_bbuf_parse_int64 : FunDef where
  params := 1
  locals := 4
  body :=
    (.seq
     (.expr (.setv 1 (.call .mu_bbuf_bytes_ro [.var 0])))
     (.seq
      (.expr (.setv 2 (.cast .int (.call .mu_bbuf_capacity [.var 0]))))
      (.seq
       (.expr (.setv 3 (.num 0)))
       (.seq
        (.expr (.setv 4 (.tobool (.num 0))))
        (.seq
         (.ite (.land (.bin (.cmp .ge .int) (.var 2) (.num 1)) (.bin (.cmp .eq .int) (.load (.var 1)) (.num 45)))
          (.seq
           (.expr (.updv 2 (.arith .sub .int) (some .int) false (.num 1)))
           (.seq
            (.expr (.updv 1 (.padd 1) none true (.num 1)))
            (.expr (.setv 4 (.tobool (.num 1))))))
          .skip)
         (.seq
          mu_bbuf_parse_int64_loop1
          (.ret (.cast .i64 (.cond (.var 4) (.neg (.common .i64 .int) (.var 3)) (.cast (.common .i64 .int) (.var 3)))))))))))

/-- A loop of `mu_bbuf_parse_uint64`, mu_bbuf.c:321-321. -/
def mu_bbuf_parse_uint64_loop1 : Stmt :=
  .loop (.land (.bin (.cmp .gt .int) (.updv 2 (.arith .sub .int) (some .int) true (.num 1)) (.num 0)) (.call .is_decimal__bbuf [.load (.var 1)])) none
   (.expr (.setv 3 (.cast .u64 (.bin (.arith .add (.common .u64 .int)) (.bin (.arith .mul (.common .u64 .int)) (.var 3) (.num 10)) (.bin (.arith .sub .int) (.load (.updv 1 (.padd 1) none true (.num 1))) (.num 48))))))

/-- `mu_bbuf_parse_uint64`, mu_bbuf.c:321.  Locals: 0 bbuf, 1 buf, 2 len, 3 v. -/
def mu_bbuf_parse_uint64 : FunDef where
  params := 1
  locals := 3
  body :=
    (.seq
     (.expr (.setv 1 (.call .mu_bbuf_bytes_ro [.var 0])))
     (.seq
      (.expr (.setv 2 (.cast .int (.call .mu_bbuf_capacity [.var 0]))))
      (.seq
       (.expr (.setv 3 (.num 0)))
       (.seq
        mu_bbuf_parse_uint64_loop1
        (.ret (.var 3))))))

/-- A loop of `mu_bbuf_parse_hex`, mu_bbuf.c:323-344. -/
def mu_bbuf_parse_hex_loop1 : Stmt :=
  .loop (.bin (.cmp .gt .int) (.updv 2 (.arith .sub .int) (some .int) true (.num 1)) (.num 0)) none
   (.seq
    (.expr (.setv 4 (.cast .char (.load (.updv 1 (.padd 1) none true (.num 1))))))
    (.ite (.land (.bin (.cmp .ge .int) (.var 4) (.num 48)) (.bin (.cmp .le .int) (.var 4) (.num 57)))
     (.seq
      (.expr (.updv 3 (.arith .shl .uint) (some .uint) false (.num 4)))
      (.expr (.updv 3 (.arith .add .uint) (some .uint) false (.bin (.arith .sub .int) (.var 4) (.num 48)))))
     (.ite (.land (.bin (.cmp .ge .int) (.var 4) (.num 97)) (.bin (.cmp .le .int) (.var 4) (.num 102)))
      (.seq
       (.expr (.updv 3 (.arith .shl .uint) (some .uint) false (.num 4)))
       (.expr (.updv 3 (.arith .add .uint) (some .uint) false (.bin (.arith .add .int) (.bin (.arith .sub .int) (.var 4) (.num 97)) (.num 10)))))
      (.ite (.land (.bin (.cmp .ge .int) (.var 4) (.num 65)) (.bin (.cmp .le .int) (.var 4) (.num 70)))
       (.seq
        (.expr (.updv 3 (.arith .shl .uint) (some .uint) false (.num 4)))
        (.expr (.updv 3 (.arith .add .uint) (some .uint) false (.bin (.arith .add .int) (.bin (.arith .sub .int) (.var 4) (.num 65)) (.num 10)))))
       .brk))))

/-- `mu_bbuf_parse_hex`, mu_bbuf.c:323-344.  Locals: 0 bbuf, 1 buf, 2 len, 3 v, 4 ch. -/
def mu_bbuf_parse_hex : FunDef where
  params := 1
  locals := 4
  body :=
    (.seq
     (.expr (.setv 1 (.call .mu_bbuf_bytes_ro [.var 0])))
     (.seq
      (.expr (.setv 2 (.cast .int (.call .mu_bbuf_capacity [.var 0]))))
      (.seq
       (.expr (.setv 3 (.num 0)))
       (.seq
        mu_bbuf_parse_hex_loop1
        (.ret (.var 3))))))

/-- `mu_bbuf_get_byte`, mu_bbuf.c:349-355.  Locals: 0 bbuf, 1 index, 2 byte. -/
def mu_bbuf_get_byte : FunDef where
  params := 3
  locals := 0
  body :=
    (.seq
     (.ite (.bin (.cmp .ge .size) (.var 1) (.load (.fld (.var 0) 1)))
      (.ret (.tobool (.num 0)))
      .skip)
     (.seq
      (.expr (.store (.var 2) (.load (.bin (.padd 1) (.load (.fld (.var 0) 0)) (.var 1)))))
      (.ret (.tobool (.num 1)))))

/-- `mu_bbuf_put_byte`, mu_bbuf.c:357-363.  Locals: 0 bbuf_rw, 1 index, 2 byte. -/
def mu_bbuf_put_byte : FunDef where
  params := 3
  locals := 0
  body :=
    (.seq
     (.ite (.bin (.cmp .ge .size) (.var 1) (.load (.fld (.var 0) 1)))
      (.ret (.tobool (.num 0)))
      .skip)
     (.seq
      (.expr (.store (.bin (.padd 1) (.load (.fld (.var 0) 0)) (.var 1)) (.var 2)))
      (.ret (.tobool (.num 1)))))

/-- `mu_bbuf_clear`, mu_bbuf.c:365-368.  Locals: 0 bbuf_rw. -/
def mu_bbuf_clear : FunDef where
  params := 1
  locals := 0
  body :=
    (.seq
     (.expr (.call .memset [.load (.fld (.var 0) 0), .num 0, .load (.fld (.var 0) 1)]))
     (.ret (.var 0)))

/-- A loop of `mu_bbuf_copy_into`, mu_bbuf.c:370-406. -/
def mu_bbuf_copy_into_loop1 : Stmt :=
  .loop (.bin (.cmp .lt .int) (.var 10) (.var 3)) (some (.updv 10 (.arith .add .int) (some .int) true (.num 1)))
   (.expr (.store (.bin (.padd 1) (.load (.fld (.var 0) 0)) (.bin (.arith .add .size) (.var 5) (.var 10))) (.load (.bin (.padd 1) (.load (.fld (.var 1) 0)) (.bin (.arith .add .size) (.var 4) (.var 10))))))

/-- `mu_bbuf_copy_into`, mu_bbuf.c:370-406.  Locals: 0 dst_rw, 1 src_ro, 2 offset, 3 count, 4 src_idx, 5 dst_idx, 6 src_len, 7 dst_len, 8 src_avail, 9 dst_avail, 10 i. -/
def mu_bbuf_copy_into : FunDef where
  params := 3
  locals := 8
  body :=
    (.seq
     (.expr (.setv 3 (.num 0)))
     (.seq
      (.expr (.setv 4 (.num 0)))
      (.seq
       (.expr (.setv 5 (.num 0)))
       (.seq
        (.expr (.setv 6 (.call .mu_bbuf_capacity [.var 1])))
        (.seq
         (.expr (.setv 7 (.call .mu_bbuf_capacity [.var 0])))
         (.seq
          (.undef 8)
          (.seq
           (.undef 9)
           (.seq
            (.ite (.bin (.cmp .gt .int) (.var 2) (.num 0))
             (.seq
              (.expr (.setv 5 (.cast .size (.var 2))))
              (.ite (.bin (.cmp .ge .size) (.var 5) (.var 7))
               (.ret (.num 0))
               (.expr (.setv 9 (.bin (.arith .sub .size) (.var 7) (.var 5))))))
             (.ite (.bin (.cmp .lt .int) (.var 2) (.num 0))
              (.seq
               (.expr (.setv 4 (.cast .size (.neg .int (.var 2)))))
               (.ite (.bin (.cmp .ge .size) (.var 4) (.var 6))
                (.ret (.num 0))
                (.expr (.setv 8 (.bin (.arith .sub .size) (.var 6) (.var 4))))))
              .skip))
            (.seq
             (.ite (.land (.var 8) (.var 9))
              (.seq
               (.expr (.setv 3 (.cast .int (.cond (.bin (.cmp .lt .size) (.var 8) (.var 9)) (.var 8) (.var 9)))))
               (.seq
                (.expr (.setv 10 (.num 0)))
                mu_bbuf_copy_into_loop1))
              .skip)
             (.ret (.var 3)))))))))))

/-- A loop of `mu_bbuf_reverse`, mu_bbuf.c:408-418. -/
def mu_bbuf_reverse_loop1 : Stmt :=
  .loop (.bin (.pcmp .lt) (.var 1) (.var 2)) none
   (.seq
    (.expr (.setv 3 (.load (.var 1))))
    (.seq
     (.expr (.store (.updv 1 (.padd 1) none true (.num 1)) (.load (.var 2))))
     (.expr (.store (.updv 2 (.psub 1) none true (.num 1)) (.var 3)))))

/-- `mu_bbuf_reverse`, mu_bbuf.c:408-418.  Locals: 0 bbuf_rw, 1 front, 2 back, 3 temp. -/
def mu_bbuf_reverse : FunDef where
  params := 1
  locals := 3
  body :=
    (.seq
     (.expr (.setv 1 (.bin (.padd 1) (.load (.fld (.var 0) 0)) (.num 0))))
     (.seq
      (.expr (.setv 2 (.bin (.padd 1) (.load (.fld (.var 0) 0)) (.bin (.arith .sub .size) (.load (.fld (.var 0) 1)) (.num 1)))))
      (.seq
       mu_bbuf_reverse_loop1
       (.ret (.var 0)))))

/-- A loop of `mu_bbuf_rrotate`, mu_bbuf.c:420-447. -/
def mu_bbuf_rrotate_loop1 : Stmt :=
  .loop (.bin (.cmp .ge .int) (.var 1) (.var 2)) none
   (.expr (.updv 1 (.arith .sub .int) (some .int) false (.var 2)))

/-- A loop of `mu_bbuf_rrotate`, mu_bbuf.c:420-447. -/
def mu_bbuf_rrotate_loop2 : Stmt :=
  .loop (.bin (.cmp .lt .int) (.var 1) (.num 0)) none
   (.expr (.updv 1 (.arith .add .int) (some .int) false (.var 2)))

/-- `mu_bbuf_rrotate`, mu_bbuf.c:420-447.  Locals: 0 bbuf_rw, 1 shift, 2 capacity, 3 left, 4 right. -/
def mu_bbuf_rrotate : FunDef where
  params := 2
  locals := 3
  mems := [(3, 2), (4, 2)]
  body :=
    (.seq
     (.expr (.setv 2 (.cast .int (.load (.fld (.var 0) 1)))))
     (.seq
      mu_bbuf_rrotate_loop1
      (.seq
       mu_bbuf_rrotate_loop2
       (.seq
        (.ite (.bin (.cmp .gt .int) (.var 1) (.num 0))
         (.seq
          (.expr (.call .mu_bbuf_reverse [.var 0]))
          (.seq
           (.expr (.call .mu_bbuf_bisect [.var 3, .var 4, .var 0, .var 1]))
           (.seq
            (.expr (.call .mu_bbuf_reverse [.var 3]))
            (.expr (.call .mu_bbuf_reverse [.var 4])))))
         .skip)
        (.ret (.var 0))))))

/-- `mu_bbuf_rshift`, mu_bbuf.c:449-477.  Locals: 0 bbuf_rw, 1 shift, 2 capacity, 3 shift_left. -/
def mu_bbuf_rshift : FunDef where
  params := 2
  locals := 2
  body :=
    (.seq
     (.expr (.setv 2 (.load (.fld (.var 0) 1))))
     (.seq
      (.undef 3)
      (.seq
       (.ite (.bin (.cmp .lt .int) (.var 1) (.num 0))
        (.seq
         (.expr (.setv 3 (.tobool (.num 1))))
         (.expr (.setv 1 (.neg .int (.var 1)))))
        (.expr (.setv 3 (.tobool (.num 0)))))
       (.seq
        (.ite (.bin (.cmp .eq .int) (.var 1) (.num 0))
         (.ret (.var 0))
         (.ite (.bin (.cmp .ge .size) (.var 1) (.var 2))
          (.ret (.call .mu_bbuf_clear [.var 0]))
          .skip))
        (.seq
         (.ite (.var 3)
          (.seq
           (.expr (.call .memmove [.load (.fld (.var 0) 0), .bin (.padd 1) (.load (.fld (.var 0) 0)) (.var 1), .bin (.arith .sub .size) (.var 2) (.var 1)]))
           (.expr (.call .memset [.bin (.padd 1) (.load (.fld (.var 0) 0)) (.bin (.arith .sub .size) (.var 2) (.var 1)), .num 0, .cast .size (.var 1)])))
          (.seq
           (.expr (.call .memmove [.bin (.padd 1) (.load (.fld (.var 0) 0)) (.var 1), .load (.fld (.var 0) 0), .bin (.arith .sub .size) (.var 2) (.var 1)]))
           (.expr (.call .memset [.load (.fld (.var 0) 0), .num 0, .cast .size (.var 1)]))))
         (.ret (.var 0)))))))

/-- A loop of `str_compare_aux`, mu_bbuf.c:482-495. -/
def str_compare_aux__bbuf_loop1 : Stmt :=
  .loop (.bin (.cmp .lt .int) (.var 6) (.var 5)) (some (.updv 6 (.arith .add .int) (some .int) true (.num 1)))
   (.seq
    (.expr (.setv 7 (.bin (.arith .sub .int) (.load (.bin (.padd 1) (.var 3) (.var 6))) (.load (.bin (.padd 1) (.var 1) (.var 6))))))
    (.ite (.bin (.cmp .ne .int) (.var 7) (.num 0))
     (.ret (.var 7))
     .skip))

/-- `str_compare_aux`, mu_bbuf.c:482-495.  Locals: 0 bbuf, 1 b2, 2 len2, 3 b1, 4 len1, 5 len, 6 i, 7 d. -/
def str_compare_aux__bbuf : FunDef where
  params := 3
  locals := 5
  body :=
    (.seq
     (.expr (.setv 3 (.call .mu_bbuf_bytes_ro [.var 0])))
     (.seq
      (.expr (.setv 4 (.cast .int (.call .mu_bbuf_capacity [.var 0]))))
      (.seq
       (.expr (.setv 5 (.cond (.bin (.cmp .lt .int) (.var 4) (.var 2)) (.var 4) (.var 2))))
       (.seq
        (.expr (.setv 6 (.num 0)))
        (.seq
         str_compare_aux__bbuf_loop1
         (.ret (.bin (.arith .sub .int) (.var 4) (.var 2))))))))

/-- A loop of `has_prefix`, mu_bbuf.c:497-514. -/
def has_prefix__bbuf_loop1 : Stmt :=
  .loop (.land (.bin (.cmp .lt .int) (.var 5) (.var 4)) (.bin (.cmp .lt .int) (.var 5) (.var 2))) (some (.updv 5 (.arith .add .int) (some .int) true (.num 1)))
   (.ite (.bin (.cmp .ne .int) (.load (.updv 3 (.padd 1) none true (.num 1))) (.load (.updv 1 (.padd 1) none true (.num 1))))
    .brk
    .skip)

/-- `has_prefix`, mu_bbuf.c:497-514.  Locals: 0 bbuf, 1 b2, 2 len2, 3 b1, 4 len1, 5 idx. -/
def has_prefix__bbuf : FunDef where
  params := 3
  locals := 3
  body :=
    (.seq
     (.expr (.setv 3 (.call .mu_bbuf_bytes_ro [.var 0])))
     (.seq
      (.expr (.setv 4 (.cast .int (.call .mu_bbuf_capacity [.var 0]))))
      (.seq
       (.undef 5)
       (.seq
        (.ite (.bin (.cmp .eq .int) (.var 2) (.num 0))
         (.ret (.tobool (.num 1)))
         (.ite (.bin (.cmp .gt .int) (.var 2) (.var 4))
          (.ret (.tobool (.num 0)))
          .skip))
        (.seq
         (.expr (.setv 5 (.num 0)))
         (.seq
          has_prefix__bbuf_loop1
          (.ret (.tobool (.bin (.cmp .eq .int) (.var 5) (.var 2))))))))))

/-- A loop of `has_suffix`, mu_bbuf.c:516-537. -/
def has_suffix__bbuf_loop1 : Stmt :=
  .loop (.land (.bin (.cmp .lt .int) (.var 5) (.var 4)) (.bin (.cmp .lt .int) (.var 5) (.var 2))) (some (.updv 5 (.arith .add .int) (some .int) true (.num 1)))
   (.ite (.bin (.cmp .ne .int) (.load (.updv 3 (.psub 1) none false (.num 1))) (.load (.updv 1 (.psub 1) none false (.num 1))))
    .brk
    .skip)

/-- `has_suffix`, mu_bbuf.c:516-537.  Locals: 0 bbuf, 1 b2, 2 len2, 3 b1, 4 len1, 5 idx. -/
def has_suffix__bbuf : FunDef where
  params := 3
  locals := 3
  body :=
    (.seq
     (.expr (.setv 3 (.call .mu_bbuf_bytes_ro [.var 0])))
     (.seq
      (.expr (.setv 4 (.cast .int (.call .mu_bbuf_capacity [.var 0]))))
      (.seq
       (.undef 5)
       (.seq
        (.ite (.bin (.cmp .eq .int) (.var 2) (.num 0))
         (.ret (.tobool (.num 1)))
         (.ite (.bin (.cmp .gt .int) (.var 2) (.var 4))
          (.ret (.tobool (.num 0)))
          .skip))
        (.seq
         (.expr (.setv 3 (.bin (.padd 1) (.var 3) (.var 4))))
         (.seq
          (.expr (.setv 1 (.bin (.padd 1) (.var 1) (.var 2))))
          (.seq
           (.expr (.setv 5 (.num 0)))
           (.seq
            has_suffix__bbuf_loop1
            (.ret (.tobool (.bin (.cmp .eq .int) (.var 5) (.var 2))))))))))))

/-- A loop of `mu_bbuf_find_aux`, mu_bbuf.c:539-573. -/
def mu_bbuf_find_aux__bbuf_loop1 : Stmt :=
  .loop (.bin (.cmp .lt .int) (.var 6) (.var 2)) (some (.updv 6 (.arith .add .int) (some .int) true (.num 1)))
   (.ite (.bin (.cmp .ne .int) (.load (.bin (.padd 1) (.var 8) (.var 6))) (.load (.bin (.padd 1) (.var 1) (.var 6))))
    .brk
    .skip)

/-- A loop of `mu_bbuf_find_aux`, mu_bbuf.c:539-573. -/
def mu_bbuf_find_aux__bbuf_loop2 : Stmt :=
  .loop (.bin (.cmp .le .int) (.var 7) (.bin (.arith .sub .int) (.var 5) (.var 2))) (some (.updv 7 (.arith .add .int) (some .int) true (.num 1)))
   (.seq
    (.expr (.setv 8 (.bin (.padd 1) (.var 4) (.var 7))))
    (.ite (.bin (.cmp .eq .int) (.load (.var 8)) (.load (.var 1)))
     (.seq
      (.expr (.setv 6 (.num 1)))
      (.seq
       mu_bbuf_find_aux__bbuf_loop1
       (.ite (.bin (.cmp .eq .int) (.var 6) (.var 2))
        (.ret (.cond (.var 3) (.bin (.arith .add .int) (.var 7) (.var 2)) (.var 7)))
        .skip)))
     .skip))

/-- `mu_bbuf_find_aux`, mu_bbuf.c:539-573.  Locals: 0 bbuf, 1 substr, 2 substr_len, 3 skip_substr, 4 hay_bytes, 5 hay_len, 6 j, 7 i, 8 h2. -/
def mu_bbuf_find_aux__bbuf : FunDef where
  params := 4
  locals := 5
  body :=
    (.seq
     (.expr (.setv 4 (.call .mu_bbuf_bytes_ro [.var 0])))
     (.seq
      (.expr (.setv 5 (.cast .int (.call .mu_bbuf_capacity [.var 0]))))
      (.seq
       (.undef 6)
       (.seq
        (.ite (.bin (.cmp .eq .int) (.var 2) (.num 0))
         (.ret (.num 0))
         .skip)
        (.seq
         (.expr (.setv 7 (.num 0)))
         (.seq
          mu_bbuf_find_aux__bbuf_loop2
          (.ret .intMax)))))))

/-- A loop of `mu_bbuf_rfind_aux`, mu_bbuf.c:575-609. -/
def mu_bbuf_rfind_aux__bbuf_loop1 : Stmt :=
  .loop (.bin (.cmp .lt .int) (.var 6) (.var 2)) (some (.updv 6 (.arith .add .int) (some .int) true (.num 1)))
   (.ite (.bin (.cmp .ne .int) (.load (.bin (.padd 1) (.var 8) (.var 6))) (.load (.bin (.padd 1) (.var 1) (.var 6))))
    .brk
    .skip)

/-- A loop of `mu_bbuf_rfind_aux`, mu_bbuf.c:575-609. -/
def mu_bbuf_rfind_aux__bbuf_loop2 : Stmt :=
  .loop (.bin (.cmp .ge .int) (.var 7) (.num 0)) (some (.updv 7 (.arith .sub .int) (some .int) false (.num 1)))
   (.seq
    (.expr (.setv 8 (.bin (.padd 1) (.var 4) (.var 7))))
    (.ite (.bin (.cmp .eq .int) (.load (.var 8)) (.load (.var 1)))
     (.seq
      (.expr (.setv 6 (.num 1)))
      (.seq
       mu_bbuf_rfind_aux__bbuf_loop1
       (.ite (.bin (.cmp .eq .int) (.var 6) (.var 2))
        (.ret (.cond (.var 3) (.bin (.arith .add .int) (.var 7) (.var 2)) (.var 7)))
        .skip)))
     .skip))

/-- `mu_bbuf_rfind_aux`, mu_bbuf.c:575-609.  Locals: 0 bbuf, 1 substr, 2 substr_len, 3 skip_substr, 4 hay_bytes, 5 hay_len, 6 j, 7 i, 8 h2. -/
def mu_bbuf_rfind_aux__bbuf : FunDef where
  params := 4
  locals := 5
  body :=
    (.seq
     (.expr (.setv 4 (.call .mu_bbuf_bytes_ro [.var 0])))
     (.seq
      (.expr (.setv 5 (.cast .int (.call .mu_bbuf_capacity [.var 0]))))
      (.seq
       (.undef 6)
       (.seq
        (.ite (.bin (.cmp .eq .int) (.var 2) (.num 0))
         (.ret (.var 5))
         .skip)
        (.seq
         (.expr (.setv 7 (.bin (.arith .sub .int) (.var 5) (.var 2))))
         (.seq
          mu_bbuf_rfind_aux__bbuf_loop2
          (.ret .intMax)))))))

/-- `is_decimal`, mu_bbuf.c:611-616.  Locals: 0 byte. -/
def is_decimal__bbuf : FunDef where
  params := 1
  locals := 0
  body :=
    (.seq
     (.ite (.land (.bin (.cmp .ge .int) (.var 0) (.num 48)) (.bin (.cmp .le .int) (.var 0) (.num 57)))
      (.ret (.tobool (.num 1)))
      .skip)
     (.ret (.tobool (.num 0))))

end Mu.CS.Src
