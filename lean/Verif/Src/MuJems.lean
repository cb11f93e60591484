import Verif.C.Src

/-! Generated by tools/csrc.py from /repo/mulib/mu_jems.c: do not edit. -/

namespace Mu.CS.Src

/-- `mu_jems_init`, mu_jems.c:62-70.  Locals: 0 jems, 1 levels, 2 max_level, 3 writer, 4 arg. -/
def mu_jems_init : FunDef where
  params := 5
  locals := 0
  body :=
    (.seq
     (.expr (.store (.fld (.var 0) 0) (.var 1)))
     (.seq
      (.expr (.store (.fld (.var 0) 1) (.var 2)))
      (.seq
       (.expr (.store (.fld (.var 0) 3) (.var 3)))
       (.seq
        (.expr (.store (.fld (.var 0) 4) (.var 4)))
        (.ret (.call .mu_jems_reset [.var 0]))))))

/-- `mu_jems_reset`, mu_jems.c:72-77.  Locals: 0 jems. -/
def mu_jems_reset : FunDef where
  params := 1
  locals := 0
  body :=
    (.seq
     (.expr (.store (.fld (.var 0) 2) (.num 0)))
     (.seq
      (.expr (.store (.fld (.call .level_ref__jems [.var 0]) 0) (.num 0)))
      (.seq
       (.expr (.store (.fld (.call .level_ref__jems [.var 0]) 1) (.tobool (.num 0))))
       (.ret (.var 0)))))

/-- `mu_jems_object_open`, mu_jems.c:79-83.  Locals: 0 jems. -/
def mu_jems_object_open : FunDef where
  params := 1
  locals := 0
  body :=
    (.seq
     (.expr (.call .commify__jems [.var 0]))
     (.seq
      (.expr (.call .emit_char__jems [.var 0, .num 123]))
      (.ret (.call .push_level__jems [.var 0, .tobool (.num 1)]))))

/-- `mu_jems_object_close`, mu_jems.c:85-88.  Locals: 0 jems. -/
def mu_jems_object_close : FunDef where
  params := 1
  locals := 0
  body :=
    (.seq
     (.expr (.call .emit_char__jems [.var 0, .num 125]))
     (.ret (.call .pop_level__jems [.var 0])))

/-- `mu_jems_array_open`, mu_jems.c:90-94.  Locals: 0 jems. -/
def mu_jems_array_open : FunDef where
  params := 1
  locals := 0
  body :=
    (.seq
     (.expr (.call .commify__jems [.var 0]))
     (.seq
      (.expr (.call .emit_char__jems [.var 0, .num 91]))
      (.ret (.call .push_level__jems [.var 0, .tobool (.num 0)]))))

/-- `mu_jems_array_close`, mu_jems.c:96-99.  Locals: 0 jems. -/
def mu_jems_array_close : FunDef where
  params := 1
  locals := 0
  body :=
    (.seq
     (.expr (.call .emit_char__jems [.var 0, .num 93]))
     (.ret (.call .pop_level__jems [.var 0])))

/-- `mu_jems_number`, mu_jems.c:101-112.  Locals: 0 jems, 1 value, 2 buf, 3 i. -/
def mu_jems_number : FunDef where
  params := 2
  locals := 2
  mems := [(2, 22)]
  body :=
    (.seq
     (.expr (.setv 3 (.dtoi .i64 (.var 1))))
     (.seq
      (.ite (.bin .deq (.itod (.var 3)) (.var 1))
       (.expr (.call .snprintf [.var 2, .num 22, .str [37, 108, 108, 100], .cast (.common .i64 .int) (.var 3)]))
       (.expr (.call .snprintf [.var 2, .num 22, .str [37, 108, 102], .var 1])))
      (.seq
       (.expr (.call .commify__jems [.var 0]))
       (.ret (.call .emit_string__jems [.var 0, .var 2])))))

/-- `mu_jems_integer`, mu_jems.c:114-119.  Locals: 0 jems, 1 value, 2 buf. -/
def mu_jems_integer : FunDef where
  params := 2
  locals := 1
  mems := [(2, 22)]
  body :=
    (.seq
     (.expr (.call .snprintf [.var 2, .num 22, .str [37, 108, 108, 100], .cast (.common .i64 .int) (.var 1)]))
     (.seq
      (.expr (.call .commify__jems [.var 0]))
      (.ret (.call .emit_string__jems [.var 0, .var 2]))))

/-- `mu_jems_string`, mu_jems.c:121-126.  Locals: 0 jems, 1 string. -/
def mu_jems_string : FunDef where
  params := 2
  locals := 0
  body :=
    (.seq
     (.expr (.call .commify__jems [.var 0]))
     (.seq
      (.expr (.call .emit_char__jems [.var 0, .num 34]))
      (.seq
       (.expr (.call .emit_quoted_string__jems [.var 0, .var 1]))
       (.ret (.call .emit_char__jems [.var 0, .num 34])))))

/-- `mu_jems_bytes`, mu_jems.c:128-133.  Locals: 0 jems, 1 bytes, 2 length. -/
def mu_jems_bytes : FunDef where
  params := 3
  locals := 0
  body :=
    (.seq
     (.expr (.call .commify__jems [.var 0]))
     (.seq
      (.expr (.call .emit_char__jems [.var 0, .num 34]))
      (.seq
       (.expr (.call .emit_quoted_bytes__jems [.var 0, .var 1, .var 2]))
       (.ret (.call .emit_char__jems [.var 0, .num 34])))))

/-- `mu_jems_bool`, mu_jems.c:135-138.  Locals: 0 jems, 1 boolean. -/
def mu_jems_bool : FunDef where
  params := 2
  locals := 0
  body :=
    (.seq
     (.expr (.call .commify__jems [.var 0]))
     (.ret (.call .emit_string__jems [.var 0, .cond (.var 1) (.str [116, 114, 117, 101]) (.str [102, 97, 108, 115, 101])])))

/-- `mu_jems_true`, mu_jems.c:140-143.  Locals: 0 jems. -/
def mu_jems_true : FunDef where
  params := 1
  locals := 0
  body :=
    (.seq
     (.expr (.call .commify__jems [.var 0]))
     (.ret (.call .emit_string__jems [.var 0, .str [116, 114, 117, 101]])))

/-- `mu_jems_false`, mu_jems.c:145-148.  Locals: 0 jems. -/
def mu_jems_false : FunDef where
  params := 1
  locals := 0
  body :=
    (.seq
     (.expr (.call .commify__jems [.var 0]))
     (.ret (.call .emit_string__jems [.var 0, .str [102, 97, 108, 115, 101]])))

/-- `mu_jems_null`, mu_jems.c:150-153.  Locals: 0 jems. -/
def mu_jems_null : FunDef where
  params := 1
  locals := 0
  body :=
    (.seq
     (.expr (.call .commify__jems [.var 0]))
     (.ret (.call .emit_string__jems [.var 0, .str [110, 117, 108, 108]])))

/-- A loop of `mu_jems_literal`, mu_jems.c:155-163. -/
def mu_jems_literal_loop1 : Stmt :=
  .loop (.bin (.cmp .lt .size) (.var 3) (.var 2)) (some (.updv 3 (.arith .add .int) (some .int) true (.num 1)))
   (.seq
    (.expr (.setv 4 (.cast .u8 (.load (.bin (.padd 1) (.var 1) (.var 3))))))
    (.expr (.call .emit_char__jems [.var 0, .cast .char (.var 4)])))

/-- `mu_jems_literal`, mu_jems.c:155-163.  Locals: 0 jems, 1 literal, 2 n_bytes, 3 i, 4 b. -/
def mu_jems_literal : FunDef where
  params := 3
  locals := 2
  body :=
    (.seq
     (.expr (.call .commify__jems [.var 0]))
     (.seq
      (.expr (.setv 3 (.num 0)))
      (.seq
       mu_jems_literal_loop1
       (.ret (.var 0)))))

/-- `mu_jems_key_object_open`, mu_jems.c:168-170.  Locals: 0 jems, 1 key. -/
def mu_jems_key_object_open : FunDef where
  params := 2
  locals := 0
  body :=
    (.ret (.call .mu_jems_object_open [.call .mu_jems_string [.var 0, .var 1]]))

/-- `mu_jems_key_array_open`, mu_jems.c:172-174.  Locals: 0 jems, 1 key. -/
def mu_jems_key_array_open : FunDef where
  params := 2
  locals := 0
  body :=
    (.ret (.call .mu_jems_array_open [.call .mu_jems_string [.var 0, .var 1]]))

/-- `mu_jems_key_number`, mu_jems.c:176-178.  Locals: 0 jems, 1 key, 2 value. -/
def mu_jems_key_number : FunDef where
  params := 3
  locals := 0
  body :=
    (.ret (.call .mu_jems_number [.call .mu_jems_string [.var 0, .var 1], .var 2]))

/-- `mu_jems_key_integer`, mu_jems.c:180-183.  Locals: 0 jems, 1 key, 2 value. -/
def mu_jems_key_integer : FunDef where
  params := 3
  locals := 0
  body :=
    (.ret (.call .mu_jems_integer [.call .mu_jems_string [.var 0, .var 1], .var 2]))

/-- `mu_jems_key_string`, mu_jems.c:185-188.  Locals: 0 jems, 1 key, 2 string. -/
def mu_jems_key_string : FunDef where
  params := 3
  locals := 0
  body :=
    (.ret (.call .mu_jems_string [.call .mu_jems_string [.var 0, .var 1], .var 2]))

/-- `mu_jems_key_bytes`, mu_jems.c:190-193.  Locals: 0 jems, 1 key, 2 bytes, 3 length. -/
def mu_jems_key_bytes : FunDef where
  params := 4
  locals := 0
  body :=
    (.ret (.call .mu_jems_bytes [.call .mu_jems_string [.var 0, .var 1], .var 2, .var 3]))

/-- `mu_jems_key_bool`, mu_jems.c:195-197.  Locals: 0 jems, 1 key, 2 boolean. -/
def mu_jems_key_bool : FunDef where
  params := 3
  locals := 0
  body :=
    (.ret (.call .mu_jems_bool [.call .mu_jems_string [.var 0, .var 1], .var 2]))

/-- `mu_jems_key_true`, mu_jems.c:199-201.  Locals: 0 jems, 1 key. -/
def mu_jems_key_true : FunDef where
  params := 2
  locals := 0
  body :=
    (.ret (.call .mu_jems_true [.call .mu_jems_string [.var 0, .var 1]]))

/-- `mu_jems_key_false`, mu_jems.c:203-205.  Locals: 0 jems, 1 key. -/
def mu_jems_key_false : FunDef where
  params := 2
  locals := 0
  body :=
    (.ret (.call .mu_jems_false [.call .mu_jems_string [.var 0, .var 1]]))

/-- `mu_jems_key_null`, mu_jems.c:207-209.  Locals: 0 jems, 1 key. -/
def mu_jems_key_null : FunDef where
  params := 2
  locals := 0
  body :=
    (.ret (.call .mu_jems_null [.call .mu_jems_string [.var 0, .var 1]]))

/-- `mu_jems_key_literal`, mu_jems.c:211-214.  Locals: 0 jems, 1 key, 2 literal, 3 n_bytes. -/
def mu_jems_key_literal : FunDef where
  params := 4
  locals := 0
  body :=
    (.ret (.call .mu_jems_literal [.call .mu_jems_string [.var 0, .var 1], .var 2, .var 3]))

/-- `mu_jems_curr_level`, mu_jems.c:216.  Locals: 0 jems. -/
def mu_jems_curr_level : FunDef where
  params := 1
  locals := 0
  body :=
    (.ret (.load (.fld (.var 0) 2)))

/-- `mu_jems_item_count`, mu_jems.c:218-220.  Locals: 0 jems. -/
def mu_jems_item_count : FunDef where
  params := 1
  locals := 0
  body :=
    (.ret (.load (.fld (.call .level_ref__jems [.var 0]) 0)))

/-- `push_level`, mu_jems.c:225-232.  Locals: 0 jems, 1 is_object. -/
def push_level__jems : FunDef where
  params := 2
  locals := 0
  body :=
    (.seq
     (.ite (.bin (.cmp .lt .size) (.load (.fld (.var 0) 2)) (.bin (.arith .sub .size) (.load (.fld (.var 0) 1)) (.num 1)))
      (.seq
       (.expr (.upd (.fld (.var 0) 2) (.arith .add .size) (some .size) false (.num 1)))
       (.seq
        (.expr (.store (.fld (.call .level_ref__jems [.var 0]) 0) (.num 0)))
        (.expr (.store (.fld (.call .level_ref__jems [.var 0]) 1) (.var 1)))))
      .skip)
     (.ret (.var 0)))

/-- `pop_level`, mu_jems.c:234-239.  Locals: 0 jems. -/
def pop_level__jems : FunDef where
  params := 1
  locals := 0
  body :=
    (.seq
     (.ite (.bin (.cmp .gt .size) (.load (.fld (.var 0) 2)) (.num 0))
      (.expr (.upd (.fld (.var 0) 2) (.arith .sub .size) (some .size) false (.num 1)))
      .skip)
     (.ret (.var 0)))

/-- `emit_char`, mu_jems.c:241-244.  Locals: 0 jems, 1 ch. -/
def emit_char__jems : FunDef where
  params := 2
  locals := 0
  body :=
    (.seq
     (.expr (.callp (.load (.fld (.var 0) 3)) [.var 1, .load (.fld (.var 0) 4)]))
     (.ret (.var 0)))

/-- `emit_quoted_byte`, mu_jems.c:246-258.  Locals: 0 jems, 1 byte, 2 buf. -/
def emit_quoted_byte__jems : FunDef where
  params := 2
  locals := 1
  mems := [(2, 7)]
  body :=
    (.seq
     (.ite (.lor (.bin (.cmp .lt .int) (.var 1) (.num 32)) (.bin (.cmp .ge .int) (.var 1) (.num 127)))
      (.seq
       (.expr (.call .sprintf [.var 2, .str [92, 117, 37, 48, 52, 120], .cast .int (.var 1)]))
       (.expr (.call .emit_string__jems [.var 0, .var 2])))
      (.seq
       (.ite (.lor (.bin (.cmp .eq .int) (.var 1) (.num 92)) (.bin (.cmp .eq .int) (.var 1) (.num 34)))
        (.expr (.call .emit_char__jems [.var 0, .num 92]))
        .skip)
       (.expr (.call .emit_char__jems [.var 0, .cast .char (.var 1)]))))
     (.ret (.var 0)))

/-- A loop of `emit_string`, mu_jems.c:260-265. -/
def emit_string__jems_loop1 : Stmt :=
  .loop (.load (.var 1)) none
   (.expr (.call .emit_char__jems [.var 0, .load (.updv 1 (.padd 1) none true (.num 1))]))

/-- `emit_string`, mu_jems.c:260-265.  Locals: 0 jems, 1 s. -/
def emit_string__jems : FunDef where
  params := 2
  locals := 0
  body :=
    (.seq
     emit_string__jems_loop1
     (.ret (.var 0)))

/-- A loop of `emit_quoted_string`, mu_jems.c:267-272. -/
def emit_quoted_string__jems_loop1 : Stmt :=
  .loop (.load (.var 1)) none
   (.expr (.call .emit_quoted_byte__jems [.var 0, .cast .u8 (.load (.updv 1 (.padd 1) none true (.num 1)))]))

/-- `emit_quoted_string`, mu_jems.c:267-272.  Locals: 0 jems, 1 s. -/
def emit_quoted_string__jems : FunDef where
  params := 2
  locals := 0
  body :=
    (.seq
     emit_quoted_string__jems_loop1
     (.ret (.var 0)))

/-- A loop of `emit_quoted_bytes`, mu_jems.c:274-281. -/
def emit_quoted_bytes__jems_loop1 : Stmt :=
  .loop (.bin (.cmp .lt .size) (.var 3) (.var 2)) (some (.updv 3 (.arith .add .int) (some .int) true (.num 1)))
   (.seq
    (.expr (.setv 4 (.load (.bin (.padd 1) (.var 1) (.var 3)))))
    (.expr (.call .emit_quoted_byte__jems [.var 0, .var 4])))

/-- `emit_quoted_bytes`, mu_jems.c:274-281.  Locals: 0 jems, 1 bytes, 2 len, 3 i, 4 b. -/
def emit_quoted_bytes__jems : FunDef where
  params := 3
  locals := 2
  body :=
    (.seq
     (.expr (.setv 3 (.num 0)))
     (.seq
      emit_quoted_bytes__jems_loop1
      (.ret (.var 0))))

/-- `commify`, mu_jems.c:283-304.  Locals: 0 jems, 1 level, 2 count. -/
def commify__jems : FunDef where
  params := 1
  locals := 2
  body :=
    (.seq
     (.expr (.setv 1 (.call .level_ref__jems [.var 0])))
     (.seq
      (.expr (.setv 2 (.load (.fld (.var 1) 0))))
      (.seq
       (.ite (.load (.fld (.var 1) 1))
        (.ite (.bin (.cmp .gt .size) (.var 2) (.num 0))
         (.expr (.call .emit_char__jems [.var 0, .cast .char (.cond (.bin (.arith .band .size) (.var 2) (.num 1)) (.num 58) (.num 44))]))
         .skip)
        (.ite (.bin (.cmp .gt .size) (.var 2) (.num 0))
         (.expr (.call .emit_char__jems [.var 0, .num 44]))
         .skip))
       (.seq
        (.expr (.upd (.fld (.var 1) 0) (.arith .add .size) (some .size) false (.num 1)))
        (.ret (.var 0))))))

/-- `level_ref`, mu_jems.c:306-308.  Locals: 0 jems. -/
def level_ref__jems : FunDef where
  params := 1
  locals := 0
  body :=
    (.ret (.bin (.padd 2) (.load (.fld (.var 0) 0)) (.load (.fld (.var 0) 2))))

end Mu.CS.Src
