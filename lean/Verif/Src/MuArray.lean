import Verif.C.Src

/-! Generated by tools/csrc.py from /repo/mulib/mu_array.c: do not edit. -/

namespace Mu.CS.Src

/-- `mu_array_init`, mu_array.c:57-61.  Locals: 0 array, 1 storage, 2 capacity. -/
def mu_array_init : FunDef where
  params := 3
  locals := 0
  body :=
    (.seq
     (.expr (.store (.fld (.var 0) 0) (.var 1)))
     (.seq
      (.expr (.store (.fld (.var 0) 1) (.var 2)))
      (.ret (.call .mu_array_reset [.var 0]))))

/-- `mu_array_reset`, mu_array.c:63-66.  Locals: 0 array. -/
def mu_array_reset : FunDef where
  params := 1
  locals := 0
  body :=
    (.seq
     (.expr (.store (.fld (.var 0) 2) (.num 0)))
     (.ret (.var 0)))

/-- `mu_array_capacity`, mu_array.c:68.  Locals: 0 array. -/
def mu_array_capacity : FunDef where
  params := 1
  locals := 0
  body :=
    (.ret (.load (.fld (.var 0) 1)))

/-- `mu_array_count`, mu_array.c:70.  Locals: 0 array. -/
def mu_array_count : FunDef where
  params := 1
  locals := 0
  body :=
    (.ret (.load (.fld (.var 0) 2)))

/-- `mu_array_is_empty`, mu_array.c:72.  Locals: 0 array. -/
def mu_array_is_empty : FunDef where
  params := 1
  locals := 0
  body :=
    (.ret (.tobool (.bin (.cmp .eq .size) (.load (.fld (.var 0) 2)) (.num 0))))

/-- `mu_array_is_full`, mu_array.c:74-76.  Locals: 0 array. -/
def mu_array_is_full : FunDef where
  params := 1
  locals := 0
  body :=
    (.ret (.tobool (.bin (.cmp .eq .size) (.load (.fld (.var 0) 2)) (.load (.fld (.var 0) 1)))))

/-- `mu_array_push`, mu_array.c:78-85.  Locals: 0 array, 1 item. -/
def mu_array_push : FunDef where
  params := 2
  locals := 0
  body :=
    (.ite (.lnot (.call .mu_array_is_full [.var 0]))
     (.seq
      (.expr (.store (.bin (.padd 1) (.load (.fld (.var 0) 0)) (.upd (.fld (.var 0) 2) (.arith .add .size) (some .size) true (.num 1))) (.var 1)))
      (.ret (.tobool (.num 1))))
     (.ret (.tobool (.num 0))))

/-- `mu_array_pop`, mu_array.c:87-94.  Locals: 0 array, 1 item. -/
def mu_array_pop : FunDef where
  params := 2
  locals := 0
  body :=
    (.ite (.lnot (.call .mu_array_is_empty [.var 0]))
     (.seq
      (.expr (.store (.var 1) (.load (.bin (.padd 1) (.load (.fld (.var 0) 0)) (.upd (.fld (.var 0) 2) (.arith .sub .size) (some .size) false (.num 1))))))
      (.ret (.tobool (.num 1))))
     (.ret (.tobool (.num 0))))

/-- `mu_array_peek`, mu_array.c:96-103.  Locals: 0 array, 1 item. -/
def mu_array_peek : FunDef where
  params := 2
  locals := 0
  body :=
    (.ite (.lnot (.call .mu_array_is_empty [.var 0]))
     (.seq
      (.expr (.store (.var 1) (.load (.bin (.padd 1) (.load (.fld (.var 0) 0)) (.bin (.arith .sub .size) (.load (.fld (.var 0) 2)) (.num 1))))))
      (.ret (.tobool (.num 1))))
     (.ret (.tobool (.num 0))))

/-- `mu_array_ref`, mu_array.c:105-112.  Locals: 0 array, 1 item, 2 index. -/
def mu_array_ref : FunDef where
  params := 3
  locals := 0
  body :=
    (.ite (.bin (.cmp .lt .size) (.var 2) (.load (.fld (.var 0) 2)))
     (.seq
      (.expr (.store (.var 1) (.load (.bin (.padd 1) (.load (.fld (.var 0) 0)) (.var 2)))))
      (.ret (.tobool (.num 1))))
     (.ret (.tobool (.num 0))))

/-- `mu_array_insert`, mu_array.c:114-132.  Locals: 0 array, 1 item, 2 index, 3 to_move, 4 src, 5 dst. -/
def mu_array_insert : FunDef where
  params := 3
  locals := 3
  body :=
    (.ite (.lor (.call .mu_array_is_full [.var 0]) (.bin (.cmp .gt .size) (.var 2) (.load (.fld (.var 0) 2))))
     (.ret (.tobool (.num 0)))
     (.ite (.bin (.cmp .eq .size) (.var 2) (.load (.fld (.var 0) 2)))
      (.seq
       (.expr (.store (.bin (.padd 1) (.load (.fld (.var 0) 0)) (.upd (.fld (.var 0) 2) (.arith .add .size) (some .size) true (.num 1))) (.var 1)))
       (.ret (.tobool (.num 1))))
      (.seq
       (.expr (.setv 3 (.cast .int (.bin (.arith .sub .size) (.load (.fld (.var 0) 2)) (.var 2)))))
       (.seq
        (.expr (.setv 4 (.bin (.padd 1) (.load (.fld (.var 0) 0)) (.var 2))))
        (.seq
         (.expr (.setv 5 (.bin (.padd 1) (.load (.fld (.var 0) 0)) (.bin (.arith .add .size) (.var 2) (.num 1)))))
         (.seq
          (.expr (.call .memmove [.var 5, .var 4, .bin (.arith .mul .size) (.var 3) (.num 1)]))
          (.seq
           (.expr (.store (.bin (.padd 1) (.load (.fld (.var 0) 0)) (.var 2)) (.var 1)))
           (.seq
            (.expr (.upd (.fld (.var 0) 2) (.arith .add .size) (some .size) false (.num 1)))
            (.ret (.tobool (.num 1)))))))))))

/-- `mu_array_delete`, mu_array.c:134-151.  Locals: 0 array, 1 item, 2 index, 3 to_move, 4 src, 5 dst. -/
def mu_array_delete : FunDef where
  params := 3
  locals := 3
  body :=
    (.seq
     (.ite (.lor (.call .mu_array_is_empty [.var 0]) (.bin (.cmp .ge .size) (.var 2) (.load (.fld (.var 0) 2))))
      (.ret (.tobool (.num 0)))
      .skip)
     (.seq
      (.ite (.bin (.cmp .eq .size) (.var 2) (.bin (.arith .sub .size) (.load (.fld (.var 0) 2)) (.num 1)))
       (.expr (.store (.var 1) (.load (.bin (.padd 1) (.load (.fld (.var 0) 0)) (.upd (.fld (.var 0) 2) (.arith .sub .size) (some .size) false (.num 1))))))
       (.seq
        (.expr (.store (.var 1) (.load (.bin (.padd 1) (.load (.fld (.var 0) 0)) (.var 2)))))
        (.seq
         (.expr (.setv 3 (.cast .int (.bin (.arith .sub .size) (.load (.fld (.var 0) 2)) (.var 2)))))
         (.seq
          (.expr (.setv 4 (.bin (.padd 1) (.load (.fld (.var 0) 0)) (.bin (.arith .add .size) (.var 2) (.num 1)))))
          (.seq
           (.expr (.setv 5 (.bin (.padd 1) (.load (.fld (.var 0) 0)) (.var 2))))
           (.expr (.call .memmove [.var 5, .var 4, .bin (.arith .mul .size) (.var 3) (.num 1)])))))))
      (.ret (.tobool (.num 1)))))

/-- A loop of `mu_array_index`, mu_array.c:153-160. -/
def mu_array_index_loop1 : Stmt :=
  .loop (.bin (.cmp .lt .size) (.var 2) (.load (.fld (.var 0) 2))) (some (.updv 2 (.arith .add .size) (some .size) true (.num 1)))
   (.ite (.bin (.pcmp .eq) (.load (.bin (.padd 1) (.load (.fld (.var 0) 0)) (.var 2))) (.var 1))
    (.ret (.var 2))
    .skip)

/-- `mu_array_index`, mu_array.c:153-160.  Locals: 0 array, 1 item, 2 index. -/
def mu_array_index : FunDef where
  params := 2
  locals := 1
  body :=
    (.seq
     (.expr (.setv 2 (.num 0)))
     (.seq
      mu_array_index_loop1
      (.ret .sizeMax)))

/-- A loop of `mu_array_rindex`, mu_array.c:162-169. -/
def mu_array_rindex_loop1 : Stmt :=
  .loop (.bin (.cmp .ne .size) (.var 2) .sizeMax) (some (.updv 2 (.arith .sub .size) (some .size) true (.num 1)))
   (.ite (.bin (.pcmp .eq) (.load (.bin (.padd 1) (.load (.fld (.var 0) 0)) (.var 2))) (.var 1))
    (.ret (.var 2))
    .skip)

/-- `mu_array_rindex`, mu_array.c:162-169.  Locals: 0 array, 1 item, 2 index. -/
def mu_array_rindex : FunDef where
  params := 2
  locals := 1
  body :=
    (.seq
     (.expr (.setv 2 (.bin (.arith .sub .size) (.load (.fld (.var 0) 2)) (.num 1))))
     (.seq
      mu_array_rindex_loop1
      (.ret .sizeMax)))

/-- A loop of `mu_array_sort`, mu_array.c:171-187. -/
def mu_array_sort_loop1 : Stmt :=
  .loop (.bin (.cmp .gt .size) (.var 4) (.num 0)) none
   (.seq
    (.expr (.call .swap__array [.var 2, .cast .int (.var 4), .num 0]))
    (.seq
     (.expr (.updv 4 (.arith .sub .size) (some .size) false (.num 1)))
     (.expr (.call .sift_down__array [.var 2, .var 1, .num 0, .cast .int (.var 4)]))))

/-- `mu_array_sort`, mu_array.c:171-187.  Locals: 0 array, 1 cmp, 2 items, 3 count, 4 end. -/
def mu_array_sort : FunDef where
  params := 2
  locals := 3
  body :=
    (.seq
     (.expr (.setv 2 (.load (.fld (.var 0) 0))))
     (.seq
      (.expr (.setv 3 (.load (.fld (.var 0) 2))))
      (.seq
       (.ite (.bin (.cmp .gt .size) (.var 3) (.num 0))
        (.seq
         (.expr (.setv 4 (.bin (.arith .sub .size) (.var 3) (.num 1))))
         (.seq
          (.expr (.call .heapify__array [.var 2, .var 3, .var 1]))
          mu_array_sort_loop1))
        .skip)
       (.ret (.var 0)))))

/-- `mu_array_insert_sorted`, mu_array.c:189-197.  Locals: 0 array, 1 item, 2 cmp, 3 index. -/
def mu_array_insert_sorted : FunDef where
  params := 3
  locals := 1
  body :=
    (.ite (.bin (.cmp .eq .size) (.call .mu_array_count [.var 0]) (.num 0))
     (.ret (.call .mu_array_push [.var 0, .var 1]))
     (.seq
      (.expr (.setv 3 (.cast .int (.call .find_insertion_index__array [.var 0, .var 1, .var 2]))))
      (.ret (.call .mu_array_insert [.var 0, .var 1, .cast .size (.var 3)]))))

/-- A loop of `find_insertion_index`, mu_array.c:204-217. -/
def find_insertion_index__array_loop1 : Stmt :=
  .loop (.bin (.cmp .le .int) (.var 3) (.var 4)) none
   (.seq
    (.expr (.setv 5 (.bin (.arith .div .int) (.bin (.arith .add .int) (.var 3) (.var 4)) (.num 2))))
    (.ite (.bin (.cmp .gt .int) (.callp (.var 2) [.load (.bin (.padd 1) (.load (.fld (.var 0) 0)) (.var 5)), .var 1]) (.num 0))
     (.expr (.setv 4 (.bin (.arith .sub .int) (.var 5) (.num 1))))
     (.expr (.setv 3 (.bin (.arith .add .int) (.var 5) (.num 1))))))

/-- `find_insertion_index`, mu_array.c:204-217.  Locals: 0 array, 1 item, 2 cmp, 3 low, 4 high, 5 mid. -/
def find_insertion_index__array : FunDef where
  params := 3
  locals := 3
  body :=
    (.seq
     (.expr (.setv 3 (.num 0)))
     (.seq
      (.expr (.setv 4 (.cast .int (.bin (.arith .sub .size) (.load (.fld (.var 0) 2)) (.num 1)))))
      (.seq
       find_insertion_index__array_loop1
       (.ret (.cast .size (.var 3))))))

/-- A loop of `heapify`, mu_array.c:219-226. -/
def heapify__array_loop1 : Stmt :=
  .loop (.bin (.cmp .ge .int) (.var 3) (.num 0)) none
   (.seq
    (.expr (.call .sift_down__array [.var 0, .var 2, .var 3, .cast .int (.bin (.arith .sub .size) (.var 1) (.num 1))]))
    (.expr (.updv 3 (.arith .sub .int) (some .int) false (.num 1))))

/-- `heapify`, mu_array.c:219-226.  Locals: 0 items, 1 count, 2 cmp, 3 start. -/
def heapify__array : FunDef where
  params := 3
  locals := 1
  body :=
    (.seq
     (.expr (.setv 3 (.cast .int (.bin (.arith .div .size) (.bin (.arith .sub .size) (.var 1) (.num 2)) (.num 2)))))
     heapify__array_loop1)

/-- A loop of `sift_down`, mu_array.c:228-246. -/
def sift_down__array_loop1 : Stmt :=
  .loop (.bin (.cmp .le .int) (.bin (.arith .add .int) (.bin (.arith .mul .int) (.var 4) (.num 2)) (.num 1)) (.var 3)) none
   (.seq
    (.expr (.setv 5 (.bin (.arith .add .int) (.bin (.arith .mul .int) (.var 4) (.num 2)) (.num 1))))
    (.seq
     (.ite (.land (.bin (.cmp .le .int) (.bin (.arith .add .int) (.var 5) (.num 1)) (.var 3)) (.bin (.cmp .lt .int) (.callp (.var 1) [.load (.bin (.padd 1) (.var 0) (.var 5)), .load (.bin (.padd 1) (.var 0) (.bin (.arith .add .int) (.var 5) (.num 1)))]) (.num 0)))
      (.expr (.updv 5 (.arith .add .int) (some .int) false (.num 1)))
      .skip)
     (.ite (.bin (.cmp .lt .int) (.callp (.var 1) [.load (.bin (.padd 1) (.var 0) (.var 4)), .load (.bin (.padd 1) (.var 0) (.var 5))]) (.num 0))
      (.seq
       (.expr (.call .swap__array [.var 0, .var 4, .var 5]))
       (.expr (.setv 4 (.var 5))))
      .retVoid)))

/-- `sift_down`, mu_array.c:228-246.  Locals: 0 items, 1 cmp, 2 start, 3 end, 4 root, 5 child. -/
def sift_down__array : FunDef where
  params := 4
  locals := 2
  body :=
    (.seq
     (.expr (.setv 4 (.var 2)))
     sift_down__array_loop1)

/-- `swap`, mu_array.c:248-252.  Locals: 0 items, 1 a, 2 b, 3 temp. -/
def swap__array : FunDef where
  params := 3
  locals := 1
  body :=
    (.seq
     (.expr (.setv 3 (.load (.bin (.padd 1) (.var 0) (.var 1)))))
     (.seq
      (.expr (.store (.bin (.padd 1) (.var 0) (.var 1)) (.load (.bin (.padd 1) (.var 0) (.var 2)))))
      (.expr (.store (.bin (.padd 1) (.var 0) (.var 2)) (.var 3)))))

end Mu.CS.Src
