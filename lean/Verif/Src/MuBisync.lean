import Verif.C.Src

/-! Generated by tools/csrc.py from /repo/mulib/mu_bisync.c: do not edit. -/

namespace Mu.CS.Src

/-- A loop of `mu_bisync_encode`, mu_bisync.c:70-94. -/
def mu_bisync_encode_loop1 : Stmt :=
  .loop (.bin (.cmp .lt .size) (.var 5) (.var 3)) (some (.updv 5 (.arith .add .int) (some .int) true (.num 1)))
   (.seq
    (.expr (.setv 6 (.load (.bin (.padd 1) (.var 2) (.var 5)))))
    (.seq
     (.ite (.lor (.lor (.bin (.cmp .eq .int) (.var 6) (.num 4)) (.bin (.cmp .eq .int) (.var 6) (.num 1))) (.bin (.cmp .eq .int) (.var 6) (.num 16)))
      (.ite (.lnot (.call .buffer_put__bisync [.var 4, .num 16]))
       (.ret (.num (-1)))
       .skip)
      .skip)
     (.ite (.lnot (.call .buffer_put__bisync [.var 4, .var 6]))
      (.ret (.num (-1)))
      .skip)))

/-- `mu_bisync_encode`, mu_bisync.c:70-94.  Locals: 0 encoded, 1 encoded_capacity, 2 src, 3 src_len, 4 writer, 5 i, 6 b. -/
def mu_bisync_encode : FunDef where
  params := 4
  locals := 3
  mems := [(4, 3)]
  body :=
    (.seq
     (.expr (.store (.fld (.var 4) 0) (.var 0)))
     (.seq
      (.expr (.store (.fld (.var 4) 1) (.cast .int (.var 1))))
      (.seq
       (.expr (.store (.fld (.var 4) 2) (.num 0)))
       (.seq
        (.ite (.lnot (.call .buffer_put__bisync [.var 4, .num 1]))
         (.ret (.num (-1)))
         .skip)
        (.seq
         (.expr (.setv 5 (.num 0)))
         (.seq
          mu_bisync_encode_loop1
          (.seq
           (.ite (.lnot (.call .buffer_put__bisync [.var 4, .num 4]))
            (.ret (.num (-1)))
            .skip)
           (.ret (.load (.fld (.var 4) 2))))))))))

/-- A loop of `mu_bisync_decode`, mu_bisync.c:96-129. -/
def mu_bisync_decode_loop1 : Stmt :=
  .loop (.bin (.cmp .lt .size) (.var 7) (.var 3)) (some (.updv 7 (.arith .add .int) (some .int) true (.num 1)))
   (.seq
    (.expr (.setv 5 (.load (.bin (.padd 1) (.var 2) (.var 7)))))
    (.ite (.var 6)
     (.seq
      (.ite (.lnot (.call .buffer_put__bisync [.var 4, .var 5]))
       (.ret (.num (-1)))
       .skip)
      (.expr (.setv 6 (.tobool (.num 0)))))
     (.ite (.bin (.cmp .eq .int) (.var 5) (.num 16))
      (.expr (.setv 6 (.tobool (.num 1))))
      (.ite (.bin (.cmp .eq .int) (.var 5) (.num 4))
       .brk
       (.ite (.lnot (.call .buffer_put__bisync [.var 4, .var 5]))
        (.ret (.num (-1)))
        .skip)))))

/-- `mu_bisync_decode`, mu_bisync.c:96-129.  Locals: 0 dst, 1 dst_capacity, 2 encoded, 3 encoded_len, 4 writer, 5 b, 6 escaping, 7 i. -/
def mu_bisync_decode : FunDef where
  params := 4
  locals := 4
  mems := [(4, 3)]
  body :=
    (.seq
     (.expr (.store (.fld (.var 4) 0) (.var 0)))
     (.seq
      (.expr (.store (.fld (.var 4) 1) (.cast .int (.var 1))))
      (.seq
       (.expr (.store (.fld (.var 4) 2) (.num 0)))
       (.seq
        (.undef 5)
        (.seq
         (.expr (.setv 6 (.tobool (.num 0))))
         (.seq
          (.ite (.lor (.bin (.cmp .lt .size) (.var 3) (.num 1)) (.bin (.cmp .ne .int) (.load (.bin (.padd 1) (.var 2) (.num 0))) (.num 1)))
           (.ret (.num (-2)))
           .skip)
          (.seq
           (.expr (.setv 7 (.num 0)))
           (.seq
            mu_bisync_decode_loop1
            (.seq
             (.ite (.bin (.cmp .ne .int) (.var 5) (.num 4))
              (.ret (.num (-2)))
              .skip)
             (.ret (.load (.fld (.var 4) 2))))))))))))

/-- `buffer_put`, mu_bisync.c:134-141.  Locals: 0 writer, 1 byte. -/
def buffer_put__bisync : FunDef where
  params := 2
  locals := 0
  body :=
    (.ite (.bin (.cmp .ge .int) (.load (.fld (.var 0) 2)) (.load (.fld (.var 0) 1)))
     (.ret (.tobool (.num 0)))
     (.seq
      (.expr (.store (.bin (.padd 1) (.load (.fld (.var 0) 0)) (.upd (.fld (.var 0) 2) (.arith .add .int) (some .int) true (.num 1))) (.var 1)))
      (.ret (.tobool (.num 1)))))

end Mu.CS.Src
