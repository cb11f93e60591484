import Verif.Props.Spsc
import Verif.Props.SpscTso
import Verif.Props.BisyncStream

/-! # Property C102: bisync frames sent byte by byte through a mu_spsc -/

namespace Mu.Link
open Mu Mu.Spsc.Spec
open Mu.Bisync (Sent SentAll decode)

/-- A byte as a queue item, `(void *)(uintptr_t)b`. -/
def item (b : UInt8) : Val := b.toNat

/-- The byte of a queue item, `(uint8_t)(uintptr_t)v`. -/
def byte (v : Val) : UInt8 := UInt8.ofNat v

/-- The producer's part: it puts the items of `w` one after the other, the same one again as long as
put returns FULL. -/
def Sends : List Val → List Spsc.Ev → Prop
  | _, [] => True
  | w, .getRet _ _ :: l => Sends w l
  | w, .putRet x false :: l => w.head? = some x ∧ Sends w l
  | w, .putRet x true :: l => w.head? = some x ∧ Sends w.tail l

theorem Sends.accepted : ∀ {w : List Val} {l : List Spsc.Ev}, Sends w l → accepted l <+: w
  | _, [], _ => List.nil_prefix
  | w, .getRet b v :: l, h => by
    have : Sends w l := h
    simpa [Spsc.Spec.accepted] using this.accepted
  | w, .putRet x false :: l, h => by
    have := h.2.accepted
    simpa [Spsc.Spec.accepted] using this
  | [], .putRet x true :: l, h => by
    have := h.1
    simp at this
  | y :: w, .putRet x true :: l, h => by
    obtain ⟨h1, h2⟩ := h
    obtain rfl : y = x := by simpa using h1
    have := h2.accepted
    simp only [List.tail_cons] at this
    simpa [Spsc.Spec.accepted] using this

theorem byte_item (b : UInt8) : byte (item b) = b := by simp [byte, item]

/-- What the consumer has received after a history `log`. -/
def received (log : List Spsc.Ev) : List UInt8 := (delivered log).map byte

theorem received_prefix {stream : List UInt8} {log : List Spsc.Ev}
    (hs : Sends (stream.map item) log) (hd : delivered log <+: accepted log) :
    received log <+: stream := by
  have h := (hd.trans hs.accepted).map byte
  rw [List.map_map] at h
  have : byte ∘ item = id := funext byte_item
  rw [this, List.map_id] at h
  exact h

theorem decode_received {P Q : Plat} {ps fs : List (List UInt8)} (hf : SentAll Q ps fs)
    {rx : List UInt8} (hrx : rx <+: fs.flatten) {before after : List (List UInt8)}
    {p f : List UInt8} (hsplit : fs = before ++ f :: after) (hp : ps[before.length]? = some p)
    (hgot : (before.flatten ++ f).length ≤ rx.length) (dst : List UInt8) (cap : Nat)
    (hcap : cap ≤ dst.length) (hI : (cap : Int) ≤ P.intMax) (hlen : (rx.length : Int) ≤ P.intMax)
    (hroom : p.length + 1 ≤ cap) :
    decode P dst cap (rx.drop before.flatten.length) (rx.drop before.flatten.length).length =
      .ok (((p.length + 1 : Nat) : Int), 1 :: p ++ dst.drop (p.length + 1)) := by
  have hfr := Bisync.sentAll_frames hf
  have hfp : f = Bisync.Spec.frame p := by
    have : fs[before.length]? = some f := by rw [hsplit]; simp
    rw [hfr, List.getElem?_map, hp] at this
    exact (Option.some.inj this).symm
  obtain ⟨rest, hrest⟩ : before.flatten ++ f <+: rx := by
    refine List.prefix_of_prefix_length_le (l₃ := fs.flatten) ?_ hrx hgot
    rw [hsplit]; simp
  have e : rx.drop before.flatten.length = Bisync.Spec.frame p ++ rest := by
    rw [← hrest, List.append_assoc, List.drop_left, hfp]
  have hl : ((Bisync.Spec.frame p ++ rest).length : Int) ≤ P.intMax := by
    rw [← e, List.length_drop]; omega
  rw [e, Bisync.C63_decode_frame P dst cap p rest hcap hI hl, if_pos hroom]

/-- **C102.**  Frames made by `mu_bisync_encode` for the payloads `ps` are sent byte by byte through a
`mu_spsc`, the producer retrying a byte while the queue is full.  Under every interleaving the bytes
received so far are the beginning of the stream, and every frame that has been received completely
decodes, where it starts, to its payload. -/
theorem C102_link (P Q : Plat) (q0 : Spsc.Spsc) (store : List Val) (N : Nat)
    (hok : (Spsc.init q0 store N).1 = .none) (halloc : N ≤ store.length) {ps fs : List (List UInt8)}
    (hf : SentAll Q ps fs) (sched : List Spsc.Act) (s : Spsc.Sys)
    (hs : Spsc.exec (Spsc.Sys.start (Spsc.init q0 store N).2) sched = .ok s)
    (hsend : Sends (fs.flatten.map item) s.log) :
    received s.log <+: fs.flatten ∧
    ∀ (before after : List (List UInt8)) (p f : List UInt8), fs = before ++ f :: after →
      ps[before.length]? = some p → (before.flatten ++ f).length ≤ (received s.log).length →
      ∀ (dst : List UInt8) (cap : Nat), cap ≤ dst.length → (cap : Int) ≤ P.intMax →
        ((received s.log).length : Int) ≤ P.intMax → p.length + 1 ≤ cap →
        let inp := (received s.log).drop before.flatten.length
        decode P dst cap inp inp.length =
          .ok (((p.length + 1 : Nat) : Int), 1 :: p ++ dst.drop (p.length + 1)) := by
  obtain ⟨s', h1, h2, _⟩ := Spsc.C12_fifo_all_interleavings q0 store N hok halloc sched
  obtain rfl : s' = s := Except.ok.inj (h1.symm.trans hs)
  have hp := received_prefix hsend h2
  exact ⟨hp, fun before after p f e1 e2 e3 dst cap c1 c2 c3 c4 =>
    decode_received hf hp e1 e2 e3 dst cap c1 c2 c3 c4⟩

/-- **C102, store buffers.**  The same between two cores whose stores are delayed (TSO). -/
theorem C102_link_store_buffers (P Q : Plat) (q0 : Spsc.Spsc) (store : List Val) (N : Nat)
    (hok : (Spsc.init q0 store N).1 = .none) (halloc : N ≤ store.length) {ps fs : List (List UInt8)}
    (hf : SentAll Q ps fs) (sched : List Spsc.Tso.Act) (s : Spsc.Tso.Sys)
    (hs : Spsc.Tso.exec (Spsc.Tso.Sys.start (Spsc.init q0 store N).2) sched = .ok s)
    (hsend : Sends (fs.flatten.map item) s.log) :
    received s.log <+: fs.flatten ∧
    ∀ (before after : List (List UInt8)) (p f : List UInt8), fs = before ++ f :: after →
      ps[before.length]? = some p → (before.flatten ++ f).length ≤ (received s.log).length →
      ∀ (dst : List UInt8) (cap : Nat), cap ≤ dst.length → (cap : Int) ≤ P.intMax →
        ((received s.log).length : Int) ≤ P.intMax → p.length + 1 ≤ cap →
        let inp := (received s.log).drop before.flatten.length
        decode P dst cap inp inp.length =
          .ok (((p.length + 1 : Nat) : Int), 1 :: p ++ dst.drop (p.length + 1)) := by
  obtain ⟨s', h1, h2, _⟩ := Spsc.Tso.C79_fifo_store_buffers q0 store N hok halloc sched
  obtain rfl : s' = s := Except.ok.inj (h1.symm.trans hs)
  have hp := received_prefix hsend h2
  exact ⟨hp, fun before after p f e1 e2 e3 dst cap c1 c2 c3 c4 =>
    decode_received hf hp e1 e2 e3 dst cap c1 c2 c3 c4⟩

/-- **C102, nothing stays behind.**  Once all bytes have been accepted, the consumer on its own
receives the whole stream. -/
theorem C102_all_received (q0 : Spsc.Spsc) (store : List Val) (N : Nat)
    (hok : (Spsc.init q0 store N).1 = .none) (halloc : N ≤ store.length) {fs : List (List UInt8)}
    (sched : List Spsc.Act) (s : Spsc.Sys)
    (hs : Spsc.exec (Spsc.Sys.start (Spsc.init q0 store N).2) sched = .ok s)
    (hall : accepted s.log = fs.flatten.map item) :
    ∃ m s', Spsc.exec s (List.replicate m (.cons false)) = .ok s' ∧
      received s'.log = fs.flatten := by
  obtain ⟨m, s', h1, _, h3⟩ := Spsc.C12_nothing_lost q0 store N hok halloc sched s hs
  refine ⟨m, s', h1, ?_⟩
  have : byte ∘ item = id := funext byte_item
  rw [received, h3, hall, List.map_map, this, List.map_id]

/-- The schedule of the example: three puts with a get in between. -/
def exSched : List Spsc.Act :=
  List.replicate 6 (.prod 1) ++ List.replicate 3 (.prod 7) ++ List.replicate 7 (.cons false) ++
    List.replicate 6 (.prod 7)

/-- The hypotheses are met: the frame of the payload [7] through a queue with room for one byte; the
second byte is refused, sent again after a get, and accepted. -/
example : SentAll Plat.ip16 [[7]] [[1, 7, 4]] ∧
    (match Spsc.exec (Spsc.Sys.start (Spsc.init ⟨0, 0, 0, []⟩ [0, 0] 2).2) exSched with
      | .ok s => s.log = [.putRet 1 true, .putRet 7 false, .getRet true 1, .putRet 7 true] ∧
          Sends (([1, 7, 4] : List UInt8).map item) s.log
      | .error _ => False) := by
  constructor
  · exact ⟨⟨[0, 0, 0], 3, 3, [1, 7, 4], by decide, by decide, by decide, by decide⟩, trivial⟩
  · have : Spsc.exec (Spsc.Sys.start (Spsc.init ⟨0, 0, 0, []⟩ [0, 0] 2).2) exSched =
        .ok ⟨⟨1, 1, 0, [1, 7]⟩, .idle, .idle,
          [.putRet 1 true, .putRet 7 false, .getRet true 1, .putRet 7 true]⟩ := by decide
    rw [this]
    exact ⟨rfl, rfl, rfl, rfl, trivial⟩

end Mu.Link
