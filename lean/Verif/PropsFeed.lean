import Verif.Ahead
import Verif.PropsRoundTrip
import Verif.PropsPlace

/-!
# Input which arrives in pieces: C85

A program which receives its input in pieces tries to read what has arrived, and waits for more as long as it is told that the input
is too short. `Ahead.lean` compares the runs on what has arrived with those on more.
-/

namespace Verif

open Samples

/-- The input is too short: `is_eof()`, or the error of buffers which are shorter than the minimum of the type. -/
def Err.wantsMore : Err → Bool
  | .inputBufferIsTooSmall _ _ => true
  | er => er.isEof

/-- Whether a result says that the input is too short. -/
def wantsMore {α : Type} : Except Err α → Bool
  | .error er => er.wantsMore
  | .ok _ => false

theorem Short.wants {α : Type} {r : Except Err α} (h : Short r) : wantsMore r = true := by
  obtain ⟨er, rfl, h⟩ := h
  cases er <;> first | rfl | exact h

/-- A program which receives its input in pieces: it reads what has arrived, and while the input is too short it waits for the next
piece. The result is the first answer, or none if it still waits at the end. -/
def feed {α : Type} (read : Bytes → Except Err α × Nat) (arrived : Bytes) : List Bytes → Option (Except Err α × Nat)
  | [] => if wantsMore (read arrived).1 then none else some (read arrived)
  | piece :: rest => if wantsMore (read arrived).1 then feed read (arrived ++ piece) rest else some (read arrived)

/-- If more input does not change an answer, a program which receives its input in pieces has the answer for the whole. -/
theorem feed_eq {α : Type} {read : Bytes → Except Err α × Nat} {ok : Bytes → Prop} (hok : ∀ x y, ok (x ++ y) → ok x)
    (h : ∀ x y, ok (x ++ y) → wantsMore (read x).1 = false → read (x ++ y) = read x) : ∀ (pieces : List Bytes) (arrived : Bytes),
    ok (arrived ++ pieces.flatten) → feed read arrived pieces =
      if wantsMore (read (arrived ++ pieces.flatten)).1 then none else some (read (arrived ++ pieces.flatten))
  | [], arrived, _ => by simp [feed]
  | piece :: rest, arrived, ha => by
    rw [List.flatten_cons] at ha ⊢
    unfold feed
    split
    · rw [feed_eq hok h rest (arrived ++ piece) (by rw [List.append_assoc]; exact ha), List.append_assoc]
    · rename_i hw
      have hw : wantsMore (read arrived).1 = false := by simpa using hw
      rw [h _ _ ha hw, hw]
      rfl

section
variable {T : Target} {e : Endian} {t : Ty} (he : ends false true t = true)
include he

/-- **C85**: an answer of `read_from_buffer` (a value with its length, or an error) which does not say that the input is too short
is the answer for any longer input.

Full claim: for all types. Missing: `length = ..` and `default_on_eof`, where it is false (`C85_false`). -/
theorem C85_final_partial {base : Nat} {x y : Bytes} (hm : base + (x ++ y).length ≤ T.usizeMax)
    (hw : wantsMore (readWithLengthFromBuffer T e t base x).1 = false) :
    readWithLengthFromBuffer T e t base (x ++ y) = readWithLengthFromBuffer T e t base x := by
  have hl : x.length ≤ (x ++ y).length := by rw [List.length_append]; omega
  unfold readWithLengthFromBuffer at hw ⊢
  by_cases h1 : x.length < minBytes T t
  · rw [if_pos h1] at hw
    simp [wantsMore, Err.wantsMore] at hw
  · rw [if_neg h1] at hw ⊢
    rw [if_neg (by omega)]
    have h2 := decode_waits (buffer_ahead (h := T.toHost) (y := y) (b := base)) (T := T) (e := e) t Cx.std he rfl _ _
      (LongerAt.init (x := x) hm hm)
    rcases h2 with h2 | ⟨h2, h3⟩
    · exact absurd h2.wants (by simp [hw])
    · refine Prod.ext h2.symm ?_
      have := h3.ptr
      have := h3.left.lo
      have := h3.right.lo
      have := h3.base
      have := h3.base'
      show wsub _ _ _ = wsub _ _ _
      congr 1
      omega

/-- C85 for `read_from_buffer_copying_data`; the longer buffer may be at another address. -/
theorem C85_final_copying_partial {base base' : Nat} {x y : Bytes} (hm : base + (x ++ y).length ≤ T.usizeMax)
    (hm' : base' + (x ++ y).length ≤ T.usizeMax) (hw : wantsMore (readWithLengthFromBufferCopying T e t base x).1 = false) :
    readWithLengthFromBufferCopying T e t base' (x ++ y) = readWithLengthFromBufferCopying T e t base x := by
  have hl : x.length ≤ (x ++ y).length := by rw [List.length_append]; omega
  unfold readWithLengthFromBufferCopying at hw ⊢
  by_cases h1 : x.length < minBytes T t
  · rw [if_pos h1] at hw
    simp [wantsMore, Err.wantsMore] at hw
  · rw [if_neg h1] at hw ⊢
    rw [if_neg (by omega)]
    have h2 := decode_waits (copying_ahead (h := T.toHost) (y := y) (b := base) (b' := base')) (T := T) (e := e) t Cx.std he rfl _ _
      (LongerAt.init (x := x) hm hm')
    rcases h2 with h2 | ⟨h2, h3⟩
    · exact absurd h2.wants (by simp [hw])
    · refine Prod.ext h2.symm ?_
      have := h3.ptr
      have h4 := h3.left.lo
      have h5 := h3.right.lo
      rw [h3.base] at h4
      rw [h3.base'] at h5
      have h6 := h3.left.hi
      have h7 := h3.right.hi
      have h8 := h3.left.fits
      have h9 := h3.right.fits
      show wsub _ _ _ = wsub _ _ _
      rw [wsub_eq h5 (Nat.le_trans h7 h9), wsub_eq h4 (Nat.le_trans h6 h8)]
      omega

/-- C85 for streams: what has been read from a stream (buffered or not, in whatever pieces) is what is read from one with more data, and
there is as much more left. -/
theorem C85_final_stream_partial {grow grow' : Nat → Nat} (hg : ∀ n, n ≤ grow n) (hg' : ∀ n, n ≤ grow' n) {b b' : Bool} {src src' : Src}
    (hc : src.Clean) (hc' : src'.Clean) {y : Bytes} (hd : src'.data = src.data ++ y)
    (hw : wantsMore (readFromStream T e t grow b src).1 = false) :
    (readFromStream T e t grow' b' src').1 = (readFromStream T e t grow b src).1 ∧
      (readFromStream T e t grow' b' src').2.pend = (readFromStream T e t grow b src).2.pend ++ y := by
  have h := decode_waits (lawful_ahead (y := y) (streamReader_lawful hg) (streamReader_lawful hg') (streamReader_plain grow)
    (streamReader_plain grow')) (T := T) (e := e) t Cx.std he rfl (StreamSt.init b src) (StreamSt.init b' src')
    ⟨StreamSt.init_inv hc, StreamSt.init_inv hc', by rw [StreamSt.init_pend, StreamSt.init_pend, hd]⟩
  unfold readFromStream at hw ⊢
  rcases h with h | ⟨h1, h2⟩
  · exact absurd h.wants (by simp [hw])
  · exact ⟨h1.symm, h2.2.2⟩

/-- **C85**: input which arrives in pieces is read as if it had arrived at once, whatever it contains: with the same value, length or
error; and the program waits at the end exactly if the whole input is too short.

Full claim: for all types. Missing: `length = ..` and `default_on_eof`, where it is false (`C85_false`). -/
theorem C85_feed_partial {base : Nat} {pieces : List Bytes} (hm : base + pieces.flatten.length ≤ T.usizeMax) :
    feed (readWithLengthFromBuffer T e t base) [] pieces =
      if wantsMore (readWithLengthFromBuffer T e t base pieces.flatten).1 then none
      else some (readWithLengthFromBuffer T e t base pieces.flatten) :=
  feed_eq (ok := fun x => base + x.length ≤ T.usizeMax) (fun x y h => by rw [List.length_append] at h; omega)
    (fun _ _ hm hw => C85_final_partial he hm hw) pieces [] hm

/-- C85 for `read_from_buffer_copying_data`; the bytes are moved to another address whenever a piece arrives. -/
theorem C85_feed_copying_partial {place : Bytes → Nat} {pieces : List Bytes}
    (hm : ∀ x y, x ++ y = pieces.flatten → place x + pieces.flatten.length ≤ T.usizeMax) :
    feed (fun x => readWithLengthFromBufferCopying T e t (place x) x) [] pieces =
      if wantsMore (readWithLengthFromBufferCopying T e t (place pieces.flatten) pieces.flatten).1 then none
      else some (readWithLengthFromBufferCopying T e t (place pieces.flatten) pieces.flatten) := by
  refine feed_eq (read := fun x => readWithLengthFromBufferCopying T e t (place x) x) (ok := fun x => ∃ y, x ++ y = pieces.flatten)
    (fun x y ⟨z, h⟩ => ⟨y ++ z, by rw [← h, List.append_assoc]⟩) (fun x y ⟨z, hz⟩ hw => C85_final_copying_partial he ?_ ?_ hw) pieces [] ⟨[], by simp⟩
  · have h1 := hm x (y ++ z) (by rw [← hz, List.append_assoc])
    have h2 := congrArg List.length hz
    rw [List.length_append] at h2
    omega
  · have h1 := hm (x ++ y) z hz
    have h2 := congrArg List.length hz
    rw [List.length_append] at h2
    omega

end

/-- C85 for `read_from_buffer` with bytes which are moved to another address whenever a piece arrives (types as in C83). -/
theorem C85_feed_moving_partial {T : Target} (hT : T.Ok) {e : Endian} {t : Ty} (he : ends false true t = true)
    (hp : placed T e (Lim.std T.toHost) t = true) {place : Bytes → Nat} {pieces : List Bytes}
    (hm : ∀ x y, x ++ y = pieces.flatten → InMem T (place x) pieces.flatten) :
    feed (fun x => readWithLengthFromBuffer T e t (place x) x) [] pieces =
      if wantsMore (readWithLengthFromBuffer T e t (place pieces.flatten) pieces.flatten).1 then none
      else some (readWithLengthFromBuffer T e t (place pieces.flatten) pieces.flatten) := by
  refine feed_eq (read := fun x => readWithLengthFromBuffer T e t (place x) x) (ok := fun x => ∃ y, x ++ y = pieces.flatten)
    (fun x y ⟨z, h⟩ => ⟨y ++ z, by rw [← h, List.append_assoc]⟩) (fun x y ⟨z, hz⟩ hw => ?_) pieces [] ⟨[], by simp⟩
  have h1 := hm x (y ++ z) (by rw [← hz, List.append_assoc])
  have h2 := hm (x ++ y) z hz
  rw [← hz] at h1 h2
  have h3 := h1.prefix
  rw [C83_place_partial hT hp h2.prefix h3]
  exact C85_final_partial he h3.top hw

/-- **C85**: a message which arrives in pieces is read as soon as it is complete, whatever comes after it.

Missing: the exceptions of C01, and `length = ..` and `default_on_eof`. -/
theorem C85_message_partial {T : Target} (hT : T.Ok) {e : Endian} {t : Ty} {v : Val} {bs : Bytes} {junk : Nat → UInt8}
    (hl : layoutOk T t = true) (hd : declOk t = true) (hr : regular T e t = true) (hv : hasTy T t v)
    (hc : canon (Fmt.code T.toHost e) t v) (hw : writeToVec T e t v junk = .ok bs) (he : ends false true t = true)
    {base : Nat} {pieces : List Bytes} {rest : Bytes} (hp : pieces.flatten = bs ++ rest)
    (hm : InMem T base (bs ++ rest)) :
    feed (readWithLengthFromBuffer T e t base) [] pieces = some (.ok v, bs.length) ∧
      ∀ x y, bs = x ++ y → y ≠ [] → wantsMore (readWithLengthFromBuffer T e t base x).1 = true := by
  refine ⟨?_, fun x y hxy hy => ?_⟩
  · obtain ⟨h2, h1⟩ := written_codes hT hl hd hr hv hc hw he hm.fits.left
    rw [C85_feed_partial he (by rw [hp]; exact hm.top), hp,
      buffer_ok hT hl hm (by simp only [List.length_append]; omega) (h1.1 rest (by simp))]
    simp [wantsMore]
  · obtain ⟨er, h1, h2⟩ := C07_truncated_partial hT hl hd hr hv hc hw he hxy hy hm.prefix
    have h1 : (readWithLengthFromBuffer T e t base x).1 = .error er := h1
    rw [h1]
    rcases h2 with h2 | rfl
    · exact Short.wants ⟨er, rfl, h2⟩
    · rfl

/-- **C85 is false** for `default_on_eof` and `length = ..`: an answer for what has arrived is not the answer for the whole. It is also
false for a program which waits only while `is_eof()` holds: two bytes are too short for a `u32`, with an error which is not `is_eof()`. -/
theorem C85_false :
    (readFromBuffer x64 .little (.struct ⟨.rust, 2, 1, [0, 1], true⟩ (.cons {} (.prim .u8)
        (.cons { defaultOnEof := true, dflt := .num 0 } (.prim .u8) .nil))) 4096 [1] = .ok (.pair (.num 1) (.pair (.num 0) .unit)) ∧
      readFromBuffer x64 .little (.struct ⟨.rust, 2, 1, [0, 1], true⟩ (.cons {} (.prim .u8)
        (.cons { defaultOnEof := true, dflt := .num 0 } (.prim .u8) .nil))) 4096 [1, 2] = .ok (.pair (.num 1) (.pair (.num 2) .unit))) ∧
    (readFromBuffer x64 .little (.struct ⟨.rust, 24, 8, [0], true⟩ (.cons { len := some .untilEof } (.str .owned) .nil)) 4096 [0xc3] =
        .error .invalidUtf8 ∧
      readFromBuffer x64 .little (.struct ⟨.rust, 24, 8, [0], true⟩ (.cons { len := some .untilEof } (.str .owned) .nil)) 4096 [0xc3, 0xa4] =
        .ok (.pair (.bytes [0xc3, 0xa4]) .unit)) ∧
    (readFromBuffer x64 .little (.prim .u32) 4096 [1, 0] = .error (.inputBufferIsTooSmall 2 4) ∧
      (Err.inputBufferIsTooSmall 2 4).isEof = false ∧ readFromBuffer x64 .little (.prim .u32) 4096 [1, 0, 0, 0] = .ok (.num 1)) := by
  decide

/-! ## Cases -/

section Cases

/-- `Option<String>` and a `Vec<u16>`. -/
def chatTy : Ty := .pair (.option (.str .owned)) (.pair (.seq .vec (.prim .u16)) .unit)

example (base : Nat) (x y : Bytes) (hm : base + (x ++ y).length ≤ x64.usizeMax)
    (hw : wantsMore (readWithLengthFromBuffer x64 .big chatTy base x).1 = false) :
    readWithLengthFromBuffer x64 .big chatTy base (x ++ y) = readWithLengthFromBuffer x64 .big chatTy base x :=
  C85_final_partial (by decide) hm hw

/-- An error in the middle is final: the text is not UTF-8, although the vector has not arrived yet. -/
example : wantsMore (readWithLengthFromBuffer x64 .big chatTy 4096 [1, 0, 0, 0, 1, 0xff]).1 = false ∧
    readWithLengthFromBuffer x64 .big chatTy 4096 [1, 0, 0, 0, 1, 0xff] = (.error .invalidUtf8, 6) := by decide

example (y : Bytes) (hm : 4096 + ([1, 0, 0, 0, 1, 0xff] ++ y).length ≤ x64.usizeMax) :
    readWithLengthFromBuffer x64 .big chatTy 4096 ([1, 0, 0, 0, 1, 0xff] ++ y) = (.error .invalidUtf8, 6) :=
  (C85_final_partial (by decide) hm (by decide)).trans (by decide)

example (base base' : Nat) (x y : Bytes) (hm : base + (x ++ y).length ≤ x64.usizeMax) (hm' : base' + (x ++ y).length ≤ x64.usizeMax)
    (hw : wantsMore (readWithLengthFromBufferCopying x64 .big chatTy base x).1 = false) :
    readWithLengthFromBufferCopying x64 .big chatTy base' (x ++ y) = readWithLengthFromBufferCopying x64 .big chatTy base x :=
  C85_final_copying_partial (by decide) hm hm' hw

example : (readFromStream x64 .big (.option (.prim .u16)) id true ⟨[1, 0, 5, 9], [.give 3]⟩).1 =
    (readFromStream x64 .big (.option (.prim .u16)) id false ⟨[1, 0, 5], [.give 1]⟩).1 :=
  (C85_final_stream_partial (by decide) (fun _ => Nat.le_refl _) (fun _ => Nat.le_refl _) (by simp [Src.Clean]) (by simp [Src.Clean])
    (y := [9]) rfl (by decide)).1

/-- A message in three pieces, with another one behind. -/
example : feed (readWithLengthFromBuffer x64 .big chatTy 4096) [] [[0, 0, 0, 0, 2, 0], [1, 0], [2, 0, 0, 0]] =
    some (.ok (.pair .none (.pair (.list [.num 1, .num 2]) .unit)), 9) := by
  rw [C85_feed_partial (by decide) (by decide)]
  decide

example (place : Bytes → Nat) (hp : ∀ x, place x < 65536) :
    feed (fun x => readWithLengthFromBufferCopying x64 .big chatTy (place x) x) [] [[0, 0, 0, 0, 2, 0], [1, 0], [2, 0, 0, 0]] =
      if wantsMore (readWithLengthFromBufferCopying x64 .big chatTy (place [0, 0, 0, 0, 2, 0, 1, 0, 2, 0, 0, 0]) [0, 0, 0, 0, 2, 0, 1, 0, 2, 0, 0, 0]).1
      then none else some (readWithLengthFromBufferCopying x64 .big chatTy (place [0, 0, 0, 0, 2, 0, 1, 0, 2, 0, 0, 0])
        [0, 0, 0, 0, 2, 0, 1, 0, 2, 0, 0, 0]) :=
  C85_feed_copying_partial (by decide) fun x _ _ => by
    have := hp x
    have h64 : x64.usizeMax = 2 ^ 64 - 1 := rfl
    simp only [List.flatten_cons, List.flatten_nil, List.length_append, List.length_cons, List.length_nil, h64]
    omega

example (place : Bytes → Nat) (hp : ∀ x, InMem x64 (place x) [1, 0, 0, 0, 1, 0x61, 0, 0, 0, 0]) :
    feed (fun x => readWithLengthFromBuffer x64 .big chatTy (place x) x) [] [[1, 0, 0], [0, 1, 0x61, 0, 0, 0, 0]] =
      if wantsMore (readWithLengthFromBuffer x64 .big chatTy (place [1, 0, 0, 0, 1, 0x61, 0, 0, 0, 0]) [1, 0, 0, 0, 1, 0x61, 0, 0, 0, 0]).1
      then none else some (readWithLengthFromBuffer x64 .big chatTy (place [1, 0, 0, 0, 1, 0x61, 0, 0, 0, 0]) [1, 0, 0, 0, 1, 0x61, 0, 0, 0, 0]) :=
  C85_feed_moving_partial x64_ok (by decide) (by decide) fun x _ _ => hp x

/-- A message of any vectors of bytes and any pieces. -/
example (v : Val) (bs rest : Bytes) (pieces : List Bytes) (hv : hasTy x64 chatTy v) (hw : writeToVec x64 .big chatTy v (fun _ => 0) = .ok bs)
    (hp : pieces.flatten = bs ++ rest) (hm : InMem x64 4096 (bs ++ rest)) (hc : canon (Fmt.code x64.toHost .big) chatTy v) :
    feed (readWithLengthFromBuffer x64 .big chatTy 4096) [] pieces = some (.ok v, bs.length) :=
  (C85_message_partial x64_ok (by decide) (by decide) (by decide) hv hc hw (by decide) hp hm).1

example : hasTy x64 chatTy (.pair (.some (.bytes [0x61])) (.pair (.list [.num 1]) .unit)) ∧
    writeToVec x64 .big chatTy (.pair (.some (.bytes [0x61])) (.pair (.list [.num 1]) .unit)) (fun _ => 0) =
      .ok [1, 0, 0, 0, 1, 0x61, 0, 0, 0, 1, 0, 1] := by
  refine ⟨?_, by decide⟩
  simp [chatTy, hasTy, Prim.size]
  decide

end Cases

end Verif
