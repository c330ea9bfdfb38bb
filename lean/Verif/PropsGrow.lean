import Verif.Grow
import Verif.PropsRoundTrip

/-!
# C70: fields added at the end

`Grown t t'` (in `Grow.lean`) says that `t'` is a later version of `t`: it has further fields after the last
one of a struct or of variants of an enum; the struct or enum may itself be the last field of another one, the
last component of a tuple, or inside `Option`, `Box` or `Result`.  `g.up v` is the old value with the
default values of the new fields, `g.down v` the new value without the new fields.
-/

namespace Verif

mutual
/-- Nothing of the old value is lost. -/
theorem C70_down_up {T : Target} : ∀ {t t' : Ty} (g : Grown t t') (v : Val), hasTy T t v → g.down (g.up v) = v
  | _, _, .same _, _, _ => rfl
  | _, _, .option g, v, hv => by
    cases v <;> simp only [hasTy] at hv
    · rfl
    · simp only [Grown.up, Grown.down, C70_down_up g _ hv]
  | _, _, .box g, v, hv => by
    simp only [hasTy] at hv
    simp only [Grown.up, Grown.down, C70_down_up g _ hv]
  | _, _, .result g g', .variant 1 v, hv => by
    simp only [hasTy] at hv
    simp only [Grown.up, Grown.down, C70_down_up g _ hv]
  | _, _, .result g g', .variant 0 v, hv => by
    simp only [hasTy] at hv
    simp only [Grown.up, Grown.down, C70_down_up g' _ hv]
  | _, _, .tuple _ g, v, hv => by
    cases v <;> simp only [hasTy] at hv
    simp only [Grown.up, Grown.down, C70_down_up g _ hv.2]
  | _, _, .last g, v, hv => by
    cases v <;> simp only [hasTy] at hv
    simp only [Grown.up, Grown.down, C70_down_up g _ hv.1]
  | _, _, .struct _ _ g, v, hv => by
    simp only [hasTy] at hv
    simp only [Grown.up, Grown.down, down_upFields g _ hv]
  | _, _, .enum _ g, v, hv => by
    cases v <;> simp only [hasTy] at hv
    simp only [Grown.up, Grown.down, down_upVariants g _ _ hv]
/-- Fields. -/
theorem down_upFields {T : Target} : ∀ {fs fs' : Fields} (g : GrownFields fs fs') (v : Val), hasTyFields T fs v → g.down (g.up v) = v
  | _, _, .added _, v, hv => by
    cases v <;> simp only [hasTyFields] at hv
    rfl
  | _, _, .next _ _ g, v, hv => by
    cases v <;> simp only [hasTyFields] at hv
    simp only [GrownFields.up, GrownFields.down, down_upFields g _ hv.2]
  | _, _, .last _ _ g _, v, hv => by
    cases v <;> simp only [hasTyFields] at hv
    have h2 := hv.2
    rename_i w
    cases w <;> simp only [hasTyFields] at h2
    simp only [GrownFields.up, GrownFields.down, C70_down_up g _ hv.1]
/-- Variants. -/
theorem down_upVariants {T : Target} : ∀ {vs vs' : Variants} (g : GrownVariants vs vs') (i : Nat) (v : Val), hasTyVariants T vs i v →
    g.down i (g.up i v) = v
  | _, _, .nil, _, _, hv => by simp [hasTyVariants] at hv
  | _, _, .cons _ g _, 0, v, hv => by
    simp only [hasTyVariants] at hv
    simp only [GrownVariants.up, GrownVariants.down, down_upFields g _ hv]
  | _, _, .cons _ _ g', i + 1, v, hv => by
    simp only [hasTyVariants] at hv
    simp only [GrownVariants.up, GrownVariants.down, down_upVariants g' _ _ hv]
end

/-! ## New programs, old data -/

section
variable {T : Target} (hT : T.Ok) {e : Endian} {t t' : Ty} (g : Grown t t') {v : Val} {bs : Bytes} {junk : Nat → UInt8}
  (hl : layoutOk T t = true) (hd : declOk t = true) (hr : regular T e t = true)
  (hl' : layoutOk T t' = true) (hd' : declOk t' = true) (hr' : regular T e t' = true) (he' : ends true false t' = true)
  (hf : g.fills = true) (hv : hasTy T t v) (hc : canon (Fmt.code T.toHost e) t v) (hw : writeToVec T e t v junk = .ok bs)
include hT hl hd hr hl' hd' hr' he' hf hv hc hw

theorem old_parse (hb : Fits T bs) : minBytes T t' ≤ bs.length ∧ parse T e t' Cx.std bs = .ok (g.up v) [] := by
  obtain ⟨hw, _⟩ := vec_inv hT hl hd (regular_slice t hr) hv hw
  have h1 := parse_up hT (e := e) (Nat.lt_of_le_of_lt (Nat.zero_le _) hb.fuel) g true LenR.std Cx.std.inl v bs hf hl' hd' hr' he'
    (lenOk_std _ _ _) hv hc hw hb
  have h2 := wire_min (e := e) t LenR.std v bs hl hd hr hv hc hw
  rw [minAt_std] at h2
  rw [min_grown g hf]
  refine ⟨h2, ?_⟩
  have h3 := h1.1 [] (fun _ => rfl)
  rw [List.append_nil] at h3
  exact h3

/-- **C70**: `read_from_buffer` with the new type reads what was written of the old one, with the default values of the new fields.

Missing: the exceptions of C01 and C23. -/
theorem C70_new_reads_old_partial {base : Nat} (hm : InMem T base bs) : readFromBuffer T e t' base bs = .ok (g.up v) := by
  obtain ⟨h1, h2⟩ := old_parse hT g hl hd hr hl' hd' hr' he' hf hv hc hw hm.fits
  unfold readFromBuffer
  rw [buffer_ok hT hl' hm h1 h2]

/-- C70 for `read_from_buffer_copying_data`. -/
theorem C70_new_reads_old_copying_partial {base : Nat} (hn : noRefs t' = true) (hm : InMem T base bs) :
    readFromBufferCopying T e t' base bs = .ok (g.up v) := by
  obtain ⟨h1, h2⟩ := old_parse hT g hl hd hr hl' hd' hr' he' hf hv hc hw hm.fits
  unfold readFromBufferCopying
  rw [copying_ok hT hl' hm hn h1 h2]

/-- C70 for both stream readers. -/
theorem C70_new_reads_old_stream_partial {grow : Nat → Nat} (hg : ∀ n, n ≤ grow n) {buffered : Bool} {src : Src} (hn : noRefs t' = true)
    (hs : src.Clean) (hb : src.data = bs) (hm : Fits T bs) : (readFromStream T e t' grow buffered src).1 = .ok (g.up v) := by
  obtain ⟨_, h2⟩ := old_parse hT g hl hd hr hl' hd' hr' he' hf hv hc hw hm
  subst hb
  have h4 := stream_outcome hT hl' (e := e) hg (b := buffered) hs hm hn
  rw [h2] at h4
  exact h4.1

end

/-! ## Old programs, new data -/

section
variable {T : Target} (hT : T.Ok) {e : Endian} {t t' : Ty} (g : Grown t t') {v : Val} {bs : Bytes} {junk : Nat → UInt8}
  (hl : layoutOk T t = true) (hd : declOk t = true) (hr : regular T e t = true)
  (hl' : layoutOk T t' = true) (hd' : declOk t' = true) (hr' : regular T e t' = true) (he' : ends true false t' = true)
  (hv : hasTy T t' v) (hc : canon (Fmt.code T.toHost e) t' v) (hw : writeToVec T e t' v junk = .ok bs)
include hT hl hd hr hl' hd' hr' he' hv hc hw

theorem new_parse (hb : Fits T bs) : ∃ used extra, bs = used ++ extra ∧ minBytes T t ≤ bs.length ∧
    parse T e t Cx.std bs = .ok (g.down v) extra := by
  obtain ⟨hw, _⟩ := vec_inv hT hl' hd' (regular_slice t' hr') hv hw
  obtain ⟨used, extra, h1, h2⟩ := parse_down hT (e := e) g true LenR.std Cx.std.inl v bs hl hd hr hd' he' (lenOk_std _ _ _) hv hc hw hb
  have h3 := wire_min (e := e) t' LenR.std v bs hl' hd' hr' hv hc hw
  rw [minAt_std] at h3
  refine ⟨used, extra, h1, Nat.le_trans (min_less g) h3, ?_⟩
  have h4 := h2 [] (fun _ => rfl)
  rw [List.append_nil] at h4
  rw [h1]
  exact h4

/-- C70: `read_from_buffer` with the old type reads what was written of the new one; the new fields are ignored.

Missing: the exceptions of C01. -/
theorem C70_old_reads_new_partial {base : Nat} (hm : InMem T base bs) : readFromBuffer T e t base bs = .ok (g.down v) := by
  obtain ⟨used, extra, h1, h2, h3⟩ := new_parse hT g hl hd hr hl' hd' hr' he' hv hc hw hm.fits
  unfold readFromBuffer
  rw [buffer_ok hT hl hm h2 h3]

/-- C70 for `read_from_buffer_copying_data`. -/
theorem C70_old_reads_new_copying_partial {base : Nat} (hn : noRefs t = true) (hm : InMem T base bs) :
    readFromBufferCopying T e t base bs = .ok (g.down v) := by
  obtain ⟨used, extra, h1, h2, h3⟩ := new_parse hT g hl hd hr hl' hd' hr' he' hv hc hw hm.fits
  unfold readFromBufferCopying
  rw [copying_ok hT hl hm hn h2 h3]

/-- C70 for both stream readers. -/
theorem C70_old_reads_new_stream_partial {grow : Nat → Nat} (hg : ∀ n, n ≤ grow n) {buffered : Bool} {src : Src} (hn : noRefs t = true)
    (hs : src.Clean) (hb : src.data = bs) (hm : Fits T bs) : (readFromStream T e t grow buffered src).1 = .ok (g.down v) := by
  obtain ⟨used, extra, h1, h2, h3⟩ := new_parse hT g hl hd hr hl' hd' hr' he' hv hc hw hm
  subst hb
  have h4 := stream_outcome hT hl (e := e) hg (b := buffered) hs hm hn
  rw [h3] at h4
  exact h4.1

end

/-! ## Examples -/

namespace GrowExamples

open Samples

/-- `struct Point { x: u16 }` -/
def point : Fields := .cons {} (.prim .u16) .nil

/-- `struct Point { x: u16, #[speedy(default_on_eof)] y: u16 }` -/
def pointNew : Fields := .cons {} (.prim .u16) (.cons { defaultOnEof := true, dflt := .num 0 } (.prim .u16) .nil)

/-- `struct Event { id: u8, at: Option<Point> }` -/
def event : Ty := .struct ⟨.rust, 25, 1, [24, 0], false⟩ (.cons {} (.prim .u8)
  (.cons {} (.option (.struct ⟨.rust, 2, 2, [0], false⟩ point)) .nil))

/-- `struct Event { id: u8, at: Option<Point>, #[speedy(default_on_eof)] name: Vec<u8> }`, with the new `Point`. -/
def eventNew : Ty := .struct ⟨.rust, 49, 1, [48, 0, 24], false⟩ (.cons {} (.prim .u8)
  (.cons {} (.option (.struct ⟨.rust, 4, 2, [0, 2], false⟩ pointNew))
    (.cons { defaultOnEof := true, dflt := .list [] } (.seq .vec (.prim .u8)) .nil)))

/-- Two versions. -/
def grownEvent : Grown event eventNew :=
  .struct _ _ (.next _ _ (.last _ rfl (.option (.struct _ _ (.next _ _ (.added _)))) _))

example : readFromBuffer x64 .little eventNew 4096 [7, 1, 5, 1] =
    .ok (.pair (.num 7) (.pair (.some (.pair (.num 0x0105) (.pair (.num 0) .unit))) (.pair (.list []) .unit))) :=
  C70_new_reads_old_partial x64_ok grownEvent (v := .pair (.num 7) (.pair (.some (.pair (.num 0x0105) .unit)) .unit)) (junk := fun _ => 0)
    (by decide) (by decide) (by decide) (by decide) (by decide) (by decide) (by decide) (by decide)
    (by simp [event, point, hasTy, hasTyFields, Prim.size]) (by simp [event, point, canon, canonFields]) (by decide)
    ⟨by decide, by decide, by decide⟩

example : readFromBuffer x64 .little event 4096 [7, 1, 5, 1, 9, 0, 1, 0, 0, 0, 255] =
    .ok (.pair (.num 7) (.pair (.some (.pair (.num 0x0105) .unit)) .unit)) :=
  C70_old_reads_new_partial x64_ok grownEvent
    (v := .pair (.num 7) (.pair (.some (.pair (.num 0x0105) (.pair (.num 9) .unit))) (.pair (.list [.num 255]) .unit))) (junk := fun _ => 0)
    (by decide) (by decide) (by decide) (by decide) (by decide) (by decide) (by decide)
    (by simp [eventNew, pointNew, hasTy, hasTyFields, Prim.size]; decide) (by simp [eventNew, pointNew, canon, canonFields]) (by decide)
    ⟨by decide, by decide, by decide⟩

/-- `#[speedy(tag_type = u8, peek_tag)] enum Reply { #[speedy(tag = 0)] Ok(u16), #[speedy(tag = 1)] Busy(u8) }`: the tag is the first byte of the field. -/
def reply : Ty := .enum ⟨.u8, true, 0⟩ (.cons 0 (.cons {} (.prim .u16) .nil) (.cons 1 (.cons {} (.prim .u8) .nil) .nil))

/-- `Busy` has got a second field, `#[speedy(default_on_eof, length = ..)] why: Vec<u8>`. -/
def replyNew : Ty := .enum ⟨.u8, true, 0⟩ (.cons 0 (.cons {} (.prim .u16) .nil) (.cons 1 (.cons {} (.prim .u8)
  (.cons { defaultOnEof := true, dflt := .list [], len := some .untilEof } (.seq .vec (.prim .u8)) .nil)) .nil))

/-- Two versions. -/
def grownReply : Grown reply replyNew := .enum _ (.cons _ (.next _ _ (.added _)) (.cons _ (.next _ _ (.added _)) .nil))

example : readFromBuffer x64 .little replyNew 4096 [1] = .ok (.variant 1 (.pair (.num 1) (.pair (.list []) .unit))) :=
  C70_new_reads_old_partial x64_ok grownReply (v := .variant 1 (.pair (.num 1) .unit)) (junk := fun _ => 0)
    (by decide) (by decide) (by decide) (by decide) (by decide) (by decide) (by decide) (by decide)
    (by simp [reply, hasTy, hasTyFields, hasTyVariants, Prim.size])
    (by simp only [reply, canon, canonFields, canonVariants]; exact ⟨by simp, fun _ => ⟨by simp, [], by decide⟩⟩) (by decide)
    ⟨by decide, by decide, by decide⟩

example : readFromBuffer x64 .little reply 4096 [1, 8, 9] = .ok (.variant 1 (.pair (.num 1) .unit)) :=
  C70_old_reads_new_partial x64_ok grownReply (v := .variant 1 (.pair (.num 1) (.pair (.list [.num 8, .num 9]) .unit))) (junk := fun _ => 0)
    (by decide) (by decide) (by decide) (by decide) (by decide) (by decide) (by decide)
    (by simp [replyNew, hasTy, hasTyFields, hasTyVariants, Prim.size]; decide)
    (by simp only [replyNew, canon, canonFields, canonVariants]; exact ⟨by simp, fun _ => ⟨by simp, [8, 9], by decide⟩⟩) (by decide)
    ⟨by decide, by decide, by decide⟩

/-- `struct Blob { kind: u8, #[speedy(length = ..)] rest: Vec<u8> }`, the same in both versions, as the last field of
`struct Doc { blob: Blob }`. -/
def doc : Ty := .struct ⟨.rust, 32, 8, [0], false⟩ (.cons {} (.struct ⟨.rust, 32, 8, [0, 8], false⟩
  (.cons {} (.prim .u8) (.cons { len := some .untilEof } (.seq .vec (.prim .u8)) .nil))) .nil)

example : readFromBuffer x64 .little doc 4096 [1, 8, 9] = .ok (.pair (.pair (.num 1) (.pair (.list [.num 8, .num 9]) .unit)) .unit) :=
  C70_old_reads_new_partial x64_ok (t := doc) (t' := doc) (.struct _ _ (.last _ rfl (.same _) .nil))
    (v := .pair (.pair (.num 1) (.pair (.list [.num 8, .num 9]) .unit)) .unit) (junk := fun _ => 0)
    (by decide) (by decide) (by decide) (by decide) (by decide) (by decide) (by decide)
    (by simp [doc, hasTy, hasTyFields, Prim.size]; decide) (by simp [doc, canon, canonFields]) (by decide)
    ⟨by decide, by decide, by decide⟩

/-- **Only at the end**: two old points in a vector, `[Point { x: 1 }, Point { x: 2 }]`, cannot be read as two new ones,
the second one's `x` is taken for the first one's `y`. -/
theorem _root_.Verif.C70_false_inside :
    writeToVec x64 .little (.seq .vec (.struct ⟨.rust, 2, 2, [0], false⟩ point)) (.list [.pair (.num 1) .unit, .pair (.num 2) .unit]) (fun _ => 0) =
      .ok [2, 0, 0, 0, 1, 0, 2, 0] ∧
    (readFromBuffer x64 .little (.seq .vec (.struct ⟨.rust, 4, 2, [0, 2], false⟩ pointNew)) 4096 [2, 0, 0, 0, 1, 0, 2, 0]) =
      .error .unexpectedEndOfInput := by decide

/-- The new fields must be marked `default_on_eof`. -/
theorem _root_.Verif.C70_false_unmarked :
    readFromBuffer x64 .little (.struct ⟨.rust, 4, 2, [0, 2], false⟩ (.cons {} (.prim .u16) (.cons {} (.prim .u16) .nil))) 4096 [1, 0] =
      .error (.inputBufferIsTooSmall 2 4) := by decide

end GrowExamples

/-! ## Cases -/

section Cases
open Samples

section
open Samples GrowExamples
example : grownEvent.down (grownEvent.up (.pair (.num 7) (.pair (.some (.pair (.num 0x0105) .unit)) .unit))) =
    .pair (.num 7) (.pair (.some (.pair (.num 0x0105) .unit)) .unit) :=
  C70_down_up (T := x64) _ _ (by simp [event, GrowExamples.point, hasTy, hasTyFields, Prim.size])

example : readFromBufferCopying x64 .little eventNew 4096 [7, 1, 5, 1] =
    .ok (.pair (.num 7) (.pair (.some (.pair (.num 0x0105) (.pair (.num 0) .unit))) (.pair (.list []) .unit))) :=
  C70_new_reads_old_copying_partial x64_ok grownEvent (v := .pair (.num 7) (.pair (.some (.pair (.num 0x0105) .unit)) .unit)) (junk := fun _ => 0)
    (by decide) (by decide) (by decide) (by decide) (by decide) (by decide) (by decide) (by decide)
    (by simp [event, GrowExamples.point, hasTy, hasTyFields, Prim.size]) (by simp [event, GrowExamples.point, canon, canonFields]) (by decide)
    (by decide) ⟨by decide, by decide, by decide⟩

example : (readFromStream x64 .little eventNew (· + 100) true ⟨[7, 1, 5, 1], [.give 2]⟩).1 =
    .ok (.pair (.num 7) (.pair (.some (.pair (.num 0x0105) (.pair (.num 0) .unit))) (.pair (.list []) .unit))) :=
  C70_new_reads_old_stream_partial x64_ok grownEvent (v := .pair (.num 7) (.pair (.some (.pair (.num 0x0105) .unit)) .unit)) (bs := [7, 1, 5, 1])
    (junk := fun _ => 0) (by decide) (by decide) (by decide) (by decide) (by decide) (by decide) (by decide) (by decide)
    (by simp [event, GrowExamples.point, hasTy, hasTyFields, Prim.size]) (by simp [event, GrowExamples.point, canon, canonFields]) (by decide)
    (fun n => by omega) (by decide) (by simp [Src.Clean]) rfl ⟨by decide, by decide⟩

example : readFromBufferCopying x64 .little event 4096 [7, 1, 5, 1, 9, 0, 1, 0, 0, 0, 255] =
    .ok (.pair (.num 7) (.pair (.some (.pair (.num 0x0105) .unit)) .unit)) :=
  C70_old_reads_new_copying_partial x64_ok grownEvent
    (v := .pair (.num 7) (.pair (.some (.pair (.num 0x0105) (.pair (.num 9) .unit))) (.pair (.list [.num 255]) .unit))) (junk := fun _ => 0)
    (by decide) (by decide) (by decide) (by decide) (by decide) (by decide) (by decide)
    (by simp [eventNew, pointNew, hasTy, hasTyFields, Prim.size]; decide) (by simp [eventNew, pointNew, canon, canonFields]) (by decide)
    (by decide) ⟨by decide, by decide, by decide⟩

example : (readFromStream x64 .little event (· + 100) false ⟨[7, 1, 5, 1, 9, 0, 1, 0, 0, 0, 255], [.give 1]⟩).1 =
    .ok (.pair (.num 7) (.pair (.some (.pair (.num 0x0105) .unit)) .unit)) :=
  C70_old_reads_new_stream_partial x64_ok grownEvent
    (v := .pair (.num 7) (.pair (.some (.pair (.num 0x0105) (.pair (.num 9) .unit))) (.pair (.list [.num 255]) .unit)))
    (bs := [7, 1, 5, 1, 9, 0, 1, 0, 0, 0, 255]) (junk := fun _ => 0)
    (by decide) (by decide) (by decide) (by decide) (by decide) (by decide) (by decide)
    (by simp [eventNew, pointNew, hasTy, hasTyFields, Prim.size]; decide) (by simp [eventNew, pointNew, canon, canonFields]) (by decide)
    (fun n => by omega) (by decide) (by simp [Src.Clean]) rfl ⟨by decide, by decide⟩

end

end Cases

end Verif
