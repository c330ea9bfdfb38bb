import Verif.Evolve
import Verif.PropsAgree
import Verif.PropsDerive

/-!
# Newer versions of a program: C67

`Older T t t'`: `t'` is `t` with variants added at the end of enums somewhere in it.  `C67_declared` says so of declarations.
-/

namespace Verif

theorem OlderFields.refl {T : Target} : ∀ fs : Fields, OlderFields T fs fs
  | .nil => .nil
  | .cons _ t fs => .cons (.refl t) (OlderFields.refl fs)

theorem derive_older {T : Target} {max : Nat} {new : List RawVariant} : ∀ {vs : List RawVariant} {prev : Option Nat}
    {seen : List Nat} {V V' : Variants}, deriveVariants max prev seen vs = .ok V → deriveVariants max prev seen (vs ++ new) = .ok V' →
    OlderVariants T V V'
  | [], _, _, _, _, h, _ => by
    simp only [deriveVariants, Except.ok.injEq] at h
    exact h ▸ .nil _
  | v :: vs, prev, seen, V, V', h, h' => by
    simp only [List.cons_append, deriveVariants] at h h'
    cases ht : chooseTag max prev v with
    | error er => simp [ht] at h
    | ok tag =>
      simp only [ht] at h h'
      split at h
      · cases h
      · rename_i hs
        rw [if_neg hs] at h'
        cases hf : getFields false v.fields with
        | error er => simp [hf] at h
        | ok fs =>
          simp only [hf] at h h'
          cases h1 : deriveVariants max (some tag) (tag :: seen) vs with
          | error er => simp [h1] at h
          | ok r =>
            cases h2 : deriveVariants max (some tag) (tag :: seen) (vs ++ new) with
            | error er => simp [h2] at h'
            | ok r' =>
              simp only [h1, h2, Except.ok.injEq] at h h'
              subst h h'
              exact .cons (OlderFields.refl fs) (derive_older h1 h2)

/-- **C67**, declarations: if variants are added at the end of an enum, whatever attributes and discriminants they have, and the
macro accepts both, then the others keep their tags. -/
theorem C67_declared {T : Target} {name peeks : Nat} {tagTypes : List LenTy} {vs new : List RawVariant} {d d' : EnumDesc}
    {V V' : Variants} (h : deriveEnum name tagTypes peeks vs = .ok (d, V))
    (h' : deriveEnum name tagTypes peeks (vs ++ new) = .ok (d', V')) : Older T (.enum d V) (.enum d' V') := by
  have key : ∀ {vs : List RawVariant} {d : EnumDesc} {V : Variants}, deriveEnum name tagTypes peeks vs = .ok (d, V) →
      d = ⟨tagTypes.headD .u32, peeks == 1, name⟩ := fun h => by
    unfold deriveEnum at h
    split at h
    · cases h
    split at h
    · cases h
    simp only at h
    split at h
    · cases h
    simp only [Except.ok.injEq, Prod.mk.injEq] at h
    exact h.1.symm
  have hd : d = d' := (key h).trans (key h').symm
  subst hd
  exact .enum (derive_older (deriveEnum_ok h).1 (deriveEnum_ok h').1)

section
variable {T : Target} (hT : T.Ok) {e : Endian} {t t' : Ty} (ho : Older T t t')
include hT ho

/-- **C67**, writing: values of the old type are written by the new program as the same bytes.

Full claim: for all types.  Missing: the exceptions of C01 (`regular`). -/
theorem C67_written_partial (hl : layoutOk T t = true) (hd : declOk t = true) (hr : regular T e t = true)
    (hl' : layoutOk T t' = true) (hd' : declOk t' = true) (hr' : regular T e t' = true) {v : Val} (hv : hasTy T t v)
    (hv' : hasTy T t' v) (junk junk' : Nat → UInt8) (bs : Bytes) :
    writeToVec T e t v junk = .ok bs ↔ writeToVec T e t' v junk' = .ok bs := by
  have hw := wire_older (F := Fmt.code T.toHost e) t t' ho LenR.std v hv
  constructor
  · intro h
    obtain ⟨h1, h2⟩ := vec_inv hT hl hd (regular_slice t hr) hv h
    exact vec_ok hT hl' hd' (regular_slice t' hr') hv' (hw ▸ h1) h2
  · intro h
    obtain ⟨h1, h2⟩ := vec_inv hT hl' hd' (regular_slice t' hr') hv' h
    exact vec_ok hT hl hd (regular_slice t hr) hv (hw ▸ h1) h2

/-- **C67**, old data: what the old program has written, the new one reads.

Full claim: for all types.  Missing: the exceptions of C01. -/
theorem C67_old_data_partial (hl : layoutOk T t = true) (hd : declOk t = true) (hr : regular T e t = true)
    (hl' : layoutOk T t' = true) (hd' : declOk t' = true) (hr' : regular T e t' = true) (he' : ends true false t' = true) {v : Val}
    (hv : hasTy T t v) (hv' : hasTy T t' v) (hc : canon (Fmt.code T.toHost e) t v) {junk : Nat → UInt8} {bs : Bytes}
    (h : writeToVec T e t v junk = .ok bs) {base : Nat} (hm : InMem T base bs) : readFromBuffer T e t' base bs = .ok v :=
  C01_round_trip_partial hT hl' hd' hr' hv' (canon_older t t' ho v hv hc)
    ((C67_written_partial hT ho hl hd hr hl' hd' hr' hv hv' junk junk bs).mp h) he' hm

/-- C67, old data from streams. -/
theorem C67_old_data_stream_partial (hl : layoutOk T t = true) (hd : declOk t = true) (hr : regular T e t = true)
    (hl' : layoutOk T t' = true) (hd' : declOk t' = true) (hr' : regular T e t' = true) (he' : ends true false t' = true) {v : Val}
    (hv : hasTy T t v) (hv' : hasTy T t' v) (hc : canon (Fmt.code T.toHost e) t v) {junk : Nat → UInt8} {bs : Bytes}
    (h : writeToVec T e t v junk = .ok bs) {grow : Nat → Nat} (hg : ∀ n, n ≤ grow n) {buffered : Bool} {src : Src}
    (hn : noRefs t' = true) (hs : src.Clean) (hb : src.data = bs) (hf : Fits T bs) :
    (readFromStream T e t' grow buffered src).1 = .ok v :=
  C01_round_trip_stream_partial hT hl' hd' hr' hv' (canon_older t t' ho v hv hc)
    ((C67_written_partial hT ho hl hd hr hl' hd' hr' hv hv' junk junk bs).mp h) hg he' hn hs hb hf

/-- **C67**, new data: what the new program writes of values which the old one has too, the old one reads.

Full claim: for all types.  Missing: the exceptions of C01. -/
theorem C67_new_data_partial (hl : layoutOk T t = true) (hd : declOk t = true) (hr : regular T e t = true)
    (hl' : layoutOk T t' = true) (hd' : declOk t' = true) (hr' : regular T e t' = true) (he : ends true false t = true) {v : Val}
    (hv : hasTy T t v) (hv' : hasTy T t' v) (hc : canon (Fmt.code T.toHost e) t v) {junk : Nat → UInt8} {bs : Bytes}
    (h : writeToVec T e t' v junk = .ok bs) {base : Nat} (hm : InMem T base bs) : readFromBuffer T e t base bs = .ok v :=
  C01_round_trip_partial hT hl hd hr hv hc ((C67_written_partial hT ho hl hd hr hl' hd' hr' hv hv' junk junk bs).mpr h) he hm

variable (ha : Agreeable T e t) (ha' : Agreeable T e t')
include ha ha'

omit ho ha ha' in
theorem buffer_refused (hl : layoutOk T t = true) {base : Nat} {buf : Bytes} (hm : InMem T base buf) {er : Err}
    (he : er.isEof = false) (hmin : minBytes T t ≤ buf.length) (h : parse T e t Cx.std buf = .fail er) :
    readFromBuffer T e t base buf = .error er := by
  have ho := buffer_outcome hT hl (e := e) hm
  rw [h] at ho
  obtain ⟨er', h1, h2, _⟩ := ho
  rw [he] at h2
  unfold readFromBuffer readWithLengthFromBuffer
  rw [if_neg (by omega)]
  simp only
  rw [h1, h2]

/-- Parsing as the old type. -/
theorem older_parse {bs rest : Bytes} {v : Val} (h : parse T e t Cx.std bs = .ok v rest) :
    parse T e t' Cx.std bs = .ok v rest ∨ parse T e t' Cx.std bs = .fail (.panic .capacityOverflow) := by
  rcases parse_older hT t t' ho ha.reg ha'.reg Cx.std bs with h1 | h1 | h1
  · exact .inl (h1 ▸ h)
  · rcases h1 with h1 | ⟨er, _, h1 | ⟨h1, _⟩⟩ <;> rw [h] at h1 <;> cases h1
  · rcases h1 with h1 | ⟨er, rfl, h1 | ⟨_, h1⟩⟩
    · exact absurd h1 (ha'.tot hT bs)
    · exact .inr h1
    · exact absurd h (h1 _ _)

/-- Parsing as the new type. -/
theorem newer_parse {bs rest : Bytes} {v : Val} (h : parse T e t' Cx.std bs = .ok v rest) :
    parse T e t Cx.std bs = .ok v rest ∨ ∃ er, Unknown er ∧ parse T e t Cx.std bs = .fail er := by
  rcases parse_older hT t t' ho ha.reg ha'.reg Cx.std bs with h1 | h1 | h1
  · exact .inl (h1 ▸ h)
  · rcases h1 with h1 | ⟨er, hu, h1 | ⟨_, h1⟩⟩
    · exact absurd h1 (ha.tot hT bs)
    · exact .inr ⟨er, hu, h1⟩
    · exact absurd h (h1 _ _)
  · rcases h1 with h1 | ⟨er, _, h1 | ⟨h1, _⟩⟩ <;> rw [h] at h1 <;> cases h1

/-- **C67**, any input: whatever the old program accepts, the new one reads as the same value from the same number of bytes (unless
a `Vec` of it would need more memory than there is).

Full claim: for all types.  Missing: those for which the readers disagree (`Agreeable`). -/
theorem C67_any_input_partial {base : Nat} {buf : Bytes} (hm : InMem T base buf) {v : Val} {n : Nat}
    (h : readWithLengthFromBuffer T e t base buf = (.ok v, n)) :
    readWithLengthFromBuffer T e t' base buf = (.ok v, n) ∨ readFromBuffer T e t' base buf = .error (.panic .capacityOverflow) := by
  obtain ⟨rest, h1, rfl⟩ := (ha.buffer_iff hT hm v n).mp h
  rcases older_parse hT ho ha ha' h1 with h2 | h2
  · exact .inl ((ha'.buffer_iff hT hm v _).mpr ⟨rest, h2, rfl⟩)
  · refine .inr (buffer_refused hT ha'.layout hm rfl ?_ h2)
    rw [← older_min t t' ho]
    exact ha.min_le h1

/-- **C67**, unknown variants: an old program which is given a value of the new type either reads the same value or fails because it
does not know a variant (or memory), never with another value.

Full claim: for all types.  Missing: as above. -/
theorem C67_unknown_partial {base : Nat} {buf : Bytes} (hm : InMem T base buf) {v : Val} {n : Nat}
    (h : readWithLengthFromBuffer T e t' base buf = (.ok v, n)) :
    readWithLengthFromBuffer T e t base buf = (.ok v, n) ∨ readFromBuffer T e t base buf = .error .invalidEnumVariant ∨
      readFromBuffer T e t base buf = .error (.panic .capacityOverflow) := by
  obtain ⟨rest, h1, rfl⟩ := (ha'.buffer_iff hT hm v n).mp h
  rcases newer_parse hT ho ha ha' h1 with h2 | ⟨er, hu, h2⟩
  · exact .inl ((ha.buffer_iff hT hm v _).mpr ⟨rest, h2, rfl⟩)
  · have h3 := buffer_refused hT ha.layout hm (unknown_eof hu) (by rw [older_min t t' ho]; exact ha'.min_le h1) h2
    rcases hu with rfl | rfl
    · exact .inr (.inl h3)
    · exact .inr (.inr h3)

/-- C67, any input from streams. -/
theorem C67_any_input_stream_partial {grow : Nat → Nat} (hg : ∀ n, n ≤ grow n) (b : Bool) {src : Src} (hs : src.Clean)
    (hf : Fits T src.data) (hn : noRefs t = true) (hn' : noRefs t' = true) {v : Val}
    (h : (readFromStream T e t grow b src).1 = .ok v) :
    (readFromStream T e t' grow b src).1 = .ok v ∨ (readFromStream T e t' grow b src).1 = .error (.panic .capacityOverflow) := by
  obtain ⟨rest, h1⟩ := (ha.stream_iff hT hg b hs hf hn v).mp h
  rcases older_parse hT ho ha ha' h1 with h2 | h2
  · exact .inl ((ha'.stream_iff hT hg b hs hf hn' v).mpr ⟨rest, h2⟩)
  · have ho := stream_outcome hT ha'.layout (e := e) hg (b := b) hs hf hn'
    rw [h2] at ho
    obtain ⟨er, h3, h4, _⟩ := ho
    exact .inr (h3.trans (congrArg _ h4))

/-- C67, unknown variants from streams. -/
theorem C67_unknown_stream_partial {grow : Nat → Nat} (hg : ∀ n, n ≤ grow n) (b : Bool) {src : Src} (hs : src.Clean)
    (hf : Fits T src.data) (hn : noRefs t = true) (hn' : noRefs t' = true) {v : Val}
    (h : (readFromStream T e t' grow b src).1 = .ok v) :
    (readFromStream T e t grow b src).1 = .ok v ∨ (readFromStream T e t grow b src).1 = .error .invalidEnumVariant ∨
      (readFromStream T e t grow b src).1 = .error (.panic .capacityOverflow) := by
  obtain ⟨rest, h1⟩ := (ha'.stream_iff hT hg b hs hf hn' v).mp h
  rcases newer_parse hT ho ha ha' h1 with h2 | ⟨er, hu, h2⟩
  · exact .inl ((ha.stream_iff hT hg b hs hf hn v).mpr ⟨rest, h2⟩)
  · have ho := stream_outcome hT ha.layout (e := e) hg (b := b) hs hf hn
    rw [h2] at ho
    obtain ⟨er', h3, h4, _⟩ := ho
    rw [unknown_eof hu] at h4
    have h5 := h3.trans (congrArg _ h4)
    rcases hu with rfl | rfl
    · exact .inr (.inl h5)
    · exact .inr (.inr h5)

end

/-! ## Examples -/

open Samples

/-- `Shape` with a third variant, `#[speedy(tag = 5)] Circle { x: u16, y: u16, r: Option<u32> }`. -/
def shape2 : Ty := .enum ⟨.u8, false, 0⟩
  (.cons 3 .nil (.cons 7 (.cons {} (.seq .vec point) .nil)
  (.cons 5 (.cons {} (.prim .u16) (.cons {} (.prim .u16) (.cons {} (.option (.prim .u32)) .nil))) .nil)))

/-- `Message` with it; the struct may have another size. -/
def message2 : Ty := .struct ⟨.rust, 72, 8, [0, 24, 32], true⟩
  (.cons { len := some (.typed .u8) } (.str .owned)
  (.cons {} (.prim .u32)
  (.cons { pre := [0x53] } shape2 .nil)))

theorem shape_older : Older x64 shape shape2 :=
  .enum (.cons .nil (.cons (OlderFields.refl _) (.nil _)))

theorem message_older : Older x64 message message2 :=
  .struct (.cons (.refl _) (.cons (.refl _) (.cons shape_older .nil))) (.inr ⟨by decide, by decide, by decide⟩)

theorem message2_agreeable (e : Endian) : Agreeable x64 e message2 := by
  cases e <;> exact ⟨by decide, by decide, by decide, by decide, by decide, by decide⟩

/-- Old messages are read by the new program, whatever is in the buffer … -/
example (v : Val) (n : Nat) (buf : Bytes) (hm : InMem x64 4096 buf)
    (h : readWithLengthFromBuffer x64 .little message 4096 buf = (.ok v, n)) :
    readWithLengthFromBuffer x64 .little message2 4096 buf = (.ok v, n) ∨
      readFromBuffer x64 .little message2 4096 buf = .error (.panic .capacityOverflow) :=
  C67_any_input_partial x64_ok message_older (message_agreeable _) (message2_agreeable _) hm h

/-- … for instance this one. -/
example : readFromBuffer x64 .little message2 4096 msgLe = .ok msg := by
  refine C67_old_data_partial x64_ok message_older message_layout message_decl (message_regular _) (message2_agreeable .little).layout
    (message2_agreeable .little).decl (message2_agreeable .little).reg (by decide) msg_ty ?_ (msg_canon _) (msg_vec fun _ => 0) msg_mem
  simp [message2, msg, shape2, point, hasTy, hasTyFields, hasTyVariants, Prim.size]
  decide

/-- A message with the new variant. -/
def msgCircle : Bytes := [2, 0x68, 0x69, 4, 3, 2, 1, 0x53, 5, 1, 0, 2, 0, 1, 9, 0, 0, 0]

/-- It is refused by the old program. -/
example : (∃ v, readWithLengthFromBuffer x64 .little message2 4096 msgCircle = (.ok v, 18)) ∧
    readFromBuffer x64 .little message 4096 msgCircle = .error .invalidEnumVariant :=
  ⟨⟨_, rfl⟩, rfl⟩

/-- `enum E { A, #[speedy(tag = 7)] B, C }` and the same with a new variant `D` whose tag comes before. -/
example : ∃ d V d' V', deriveEnum 0 [.u8] 0 [⟨[], none, []⟩, ⟨[7], none, []⟩, ⟨[], none, []⟩] = .ok (d, V) ∧
    deriveEnum 0 [.u8] 0 ([⟨[], none, []⟩, ⟨[7], none, []⟩, ⟨[], none, []⟩] ++ [⟨[3], none, []⟩]) = .ok (d', V') ∧
    Older x64 (.enum d V) (.enum d' V') :=
  ⟨_, _, _, _, rfl, rfl, C67_declared (vs := [⟨[], none, []⟩, ⟨[7], none, []⟩, ⟨[], none, []⟩]) (new := [⟨[3], none, []⟩])
    (name := 0) (peeks := 0) (tagTypes := [.u8]) rfl rfl⟩

/-- **C67 is false** for variants which are added before others: `enum E { A, C }` becomes `enum E { A, B, C }`, and what was written
as `C` is read as `B`. -/
theorem C67_false_middle : ∃ d V V', deriveEnum 0 [] 0 [⟨[], none, []⟩, ⟨[], none, []⟩] = .ok (d, V) ∧
    deriveEnum 0 [] 0 [⟨[], none, []⟩, ⟨[], none, []⟩, ⟨[], none, []⟩] = .ok (d, V') ∧
    writeToVec x64 .little (.enum d V) (.variant 1 .unit) (fun _ => 0) = .ok [1, 0, 0, 0] ∧
    readFromBuffer x64 .little (.enum d V') 4096 [1, 0, 0, 0] = .ok (.variant 1 .unit) ∧
    writeToVec x64 .little (.enum d V') (.variant 2 .unit) (fun _ => 0) = .ok [2, 0, 0, 0] :=
  ⟨_, _, _, rfl, rfl, rfl, rfl, rfl⟩

/-- **C67 is false** for a `Vec` of an enum with one variant and no fields, which is written with tags and read without: when the enum
gets a second variant, what the old program reads is read as something else. -/
theorem C67_false_only :
    readFromBuffer x64 .little (.seq .vec (.enum ⟨.u8, false, 0⟩ (.cons 0 .nil .nil))) 4096 [1, 0, 0, 0, 0] = .ok (.list [.variant 0 .unit]) ∧
    readWithLengthFromBuffer x64 .little (.seq .vec (.enum ⟨.u8, false, 0⟩ (.cons 0 .nil .nil))) 4096 [1, 0, 0, 0, 1] =
      (.ok (.list [.variant 0 .unit]), 4) ∧
    readWithLengthFromBuffer x64 .little (.seq .vec (.enum ⟨.u8, false, 0⟩ (.cons 0 .nil (.cons 1 .nil .nil)))) 4096 [1, 0, 0, 0, 1] =
      (.ok (.list [.variant 1 .unit]), 5) :=
  ⟨rfl, rfl, rfl⟩

/-! ## Cases -/

section Cases
open Samples

theorem msg_ty2 : hasTy x64 message2 msg := by
  simp [message2, msg, shape2, point, hasTy, hasTyFields, hasTyVariants, Prim.size]
  decide

/-- Old messages from a stream. -/
example : (readFromStream x64 .little message2 (· + 100) true ⟨msgLe, [.give 1]⟩).1 = .ok msg :=
  C67_old_data_stream_partial x64_ok message_older message_layout message_decl (message_regular _) (message2_agreeable .little).layout
    (message2_agreeable .little).decl (message2_agreeable .little).reg (by decide) msg_ty msg_ty2 (msg_canon _) (msg_vec fun _ => 0)
    (fun n => by omega) (by decide) (by simp [Src.Clean]) rfl msg_mem.fits

example (v : Val) (src : Src) (hs : src.Clean) (hf : Fits x64 src.data)
    (h : (readFromStream x64 .little message (· + 100) false src).1 = .ok v) :=
  C67_any_input_stream_partial x64_ok message_older (message_agreeable _) (message2_agreeable _) (fun n => by omega) false hs hf (by decide)
    (by decide) h

/-- New messages without the new variant are read by the old program … -/
example : readFromBuffer x64 .little message 4096 msgLe = .ok msg :=
  C67_new_data_partial x64_ok message_older message_layout message_decl (message_regular _) (message2_agreeable .little).layout
    (message2_agreeable .little).decl (message2_agreeable .little).reg (by decide) msg_ty msg_ty2 (msg_canon _)
    ((C67_written_partial x64_ok message_older message_layout message_decl (message_regular _) (message2_agreeable .little).layout
      (message2_agreeable .little).decl (message2_agreeable .little).reg msg_ty msg_ty2 (fun _ => 0) (fun _ => 1) _).mp (msg_vec fun _ => 0))
    msg_mem

/-- … and those with it are refused. -/
example (v : Val) (h : readWithLengthFromBuffer x64 .little message2 4096 msgCircle = (.ok v, 18)) :=
  C67_unknown_partial x64_ok message_older (message_agreeable _) (message2_agreeable _) (base := 4096) ⟨by decide, by decide, by decide⟩ h

example (v : Val) (h : (readFromStream x64 .little message2 (· + 100) false ⟨msgCircle, [.give 2]⟩).1 = .ok v) :=
  C67_unknown_stream_partial x64_ok message_older (message_agreeable _) (message2_agreeable _) (fun n => by omega) false (by simp [Src.Clean])
    ⟨by decide, by decide⟩ (by decide) (by decide) h

end Cases

end Verif
