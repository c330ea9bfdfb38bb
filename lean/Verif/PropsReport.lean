import Verif.Report
import Verif.Entry
import Verif.Encode
import Verif.Samples

/-!
# C92: what an error says
-/

namespace Verif

theorem decimal_inj {m n : Nat} (h : decimal m = decimal n) : m = n := by
  have := congrArg (fun l => Nat.ofDigitChars 10 l 0) h
  simpa [decimal, Nat.ofDigitChars_ten_toDigits] using this

theorem decimal_digits {n : Nat} {c : Char} (h : c ∈ decimal n) : c.isDigit = true :=
  Nat.isDigit_of_mem_toDigits (by decide) (by decide) h

/-- A decimal number ends where something else begins. -/
theorem digits_append {x y : List Char} {c : Char} (hc : c.isDigit = false) : ∀ {a b : List Char},
    (∀ d ∈ a, d.isDigit = true) → (∀ d ∈ b, d.isDigit = true) → a ++ c :: x = b ++ c :: y → a = b ∧ x = y
  | [], [], _, _, h => by simpa using h
  | [], d :: b, _, hb, h => by
    have : c = d := by simp at h; exact h.1
    have := hb d List.mem_cons_self
    simp_all
  | d :: a, [], ha, _, h => by
    have : d = c := by simp at h; exact h.1
    have := ha d List.mem_cons_self
    simp_all
  | d :: a, d' :: b, ha, hb, h => by
    simp only [List.cons_append, List.cons.injEq] at h
    have := digits_append hc (fun d hd => ha d (List.mem_cons_of_mem _ hd)) (fun d hd => hb d (List.mem_cons_of_mem _ hd)) h.2
    exact ⟨by rw [h.1, this.1], this.2⟩

/-- The fixed beginnings of the texts. -/
def leads : List (List Char) :=
  ["out of range char".toList, "invalid enum variant".toList, "encountered invalid utf-8".toList,
    "encountered invalid system time object".toList, "a field which is supposed to be non-zero is zero".toList,
    "out of range length".toList, "value cannot fit into an usize on this architecture".toList,
    "unexpected end of input".toList, "unexpected end of output buffer".toList,
    "input buffer is too small; expected at least ".toList, "output buffer is too small; expected at least ".toList,
    "the length of '".toList, "expected a predefined ".toList,
    "type is unsized hence requires zero-copy deserialization; use `read_from_buffer` or similar to deserialize it".toList,
    "endianness mismatch".toList, []]

/-- Which of them an error has. -/
def ErrKind.lead : ErrKind → Nat
  | .invalidChar => 0
  | .invalidEnumVariant => 1
  | .invalidUtf8 => 2
  | .invalidSystemTime => 3
  | .zeroNonZero => 4
  | .outOfRangeLength => 5
  | .outOfRangeUsize => 6
  | .unexpectedEndOfInput => 7
  | .unexpectedEndOfOutputBuffer => 8
  | .inputBufferIsTooSmall _ _ => 9
  | .outputBufferIsTooSmall _ _ => 10
  | .lengthIsNotTheSameAsLengthAttribute _ => 11
  | .expectedConstant _ => 12
  | .unsized => 13
  | .endiannessMismatch => 14
  | .ioError _ => 15

/-- None of them begins with another one. -/
theorem leads_apart : ∀ i : Fin 15, ∀ j : Fin 15, (leads.getD i []).isPrefixOf (leads.getD j []) = true → i = j := by
  decide +kernel

theorem lead_prefix (k : ErrKind) : leads.getD k.lead [] <+: k.display := by
  cases k
  case inputBufferIsTooSmall | outputBufferIsTooSmall =>
    exact ((List.prefix_append _ _).trans (List.prefix_append _ _)).trans (List.prefix_append _ _)
  case lengthIsNotTheSameAsLengthAttribute | expectedConstant => exact (List.prefix_append _ _).trans (List.prefix_append _ _)
  case ioError x => exact ⟨x.text, rfl⟩
  all_goals exact ⟨[], List.append_nil _⟩

theorem lead_lt {k : ErrKind} (h : ∀ x, k ≠ .ioError x) : k.lead < 15 := by
  cases k <;> first | exact absurd rfl (h _) | simp [ErrKind.lead]

theorem lead_eq {a b : ErrKind} (ha : ∀ x, a ≠ .ioError x) (hb : ∀ x, b ≠ .ioError x) (h : a.display = b.display) :
    a.lead = b.lead := by
  have h1 := lead_prefix a
  have h2 := lead_prefix b
  rw [← h] at h2
  rcases Nat.le_total (leads.getD a.lead []).length (leads.getD b.lead []).length with hl | hl
  · have := leads_apart ⟨a.lead, lead_lt ha⟩ ⟨b.lead, lead_lt hb⟩ (List.isPrefixOf_iff_prefix.mpr (List.prefix_of_prefix_length_le h1 h2 hl))
    simpa using this
  · have := leads_apart ⟨b.lead, lead_lt hb⟩ ⟨a.lead, lead_lt ha⟩ (List.isPrefixOf_iff_prefix.mpr (List.prefix_of_prefix_length_le h2 h1 hl))
    simpa using (this.symm)

theorem sizes_inj {p : List Char} {a b c d : Nat}
    (h : p ++ decimal b ++ " bytes, got ".toList ++ decimal a = p ++ decimal d ++ " bytes, got ".toList ++ decimal c) :
    a = c ∧ b = d := by
  rw [List.append_assoc, List.append_assoc, List.append_assoc, List.append_assoc] at h
  have h := List.append_cancel_left h
  have := digits_append (c := ' ') (by decide) (fun _ => decimal_digits) (fun _ => decimal_digits) h
  exact ⟨decimal_inj (List.append_cancel_left (as := "bytes, got ".toList) this.2), decimal_inj this.1⟩

/-- **C92**, the text identifies the error: two errors (other than those of the operating system and of the user) with the
same text are equal, except that of a constant only the length is shown. -/
theorem C92_text {a b : ErrKind} (ha : ∀ x, a ≠ .ioError x) (hb : ∀ x, b ≠ .ioError x) (h : a.display = b.display) :
    a = b ∨ ∃ c d, a = .expectedConstant c ∧ b = .expectedConstant d ∧ c.length = d.length := by
  have hl := lead_eq ha hb h
  cases a <;> cases b <;> first | exact .inl rfl | (exact absurd hl (by decide)) | (simp [ErrKind.lead] at hl; done) | skip
  case inputBufferIsTooSmall.inputBufferIsTooSmall => obtain ⟨rfl, rfl⟩ := sizes_inj h; exact .inl rfl
  case outputBufferIsTooSmall.outputBufferIsTooSmall => obtain ⟨rfl, rfl⟩ := sizes_inj h; exact .inl rfl
  case lengthIsNotTheSameAsLengthAttribute.lengthIsNotTheSameAsLengthAttribute m n =>
    exact .inl (by rw [List.append_cancel_left (List.append_cancel_right h)])
  case expectedConstant.expectedConstant c d =>
    exact .inr ⟨c, d, rfl, rfl, decimal_inj (List.append_cancel_left (List.append_cancel_right h))⟩
  case ioError.ioError x y => exact absurd rfl (ha x)

/-- **C92**, errors of the operating system and of the user say what these say. -/
theorem C92_io (x : StdErr) (message : List Char) : (ErrKind.ioError x).display = x.text ∧ (ErrKind.ioError x).source = some x ∧
    (ErrKind.custom message).display = message ∧ (ErrKind.custom message).isEof = false :=
  ⟨rfl, rfl, rfl, rfl⟩

/-- **C92**, conversion into an error of the standard library: it says the same, and is an end of input for the same
errors; an error of the operating system comes back unchanged. -/
theorem C92_convert (k : ErrKind) : k.toStd.text = k.display ∧ (k.toStd.kind = .unexpectedEof ↔ k.isEof = true) ∧
    (∀ x, k = .ioError x → k.toStd = x) := by
  cases k <;> refine ⟨rfl, ?_, ?_⟩ <;> simp [ErrKind.toStd, ErrKind.isEof]

/-- **C92**, converted errors are told apart as before: neither the kind nor the text hides anything. -/
theorem C92_converted {a b : ErrKind} (ha : ∀ x, a ≠ .ioError x) (hb : ∀ x, b ≠ .ioError x) (h : a.toStd = b.toStd) :
    a = b ∨ ∃ c d, a = .expectedConstant c ∧ b = .expectedConstant d ∧ c.length = d.length :=
  C92_text ha hb (by rw [← (C92_convert a).1, ← (C92_convert b).1, h])

/-- **C92**, only errors of the operating system and of the user have a source, which says the same. -/
theorem C92_source (k : ErrKind) (x : StdErr) : k.source = some x ↔ k = .ioError x := by
  cases k <;> simp [ErrKind.source]

/-- The error without names and texts, as in the rest of the model. -/
def ErrKind.err : ErrKind → Err
  | .invalidChar => .invalidChar
  | .invalidEnumVariant => .invalidEnumVariant
  | .invalidUtf8 => .invalidUtf8
  | .invalidSystemTime => .invalidSystemTime
  | .zeroNonZero => .zeroNonZero
  | .outOfRangeLength => .outOfRangeLength
  | .outOfRangeUsize => .outOfRangeUsize
  | .unexpectedEndOfInput => .unexpectedEndOfInput
  | .unexpectedEndOfOutputBuffer => .unexpectedEndOfOutputBuffer
  | .inputBufferIsTooSmall a b => .inputBufferIsTooSmall a b
  | .outputBufferIsTooSmall a b => .outputBufferIsTooSmall a b
  | .lengthIsNotTheSameAsLengthAttribute _ => .lengthMismatch
  | .expectedConstant c => .expectedConstant c
  | .unsized => .unsized
  | .endiannessMismatch => .endiannessMismatch
  | .ioError x => .io (match x.kind with
    | .unexpectedEof => .unexpectedEof
    | .invalidData => .other 1
    | .other => .other 0
    | .more n => .other (n + 2))

/-- The simpler errors of the rest of the model behave alike. -/
theorem C92_model (k : ErrKind) : k.err.isEof = k.isEof ∧
    ((∀ x, k ≠ .ioError x) → (k.toStd.kind = .unexpectedEof ↔ k.err.toIo = .unexpectedEof) ∧
      (k.toStd.kind = .invalidData ↔ k.err.toIo = .invalidData)) := by
  cases k <;> refine ⟨?_, ?_⟩ <;> simp [ErrKind.toStd, ErrKind.isEof, ErrKind.err, Err.isEof, Err.toIo]
  rename_i x
  obtain ⟨kind, text⟩ := x
  cases kind <;> rfl

/-- **C92**, a buffer which is too short for the type: the text says how many bytes are needed and how many there are. -/
theorem C92_too_small {T : Target} {e : Endian} {t : Ty} {base : Nat} {buf : Bytes} (hb : buf.length < minBytes T t)
    {k : ErrKind} (h : readFromBuffer T e t base buf = .error k.err ∨ readFromBufferCopying T e t base buf = .error k.err) :
    k.display = "input buffer is too small; expected at least ".toList ++ decimal (minBytes T t) ++ " bytes, got ".toList ++
      decimal buf.length := by
  have hk : k.err = .inputBufferIsTooSmall buf.length (minBytes T t) := by
    simp only [readFromBuffer, readWithLengthFromBuffer, readFromBufferCopying, readWithLengthFromBufferCopying, if_pos hb,
      or_self] at h
    exact (Except.error.inj h).symm
  cases k <;> cases hk
  rfl

/-- **C92**, a buffer which is too short for the value to be written. -/
theorem C92_no_room {T : Target} {e : Endian} {t : Ty} {v : Val} {n : Nat} (hn : bytesNeeded T t v = .ok n) {buf : Bytes}
    (hb : buf.length < n) {k : ErrKind} (h : (writeToBuffer T e t v buf).1 = .error k.err) :
    k.display = "output buffer is too small; expected at least ".toList ++ decimal n ++ " bytes, got ".toList ++
      decimal buf.length := by
  have hk : k.err = .outputBufferIsTooSmall buf.length n := by
    simp only [writeToBuffer, hn, if_neg (Nat.not_le.mpr hb)] at h
    exact (Except.error.inj h).symm
  cases k <;> cases hk
  rfl

/-! ## Examples -/

example : (ErrKind.inputBufferIsTooSmall 3 4).display =
    "input buffer is too small; expected at least ".toList ++ decimal 4 ++ " bytes, got ".toList ++ decimal 3 :=
  C92_too_small (T := Samples.x64) (e := .little) (t := .prim .u32) (base := 4096) (buf := [1, 2, 3]) (by decide) (.inl (by decide))

example : (ErrKind.outputBufferIsTooSmall 1 4).display =
    "output buffer is too small; expected at least ".toList ++ decimal 4 ++ " bytes, got ".toList ++ decimal 1 :=
  C92_no_room (T := Samples.x64) (e := .little) (t := .prim .u32) (v := .num 7) (buf := [1]) (n := 4) (by decide) (by decide)
    (by decide)

example : (ErrKind.ioError ⟨.unexpectedEof, []⟩).err.isEof = true := (C92_model _).1.trans rfl

/-- The texts of two errors with numbers. -/
example : (ErrKind.inputBufferIsTooSmall 3 14).display = "input buffer is too small; expected at least 14 bytes, got 3".toList ∧
    (ErrKind.lengthIsNotTheSameAsLengthAttribute "xs".toList).display =
      "the length of 'xs' is not the same as its 'length' attribute".toList := by decide +kernel

/-- Numbers do not run into each other. -/
example : (ErrKind.inputBufferIsTooSmall 3 14).display ≠ (ErrKind.inputBufferIsTooSmall 31 4).display := fun h => by
  rcases C92_text (by simp) (by simp) h with h | ⟨c, d, h, _⟩ <;> simp at h

/-- The exception: constants of the same length. -/
theorem C92_same_text : (ErrKind.expectedConstant [1, 2]).display = (ErrKind.expectedConstant [3, 4]).display := rfl

/-- The text of a user may be anything, so that it may be mistaken. -/
example : (ErrKind.custom "endianness mismatch".toList).display = ErrKind.endiannessMismatch.display ∧
    (ErrKind.custom "endianness mismatch".toList).source ≠ ErrKind.endiannessMismatch.source ∧
    (ErrKind.custom "endianness mismatch".toList).toStd ≠ ErrKind.endiannessMismatch.toStd :=
  ⟨rfl, by simp [ErrKind.custom, ErrKind.source], fun h => by
    have := congrArg StdErr.kind h
    simp [ErrKind.custom, ErrKind.toStd, ErrKind.isEof] at this⟩

/-- Conversion. -/
example : ErrKind.unexpectedEndOfInput.toStd = ⟨.unexpectedEof, "unexpected end of input".toList⟩ ∧
    (ErrKind.ioError ⟨.more 5, "disk".toList⟩).toStd = ⟨.more 5, "disk".toList⟩ :=
  ⟨rfl, (C92_convert _).2.2 _ rfl⟩

example : ErrKind.invalidChar.toStd ≠ ErrKind.outOfRangeLength.toStd := fun h => by
  rcases C92_converted (by simp) (by simp) h with h | ⟨c, d, h, _⟩ <;> simp at h

example : (ErrKind.custom "no".toList).source = some ⟨.other, "no".toList⟩ ∧ (ErrKind.custom "no".toList).display = "no".toList :=
  ⟨(C92_source _ _).mpr rfl, (C92_io ⟨.other, []⟩ _).2.2.1⟩

end Verif
