import Verif.PropsExt
import Verif.PropsPlain
import Verif.Samples

/-!
# Text: C59

`utf8Valid` and `isScalar` stand for `core::str::from_utf8` and `char::from_u32` in the model.  Here they are compared with the
strings of Lean, which are the sequences of Unicode scalar values: `textBytes s` are the bytes of `s` in UTF-8 as computed by Lean's
library.
-/

namespace Verif

/-! ## UTF-8 -/

theorem isScalar_iff {n : Nat} : isScalar n = true ↔ n.isValidChar := by
  simp only [isScalar, Nat.isValidChar, Bool.or_eq_true, Bool.and_eq_true, decide_eq_true_eq]
  omega

/-- The character with this number. -/
def chr (n : Nat) (h : isScalar n = true) : Char := Char.ofNatAux n (isScalar_iff.1 h)

theorem chr_val {n : Nat} (h : isScalar n = true) : (chr n h).val.toNat = n := by
  have : n < 2 ^ 32 := by
    have := isScalar_iff.1 h
    simp only [Nat.isValidChar] at this
    omega
  simp [chr, Char.ofNatAux]

theorem char_scalar (c : Char) : isScalar c.val.toNat = true := isScalar_iff.2 c.valid

theorem utf8_one {a : UInt8} {rest : Bytes} (h : a.toNat ≤ 0x7F) : utf8Valid (a :: rest) = utf8Valid rest := by
  rw [utf8Valid.eq_def]; simp [h]

theorem utf8_two {a b : UInt8} {rest : Bytes} (h : 0xC2 ≤ a.toNat ∧ a.toNat ≤ 0xDF) :
    utf8Valid (a :: b :: rest) = (isCont b && utf8Valid rest) := by
  rw [utf8Valid.eq_def]
  simp only
  rw [if_neg (by omega), if_pos (by simp; omega)]

theorem utf8_three {a b c : UInt8} {rest : Bytes} (h : 0xE0 ≤ a.toNat ∧ a.toNat ≤ 0xEF) :
    utf8Valid (a :: b :: c :: rest) =
      (((if a.toNat = 0xE0 then 0xA0 else 0x80) ≤ b.toNat && b.toNat ≤ (if a.toNat = 0xED then 0x9F else 0xBF)) && isCont c &&
        utf8Valid rest) := by
  rw [utf8Valid.eq_def]
  simp only
  rw [if_neg (by omega), if_neg (by simp; omega)]
  by_cases h1 : a.toNat = 0xE0
  · simp [h1]
  · by_cases h2 : a.toNat = 0xED
    · simp [h2]
    · simp [h1, h2, isCont]
      intros; omega

theorem utf8_four {a b c d : UInt8} {rest : Bytes} (h : 0xF0 ≤ a.toNat ∧ a.toNat ≤ 0xF4) :
    utf8Valid (a :: b :: c :: d :: rest) =
      (((if a.toNat = 0xF0 then 0x90 else 0x80) ≤ b.toNat && b.toNat ≤ (if a.toNat = 0xF4 then 0x8F else 0xBF)) && isCont c &&
        isCont d && utf8Valid rest) := by
  rw [utf8Valid.eq_def]
  simp only
  rw [if_neg (by omega), if_neg (by simp; omega), if_neg (by simp; omega), if_neg (by simp; omega), if_neg (by simp; omega)]
  by_cases h1 : a.toNat = 0xF0
  · simp [h1]
  · by_cases h2 : a.toNat = 0xF4
    · simp [h2]
    · simp [h1, h2, isCont]
      intros; omega

/-- Valid text starts with a character. -/
theorem utf8_cases {a : UInt8} {bs : Bytes} (h : utf8Valid (a :: bs) = true) :
    a.toNat ≤ 0x7F ∨ (0xC2 ≤ a.toNat ∧ a.toNat ≤ 0xDF ∧ ∃ b rest, bs = b :: rest) ∨
      (0xE0 ≤ a.toNat ∧ a.toNat ≤ 0xEF ∧ ∃ b c rest, bs = b :: c :: rest) ∨
      (0xF0 ≤ a.toNat ∧ a.toNat ≤ 0xF4 ∧ ∃ b c d rest, bs = b :: c :: d :: rest) := by
  rw [utf8Valid.eq_def] at h
  simp only at h
  split at h
  · exact .inl ‹_›
  · cases bs with
    | nil => simp at h
    | cons b bs =>
      simp only at h
      split at h
      · rename_i g
        simp only [Bool.and_eq_true, decide_eq_true_eq] at g
        exact .inr (.inl ⟨g.1, g.2, b, bs, rfl⟩)
      · cases bs with
        | nil => simp at h
        | cons c bs =>
          simp only at h
          split at h
          · rename_i g
            simp only [beq_iff_eq] at g
            exact .inr (.inr (.inl ⟨by omega, by omega, b, c, bs, rfl⟩))
          · split at h
            · rename_i g
              simp only [beq_iff_eq] at g
              exact .inr (.inr (.inl ⟨by omega, by omega, b, c, bs, rfl⟩))
            · split at h
              · rename_i g
                simp only [Bool.and_eq_true, decide_eq_true_eq] at g
                exact .inr (.inr (.inl ⟨by omega, by omega, b, c, bs, rfl⟩))
              · cases bs with
                | nil => simp at h
                | cons d bs =>
                  simp only at h
                  refine .inr (.inr (.inr ⟨?_, ?_, b, c, d, bs, rfl⟩))
                  all_goals
                    split at h
                    · rename_i g
                      simp only [beq_iff_eq] at g
                      omega
                    · split at h
                      · rename_i g
                        simp only [Bool.and_eq_true, decide_eq_true_eq] at g
                        omega
                      · split at h
                        · rename_i g
                          simp only [beq_iff_eq] at g
                          omega
                        · simp at h

theorem byte_eq {a : UInt8} {n : Nat} (h : n = a.toNat) : a = UInt8.ofNat n := by
  subst h; simp

/-- The first character of valid text. -/
theorem utf8_step {a : UInt8} {bs : Bytes} (h : utf8Valid (a :: bs) = true) :
    ∃ c : Char, ∃ rest, a :: bs = String.utf8EncodeChar c ++ rest ∧ utf8Valid rest = true := by
  have ha := a.toNat_lt
  rcases utf8_cases h with g | ⟨g1, g2, b, rest, rfl⟩ | ⟨g1, g2, b, c, rest, rfl⟩ | ⟨g1, g2, b, c, d, rest, rfl⟩
  · rw [utf8_one g] at h
    have hs : isScalar a.toNat = true := by simp [isScalar]; omega
    refine ⟨chr _ hs, bs, ?_, h⟩
    unfold String.utf8EncodeChar
    rw [chr_val]
    simp only
    rw [if_pos g]
    simp
  · rw [utf8_two ⟨g1, g2⟩] at h
    simp only [isCont, Bool.and_eq_true, decide_eq_true_eq] at h
    obtain ⟨⟨k1, k2⟩, h⟩ := h
    have hs : isScalar ((a.toNat - 0xC0) * 64 + (b.toNat - 0x80)) = true := by
      simp only [isScalar, Bool.or_eq_true, Bool.and_eq_true, decide_eq_true_eq]; omega
    refine ⟨chr _ hs, rest, ?_, h⟩
    unfold String.utf8EncodeChar
    rw [chr_val]
    simp only
    rw [if_neg (by omega), if_pos (by omega)]
    simp only [List.cons_append, List.nil_append, List.cons.injEq, and_true]
    exact ⟨byte_eq (by omega), byte_eq (by omega)⟩
  · rw [utf8_three ⟨g1, g2⟩] at h
    simp only [isCont, Bool.and_eq_true, decide_eq_true_eq] at h
    obtain ⟨⟨⟨k1, k2⟩, k3, k4⟩, h⟩ := h
    have k1' : 0x80 ≤ b.toNat ∧ (a.toNat = 0xE0 → 0xA0 ≤ b.toNat) := by split at k1 <;> omega
    have k2' : b.toNat ≤ 0xBF ∧ (a.toNat = 0xED → b.toNat ≤ 0x9F) := by split at k2 <;> omega
    clear k1 k2
    have hs : isScalar ((a.toNat - 0xE0) * 4096 + (b.toNat - 0x80) * 64 + (c.toNat - 0x80)) = true := by
      simp only [isScalar, Bool.or_eq_true, Bool.and_eq_true, decide_eq_true_eq]; omega
    refine ⟨chr _ hs, rest, ?_, h⟩
    unfold String.utf8EncodeChar
    rw [chr_val]
    simp only
    rw [if_neg (by omega), if_neg (by omega), if_pos (by omega)]
    simp only [List.cons_append, List.nil_append, List.cons.injEq, and_true]
    exact ⟨byte_eq (by omega), byte_eq (by omega), byte_eq (by omega)⟩
  · rw [utf8_four ⟨g1, g2⟩] at h
    simp only [isCont, Bool.and_eq_true, decide_eq_true_eq] at h
    obtain ⟨⟨⟨⟨k1, k2⟩, k3, k4⟩, k5, k6⟩, h⟩ := h
    have k1' : 0x80 ≤ b.toNat ∧ (a.toNat = 0xF0 → 0x90 ≤ b.toNat) := by split at k1 <;> omega
    have k2' : b.toNat ≤ 0xBF ∧ (a.toNat = 0xF4 → b.toNat ≤ 0x8F) := by split at k2 <;> omega
    clear k1 k2
    have hs : isScalar ((a.toNat - 0xF0) * 262144 + (b.toNat - 0x80) * 4096 + (c.toNat - 0x80) * 64 + (d.toNat - 0x80)) = true := by
      simp only [isScalar, Bool.or_eq_true, Bool.and_eq_true, decide_eq_true_eq]; omega
    refine ⟨chr _ hs, rest, ?_, h⟩
    unfold String.utf8EncodeChar
    rw [chr_val]
    simp only
    rw [if_neg (by omega), if_neg (by omega), if_neg (by omega)]
    simp only [List.cons_append, List.nil_append, List.cons.injEq, and_true]
    exact ⟨byte_eq (by omega), byte_eq (by omega), byte_eq (by omega), byte_eq (by omega)⟩

theorem utf8_char (c : Char) (rest : Bytes) : utf8Valid (String.utf8EncodeChar c ++ rest) = utf8Valid rest := by
  have hs := isScalar_iff.1 (char_scalar c)
  simp only [Nat.isValidChar] at hs
  unfold String.utf8EncodeChar
  generalize c.val.toNat = v at hs
  simp only
  split
  · simp only [List.cons_append, List.nil_append]
    exact utf8_one (by rw [UInt8.toNat_ofNat']; omega)
  · split
    · simp only [List.cons_append, List.nil_append]
      have h1 : (UInt8.ofNat (v / 64 % 32 + 192)).toNat = v / 64 + 192 := by rw [UInt8.toNat_ofNat']; omega
      have h2 : (UInt8.ofNat (v % 64 + 128)).toNat = v % 64 + 128 := by rw [UInt8.toNat_ofNat']; omega
      rw [utf8_two (by rw [h1]; omega)]
      simp [isCont, h2]
      intros; omega
    · split
      · simp only [List.cons_append, List.nil_append]
        have h1 : (UInt8.ofNat (v / 4096 % 16 + 224)).toNat = v / 4096 + 224 := by rw [UInt8.toNat_ofNat']; omega
        have h2 : (UInt8.ofNat (v / 64 % 64 + 128)).toNat = v / 64 % 64 + 128 := by rw [UInt8.toNat_ofNat']; omega
        have h3 : (UInt8.ofNat (v % 64 + 128)).toNat = v % 64 + 128 := by rw [UInt8.toNat_ofNat']; omega
        rw [utf8_three (by rw [h1]; omega), h1, h2]
        have : isCont (UInt8.ofNat (v % 64 + 128)) = true := by simp [isCont, h3]; omega
        rw [this, show decide ((if v / 4096 + 224 = 224 then 160 else 128) ≤ v / 64 % 64 + 128) = true by
            simp only [decide_eq_true_eq]; split <;> omega,
          show decide (v / 64 % 64 + 128 ≤ if v / 4096 + 224 = 237 then 159 else 191) = true by
            simp only [decide_eq_true_eq]; split <;> omega]
        simp
      · simp only [List.cons_append, List.nil_append]
        have h1 : (UInt8.ofNat (v / 262144 % 8 + 240)).toNat = v / 262144 + 240 := by rw [UInt8.toNat_ofNat']; omega
        have h2 : (UInt8.ofNat (v / 4096 % 64 + 128)).toNat = v / 4096 % 64 + 128 := by rw [UInt8.toNat_ofNat']; omega
        have h3 : (UInt8.ofNat (v / 64 % 64 + 128)).toNat = v / 64 % 64 + 128 := by rw [UInt8.toNat_ofNat']; omega
        have h4 : (UInt8.ofNat (v % 64 + 128)).toNat = v % 64 + 128 := by rw [UInt8.toNat_ofNat']; omega
        rw [utf8_four (by rw [h1]; omega), h1, h2]
        have g1 : isCont (UInt8.ofNat (v / 64 % 64 + 128)) = true := by simp [isCont, h3]; omega
        have g2 : isCont (UInt8.ofNat (v % 64 + 128)) = true := by simp [isCont, h4]; omega
        rw [g1, g2, show decide ((if v / 262144 + 240 = 240 then 144 else 128) ≤ v / 4096 % 64 + 128) = true by
            simp only [decide_eq_true_eq]; split <;> omega,
          show decide (v / 4096 % 64 + 128 ≤ if v / 262144 + 240 = 244 then 143 else 191) = true by
            simp only [decide_eq_true_eq]; split <;> omega]
        simp

theorem utf8_chars : ∀ cs : List Char, utf8Valid (cs.flatMap String.utf8EncodeChar) = true
  | [] => by simp [utf8Valid]
  | c :: cs => by rw [List.flatMap_cons, utf8_char]; exact utf8_chars cs

theorem utf8_text : ∀ (n : Nat) {bs : Bytes}, bs.length ≤ n → utf8Valid bs = true → ∃ cs : List Char, bs = cs.flatMap String.utf8EncodeChar
  | _, [], _, _ => ⟨[], rfl⟩
  | n + 1, a :: bs, hn, h => by
    obtain ⟨c, rest, h1, h2⟩ := utf8_step h
    have : 0 < (String.utf8EncodeChar c).length := by simp; exact Char.utf8Size_pos c
    have hl := congrArg List.length h1
    simp only [List.length_cons, List.length_append] at hl hn
    obtain ⟨cs, h3⟩ := utf8_text n (bs := rest) (by omega) h2
    exact ⟨c :: cs, by rw [h1, h3, List.flatMap_cons]⟩

/-- A string in UTF-8 (by Lean's library). -/
def textBytes (s : String) : Bytes := s.toByteArray.data.toList

theorem textBytes_eq (s : String) : textBytes s = s.toList.flatMap String.utf8EncodeChar := by
  unfold textBytes
  rw [← String.utf8Encode_toList]
  simp [List.utf8Encode]

theorem utf8Valid_iff {bs : Bytes} : utf8Valid bs = true ↔ ∃ s : String, bs = textBytes s := by
  constructor
  · intro h
    obtain ⟨cs, rfl⟩ := utf8_text _ (Nat.le_refl _) h
    exact ⟨String.ofList cs, by rw [textBytes_eq]; simp⟩
  · rintro ⟨s, rfl⟩
    rw [textBytes_eq]
    exact utf8_chars _

/-! ## The properties -/

/-- **C59**: a sequence of bytes is taken for text exactly if it is the UTF-8 form of a sequence of Unicode scalar values. -/
theorem C59_utf8 {bs : Bytes} : utf8Valid bs = true ↔ ∃ s : String, bs = textBytes s := utf8Valid_iff

/-- **C59**: different texts have different bytes. -/
theorem C59_distinct {s s' : String} (h : textBytes s = textBytes s') : s = s' := by
  have h1 : s.toByteArray.data = s'.toByteArray.data := Array.toList_inj.1 h
  have h2 : s.toByteArray = s'.toByteArray := by
    cases h3 : s.toByteArray; cases h4 : s'.toByteArray
    rw [h3, h4] at h1
    simpa using h1
  exact String.toByteArray_inj.1 h2

theorem outs_asStr (bs : Bytes) : Outs (fun v => ∃ s, v = .bytes (textBytes s)) (asStr bs) := by
  refine outs_ite (fun h => ?_) fun _ => outs_fail _
  obtain ⟨s, hs⟩ := utf8Valid_iff.1 h
  exact outs_pure ⟨s, by rw [hs]⟩

/-- **C59**: whatever reader is used, whatever it answers and however the length is given: what is returned as a `String`, `Box<str>`,
`Cow<str>` or `&str` is text. -/
theorem C59_only_text {T : Target} {e : Endian} {k : StrKind} {cx : Cx} {σ : Type} {R : ReaderOps σ} {x x' : σ} {v : Val}
    (h : (decode T e (.str k) cx).run R x = (.ok v, x')) : ∃ s : String, v = .bytes (textBytes s) := by
  have key : Outs (fun v => ∃ s, v = .bytes (textBytes s)) (decode T e (.str k) cx) := by
    simp only [decode]
    refine outs_bind (outs_any _) fun len _ => ?_
    cases k <;> cases len <;> exact outs_bind (outs_any _) fun _ _ => outs_asStr _
  exact key _ R x v x' h

/-- **C59**: what is returned as a `char` is a Unicode scalar value. -/
theorem C59_only_chars {T : Target} {e : Endian} {cx : Cx} {σ : Type} {R : ReaderOps σ} {x x' : σ} {v : Val}
    (h : (decode T e .char cx).run R x = (.ok v, x')) : ∃ c : Char, v = .num c.val.toNat := by
  have key : Outs (fun v => ∃ c : Char, v = .num c.val.toNat) (decode T e .char cx) := by
    simp only [decode]
    refine outs_bind (outs_any _) fun n _ => outs_ite (fun h => outs_pure ?_) fun _ => outs_fail _
    exact ⟨chr n h, by rw [chr_val]⟩
  exact key _ R x v x' h

section
variable {σ : Type} {R : ReaderOps σ} {Inv : σ → Prop} {pend : σ → Bytes} (L : Lawful R Inv pend) {T : Target} (hT : T.Ok)
  {e : Endian} {x : σ} (hi : Inv x) (hf : Fits T (pend x))
include L hT hi hf

/-- **C59**: any reader, given the length of some bytes, these bytes and anything else, returns the bytes if they are text and reports
`InvalidUtf8` if they are not. -/
theorem C59_read {k : StrKind} (hb : k = .ref → Borrows R Inv) {bs rest : Bytes} (h4 : bs.length < 2 ^ 32)
    (hp : pend x = e.bytes 4 bs.length ++ (bs ++ rest)) :
    (∀ s : String, bs = textBytes s →
      ∃ x', (decode T e (.str k) Cx.std).run R x = (.ok (.bytes bs), x') ∧ Inv x' ∧ pend x' = rest) ∧
    ((¬ ∃ s : String, bs = textBytes s) → ((decode T e (.str k) Cx.std).run R x).1 = .error .invalidUtf8) := by
  have hr := decode_refines L hT hf.mem hf.fuel (e := e) (.str k) Cx.std (by simp [layoutOk])
    (by cases k <;> simp [noRefs] at hb ⊢; exact hb) x hi (Nat.le_refl _)
  have hm : bs.length ≤ T.isizeMax := by
    have := hf.mem
    rw [hp] at this
    simp only [List.length_append] at this
    omega
  have hu : bs.length ≤ T.usizeMax := by have := hT.isize; omega
  have hparse : parse T e (.str k) Cx.std (pend x) = pStrVal bs rest := by
    unfold parse
    have h1 : pLenR T.toHost e Cx.std.len (pend x) = .ok (some bs.length) (bs ++ rest) := by
      rw [hp]
      refine P.map_ok (P.map_ok (pTake_ok (by simp)) |>.trans ?_)
      simp [Endian.num_bytes (e := e) (n := 4) (v := bs.length) (by omega)]
    rw [P.bind_ok h1, pStr, if_neg (by omega), if_neg (by omega), P.bind_ok (pTake_ok (by simp))]
    simp
  rw [hparse] at hr
  constructor
  · intro s hs
    have hv := utf8Valid_iff.2 ⟨s, hs⟩
    simp only [pStrVal, hv, if_true, P.pure, Outcome] at hr
    generalize (decode T e (.str k) Cx.std).run R x = r at hr ⊢
    obtain ⟨r, x'⟩ := r
    obtain ⟨rfl, h2, h3, _⟩ := hr
    exact ⟨x', rfl, h2, h3⟩
  · intro hn
    have hv : utf8Valid bs = false := by
      cases hv : utf8Valid bs with
      | false => rfl
      | true => exact absurd (utf8Valid_iff.1 hv) hn
    simp only [pStrVal, hv, P.fail, Outcome] at hr
    obtain ⟨e', h1, h2, _⟩ := hr
    simp [Err.isEof] at h2
    rw [h1, h2]

/-- **C59**: the same for a `char`, which is a `u32`. -/
theorem C59_read_char {n : Nat} {rest : Bytes} (h4 : n < 2 ^ 32) (hp : pend x = e.bytes 4 n ++ rest) :
    (∀ c : Char, n = c.val.toNat →
      ∃ x', (decode T e .char Cx.std).run R x = (.ok (.num n), x') ∧ Inv x' ∧ pend x' = rest) ∧
    ((¬ ∃ c : Char, n = c.val.toNat) → ((decode T e .char Cx.std).run R x).1 = .error .invalidChar) := by
  have hr := decode_refines L hT hf.mem hf.fuel (e := e) .char Cx.std (by simp [layoutOk]) (.inl (by simp [noRefs])) x hi
    (Nat.le_refl _)
  have hparse : parse T e .char Cx.std (pend x) = (if isScalar n then P.pure (.num n) else P.fail .invalidChar) rest := by
    unfold parse
    rw [hp]
    have h1 : pNum e 4 (e.bytes 4 n ++ rest) = .ok n rest := by
      refine P.map_ok (pTake_ok (by simp)) |>.trans ?_
      simp [Endian.num_bytes (e := e) (n := 4) (v := n) (by omega)]
    rw [P.bind_ok h1]
  rw [hparse] at hr
  constructor
  · rintro c rfl
    simp only [char_scalar, if_true, P.pure, Outcome] at hr
    generalize (decode T e .char Cx.std).run R x = r at hr ⊢
    obtain ⟨r, x'⟩ := r
    obtain ⟨rfl, h2, h3, _⟩ := hr
    exact ⟨x', rfl, h2, h3⟩
  · intro hn
    have hv : isScalar n = false := by
      cases hv : isScalar n with
      | false => rfl
      | true => exact absurd ⟨chr n hv, (chr_val hv).symm⟩ hn
    simp only [hv, P.fail, Outcome] at hr
    obtain ⟨e', h1, h2, _⟩ := hr
    simp [Err.isEof] at h2
    rw [h1, h2]

end

/-- **C59**: every text whose length fits is written, as its length and its bytes in UTF-8. -/
theorem C59_written {T : Target} (hT : T.Ok) {e : Endian} {k : StrKind} {s : String} (h4 : (textBytes s).length < 2 ^ 32)
    (hm : 4 + (textBytes s).length ≤ T.isizeMax) {junk : Nat → UInt8} :
    writeToVec T e (.str k) (.bytes (textBytes s)) junk = .ok (e.bytes 4 (textBytes s).length ++ textBytes s) := by
  have hv : hasTy T (.str k) (.bytes (textBytes s)) := by
    simp only [hasTy]
    exact ⟨utf8Valid_iff.2 ⟨s, rfl⟩, by omega⟩
  refine vec_ok hT (by simp [layoutOk]) (by simp [declOk]) (by simp [sliceOk]) hv ?_ (by simp; omega)
  simp only [wire, wireLen, LenR.std]
  rw [if_neg (by simp [LenTy.max]; omega)]
  simp [cat, Fmt.code, wireNum, LenTy.minSize]

/-- **C59**, with the functions of `Writable` and `Readable`: every text whose length fits is written as its length and its bytes in
UTF-8, and all functions read it back. -/
theorem C59_round_trip {T : Target} (hT : T.Ok) {e : Endian} {k : StrKind} (hk : k ≠ .ref) {s : String}
    (h4 : (textBytes s).length < 2 ^ 32) (hm : 4 + (textBytes s).length ≤ T.isizeMax) :
    ∃ bs, bs = e.bytes 4 (textBytes s).length ++ textBytes s ∧
      (∀ junk, writeToVec T e (.str k) (.bytes (textBytes s)) junk = .ok bs) ∧
      ∀ (rest : Bytes) (base : Nat), InMem T base (bs ++ rest) →
        readWithLengthFromBuffer T e (.str k) base (bs ++ rest) = (.ok (.bytes (textBytes s)), bs.length) ∧
        readWithLengthFromBufferCopying T e (.str k) base (bs ++ rest) = (.ok (.bytes (textBytes s)), bs.length) ∧
        ∀ (grow : Nat → Nat), (∀ n, n ≤ grow n) → ∀ (src : Src), src.Clean → src.data = bs ++ rest →
          (readFromStream T e (.str k) grow true src).1 = .ok (.bytes (textBytes s)) ∧
          ∃ st, readFromStream T e (.str k) grow false src = (.ok (.bytes (textBytes s)), st) ∧ st.src.data = rest := by
  refine ⟨_, rfl, fun _ => C59_written hT h4 hm, fun rest base hin => ?_⟩
  have hv : hasTy T (.str k) (.bytes (textBytes s)) := by
    simp only [hasTy]
    exact ⟨utf8Valid_iff.2 ⟨s, rfl⟩, by omega⟩
  exact C55_read hT (by simp [plain, hk]) (by simp [layoutOk]) (by simp [declOk]) hv
    (C59_written hT h4 hm (junk := fun _ => 0)) hin

/-! ## Examples -/

open Samples

example : textBytes "Grüße, 🦀" = [0x47, 0x72, 0xC3, 0xBC, 0xC3, 0x9F, 0x65, 0x2C, 0x20, 0xF0, 0x9F, 0xA6, 0x80] := by decide

/-- The hypotheses of `C59_round_trip` can be met. -/
example : StrKind.owned ≠ .ref ∧ (textBytes "Grüße, 🦀").length < 2 ^ 32 ∧ 4 + (textBytes "Grüße, 🦀").length ≤ x64.isizeMax := by
  decide

/-- The hypotheses of `C59_only_text` can be met. -/
example : readFromBuffer x64 .little (.str .ref) 16 [2, 0, 0, 0, 0xC3, 0x9F] = .ok (.bytes (textBytes "ß")) := by decide

/-- An overlong form, a surrogate and a byte too few. -/
example : readFromBuffer x64 .little (.str .owned) 16 [2, 0, 0, 0, 0xC0, 0x80] = .error .invalidUtf8 ∧
    readFromBuffer x64 .little (.str .cow) 16 [3, 0, 0, 0, 0xED, 0xA0, 0x80] = .error .invalidUtf8 ∧
    readFromBuffer x64 .big (.str .ref) 16 [0, 0, 0, 1, 0xC3] = .error .invalidUtf8 ∧
    readFromBuffer x64 .big .char 16 [0, 0, 0xD8, 0] = .error .invalidChar ∧
    readFromBuffer x64 .big .char 16 [0, 1, 0xF9, 0x80] = .ok (.num '🦀'.val.toNat) := by decide

/-- The hypotheses of `C59_read` can be met: `pend x` is this. -/
example : (BufSt.init 16 (Endian.little.bytes 4 2 ++ ([0xC3, 0x9F] ++ [7]))).pend =
    Endian.little.bytes 4 ([0xC3, 0x9F] : Bytes).length ++ ([0xC3, 0x9F] ++ [7]) ∧
    ([0xC3, 0x9F] : Bytes) = textBytes "ß" := by decide

/-! ## Cases -/

section Cases
open Samples

example : textBytes "ß" ≠ textBytes "ss" := fun h => absurd (C59_distinct h) (by decide)

example : ∃ c : Char, Val.num 0x1F980 = .num c.val.toNat :=
  C59_only_chars (T := x64) (e := .little) (cx := Cx.std) (R := bufferReader Host.x64) (x := BufSt.init 16 [0x80, 0xF9, 1, 0])
    (Prod.ext rfl rfl)

/-- A surrogate. -/
example : ((decode x64 .little .char Cx.std).run (bufferReader Host.x64) (BufSt.init 16 [0, 0xD8, 0, 0, 7])).1 = .error .invalidChar := by
  refine (C59_read_char (bufferReader_lawful Host.x64) x64_ok (e := .little) (BufSt.init_inv (base := 16) (buf := [0, 0xD8, 0, 0, 7])
    (by decide)) ⟨by decide, by decide⟩ (n := 0xD800) (rest := [7]) (by decide) (by decide)).2 ?_
  rintro ⟨c, hc⟩
  have h := c.valid
  simp only [UInt32.isValidChar, Nat.isValidChar] at h
  omega

example : writeToVec x64 .big (.str .ref) (.bytes (textBytes "ß")) (fun _ => 0) = .ok [0, 0, 0, 2, 0xC3, 0x9F] :=
  (C59_written x64_ok (e := .big) (k := .ref) (s := "ß") (by decide) (by decide)).trans (by decide)

example : utf8Valid [0xC3, 0x9F] = true := C59_utf8.mpr ⟨"ß", by decide⟩

end Cases

end Verif
