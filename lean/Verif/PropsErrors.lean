import Verif.ErrorType
import Verif.Samples

/-!
# C62: error types of contexts

Writing never looks at an error, so that the error type makes no difference there.
-/

namespace Verif

/-- The contract: `is_eof` of converted errors is that of the errors. -/
def ErrTy.Faithful (X : ErrTy) : Prop := ∀ er : Err, er.fault = false → X.isEof (X.conv er) = er.isEof

theorem ErrTy.Faithful.eof {X : ErrTy} (h : X.Faithful) (er : Err) : X.eof er = er.isEof := by
  unfold ErrTy.eof
  cases hf : er.fault
  · simpa using h er hf
  · cases er <;> first | rfl | simp [Err.fault] at hf

mutual
/-- Does reading depend on whether an error is the end of the input: `default_on_eof` and `length = ..` are not used. -/
def eofFree : Ty → Bool
  | .seq _ t | .set t | .array _ t | .refArray _ t | .option t | .range t | .rangeInc t | .box t | .via _ t => eofFree t
  | .map a b | .result a b | .pair a b => eofFree a && eofFree b
  | .struct _ fs => eofFreeFields fs
  | .enum _ vs => eofFreeVariants vs
  | _ => true
/-- Fields. -/
def eofFreeFields : Fields → Bool
  | .nil => true
  | .cons a t fs => !a.defaultOnEof && (match a.len with | some .untilEof => false | _ => true) && eofFree t && eofFreeFields fs
/-- Variants. -/
def eofFreeVariants : Variants → Bool
  | .nil => true
  | .cons _ fs vs => eofFreeFields fs && eofFreeVariants vs
end

/-- The length does not depend on the end of the input. -/
def LenR.eofFree : LenR → Bool
  | .typed _ d => !d
  | .fixed _ => true
  | .untilEof => false

section
variable {X : ErrTy}

theorem onEofC_eq (h : X.Faithful) {α : Type} (p : M α) (d : α) : onEofC X p d = onEof p d := by
  unfold onEofC onEof
  congr 1
  funext r
  cases r
  · simp only [h.eof]
  · rfl

theorem readUntilEofC_eq (h : X.Faithful) (p : M Val) : ∀ n, readUntilEofC X n p = readUntilEof n p
  | 0 => rfl
  | n + 1 => by
    unfold readUntilEofC readUntilEof
    congr 1
    funext r
    cases r
    · simp only [h.eof]
    · simp only [readUntilEofC_eq h p n]

theorem readLenRC_eq {l : LenR} (h : X.Faithful ∨ l.eofFree = true) (H : Host) (e : Endian) : readLenRC X H e l = readLenR H e l := by
  cases l with
  | typed lt d =>
    cases d
    · rfl
    · rcases h with h | h
      · simp only [readLenRC, readLenR, onEofC_eq h]
      · simp [LenR.eofFree] at h
  | fixed n => rfl
  | untilEof => rfl

theorem Prog.bind_bind {α β γ : Type} (p : Prog α) (f : α → Prog β) (g : β → Prog γ) :
    (p.bind f).bind g = p.bind fun a => (f a).bind g := by
  induction p <;> simp only [Prog.bind, *]

theorem bind_some {α β : Type} (p : M α) {f g : Option α → M β} (h : ∀ a, f (some a) = g (some a)) :
    M.bind (M.map some p) f = M.bind (M.map some p) g := by
  unfold M.map M.bind
  rw [Prog.bind_bind, Prog.bind_bind]
  congr 1
  funext r
  cases r
  · rfl
  · exact h _

/-- Only `length = ..` has no length. -/
theorem bind_len {α : Type} {l : LenR} {H : Host} {e : Endian} {f g : Option Nat → M α} (h : ∀ n, f (some n) = g (some n))
    (h0 : X.Faithful → f none = g none) (hl : X.Faithful ∨ l.eofFree = true) :
    M.bind (readLenRC X H e l) f = M.bind (readLenR H e l) g := by
  rw [readLenRC_eq hl]
  cases l with
  | typed lt d => cases d <;> exact bind_some _ h
  | fixed n => exact h n
  | untilEof =>
    rcases hl with hl | hl
    · exact h0 hl
    · cases hl

theorem readStrC_eq (T : Target) (e : Endian) (k : StrKind) {len : Option Nat} (h : X.Faithful ∨ len.isSome = true) :
    readStrC X T e k len = readStr T e k len := by
  cases k <;> cases len <;> first | rfl | skip
  all_goals
    rcases h with h | h
    · simp only [readStrC, readStr, readUntilEofC_eq h]
    · cases h

theorem readSeqC_eq (T : Target) (e : Endian) (k : SeqKind) (el : Elem) {len : Option Nat} (h : X.Faithful ∨ len.isSome = true) :
    readSeqC X T e k el len = readSeq T e k el len := by
  cases k <;> cases len <;> first | rfl | skip
  all_goals
    rcases h with h | h
    · simp only [readSeqC, readSeq, readUntilEofC_eq h]
    · cases h

theorem cx_opt {cx : Cx} (t : Ty) (h : cx.len.eofFree = true) : (cx.opt t).len.eofFree = true := by
  cases t <;> first | rfl | exact h

theorem cx_attrs {a : Attrs} (h1 : a.defaultOnEof = false) (h2 : (match a.len with | some .untilEof => false | _ => true) = true)
    (H : Host) (prev : List Val) : (a.cx H prev).len.eofFree = true := by
  unfold Attrs.cx Attrs.wcx
  split
  · rfl
  · cases hl : a.len with
    | none => simp [LenR.cast, LenR.eofFree, h1]
    | some k =>
      rw [hl] at h2
      cases k <;> simp [LenR.cast, LenR.eofFree, h1] at h2 ⊢

mutual
/-- Reading with the error type of a context is reading with `speedy::Error`. -/
theorem decodeC_eq (T : Target) (e : Endian) : ∀ (t : Ty) (cx : Cx), X.Faithful ∨ (eofFree t = true ∧ cx.len.eofFree = true) →
    decodeC X T e t cx = decode T e t cx
  | .prim _, _, _ | .usize, _, _ | .bool, _, _ | .char, _, _ | .nonZero _, _, _ | .atomic _, _, _ | .ipv4, _, _ | .ipv6, _, _
  | .ipAddr, _, _ | .duration, _, _ | .systemTime, _, _ | .endianness, _, _ | .varint64, _, _ | .uuid, _, _ | .unit, _, _
  | .refArray _ _, _, _ => by simp only [decodeC, decode]
  | .str k, cx, h => by
    simp only [decodeC, decode]
    exact bind_len (fun n => readStrC_eq T e k (.inr rfl)) (fun hf => readStrC_eq T e k (.inl hf)) (h.imp id And.right)
  | .seq k t, cx, h => by
    have ht := decodeC_eq T e t Cx.std (h.imp id fun h => ⟨by simpa only [eofFree] using h.1, rfl⟩)
    simp only [decodeC, decode, ht]
    congr 1
    exact bind_len (fun n => readSeqC_eq T e k _ (.inr rfl)) (fun hf => readSeqC_eq T e k _ (.inl hf)) (h.imp id And.right)
  | .set t, cx, h => by
    have ht := decodeC_eq T e t Cx.std (h.imp id fun h => ⟨by simpa only [eofFree] using h.1, rfl⟩)
    simp only [decodeC, decode, ht]
    exact bind_len (fun n => rfl) (fun hf => by simp only [readUntilEofC_eq hf]) (h.imp id And.right)
  | .map a b, cx, h => by
    have h' := h.imp id fun h => And.intro (by simpa only [eofFree, Bool.and_eq_true] using h.1) h.2
    have ha := decodeC_eq T e a Cx.std (h'.imp id fun h => ⟨h.1.1, rfl⟩)
    have hb := decodeC_eq T e b Cx.std (h'.imp id fun h => ⟨h.1.2, rfl⟩)
    simp only [decodeC, decode, ha, hb]
    exact bind_len (fun n => rfl) (fun hf => by simp only [readUntilEofC_eq hf]) (h.imp id And.right)
  | .array n t, cx, h | .range t, cx, h | .rangeInc t, cx, h | .box t, cx, h | .via _ t, cx, h => by
    simp only [decodeC, decode, decodeC_eq T e t Cx.std (h.imp id fun h => ⟨by simpa only [eofFree] using h.1, rfl⟩)]
  | .option t, cx, h => by
    simp only [decodeC, decode, decodeC_eq T e t (cx.opt t) (h.imp id fun h => ⟨by simpa only [eofFree] using h.1, cx_opt t h.2⟩)]
  | .result a b, cx, h | .pair a b, cx, h => by
    have h' := h.imp id fun h => And.intro (by simpa only [eofFree, Bool.and_eq_true] using h.1) h.2
    simp only [decodeC, decode, decodeC_eq T e a Cx.std (h'.imp id fun h => ⟨h.1.1, rfl⟩),
      decodeC_eq T e b Cx.std (h'.imp id fun h => ⟨h.1.2, rfl⟩)]
  | .struct d fs, cx, h => by
    simp only [decodeC, decode, decodeFieldsC_eq T e fs [] (h.imp id fun h => by simpa only [eofFree] using h.1)]
  | .enum d vs, cx, h => by
    simp only [decodeC, decode, decodeVariantsC_eq T e vs _ _ (h.imp id fun h => by simpa only [eofFree] using h.1)]
theorem decodeFieldsC_eq (T : Target) (e : Endian) : ∀ (fs : Fields) (prev : List Val), X.Faithful ∨ eofFreeFields fs = true →
    decodeFieldsC X T e fs prev = decodeFields T e fs prev
  | .nil, _, _ => by simp only [decodeFieldsC, decodeFields]
  | .cons a t fs, prev, h => by
    have h' := h.imp id fun h => by simpa only [eofFreeFields, Bool.and_eq_true, Bool.not_eq_true'] using h
    have hfs := fun prev => decodeFieldsC_eq T e fs prev (h'.imp id fun h => h.2)
    have ht := decodeC_eq T e t (a.cx T.toHost prev) (h'.imp id fun h => ⟨h.1.2, cx_attrs h.1.1.1 h.1.1.2 _ _⟩)
    simp only [decodeFieldsC, decodeFields, hfs, ht]
    rcases h' with h | h
    · simp only [onEofC_eq h]
    · simp only [h.1.1.1, Bool.false_eq_true, if_false]
theorem decodeVariantsC_eq (T : Target) (e : Endian) : ∀ (vs : Variants) (tag i : Nat), X.Faithful ∨ eofFreeVariants vs = true →
    decodeVariantsC X T e vs tag i = decodeVariants T e vs tag i
  | .nil, _, _, _ => by simp only [decodeVariantsC, decodeVariants]
  | .cons tag' fs vs, tag, i, h => by
    have h' := h.imp id fun h => by simpa only [eofFreeVariants, Bool.and_eq_true] using h
    simp only [decodeVariantsC, decodeVariants, decodeFieldsC_eq T e fs [] (h'.imp id And.left),
      decodeVariantsC_eq T e vs tag (i + 1) (h'.imp id And.right)]
end

end

/-! ## A stricter `is_eof` -/

/-- The end does not depend on which of the two error types is used: a value, or an error which is the end of the input for both or neither. -/
def Settled (X Y : ErrTy) {α : Type} : Except Err α → Prop
  | .ok _ => True
  | .error er => X.eof er = Y.eof er

section
variable {X Y : ErrTy} {σ : Type} {R : ReaderOps σ} {α β : Type}

/-- `q` does what `p` does if that is settled. -/
def Follows (X Y : ErrTy) (R : ReaderOps σ) (p q : M α) : Prop :=
  ∀ s, Settled X Y (p.run R s).1 → q.run R s = p.run R s

theorem follows_refl (p : M α) : Follows X Y R p p := fun _ _ => rfl

theorem follows_bind {p q : M α} {f g : α → M β} (h1 : Follows X Y R p q) (h2 : ∀ a, Follows X Y R (f a) (g a)) :
    Follows X Y R (M.bind p f) (M.bind q g) := by
  intro s
  rcases hp : p.run R s with ⟨er | a, s1⟩
  · rw [M.run_bind_err hp]
    intro h
    have := h1 s
    rw [hp] at this
    rw [M.run_bind_err (this h)]
  · rw [M.run_bind_ok hp]
    intro h
    have := h1 s
    rw [hp] at this
    rw [M.run_bind_ok (this trivial)]
    exact h2 a s1 h

theorem follows_map {p q : M α} {f : α → β} (h : Follows X Y R p q) : Follows X Y R (M.map f p) (M.map f q) :=
  follows_bind h fun _ => follows_refl _

theorem follows_ite {c : Prop} [Decidable c] {p q p' q' : M α} (h : Follows X Y R p p') (h' : Follows X Y R q q') :
    Follows X Y R (if c then p else q) (if c then p' else q') := by
  split
  · exact h
  · exact h'

theorem follows_repeat {p q : M α} (h : Follows X Y R p q) : ∀ n, Follows X Y R (repeatM n p) (repeatM n q)
  | 0 => follows_refl _
  | n + 1 => follows_bind h fun _ => follows_bind (follows_repeat h n) fun _ => follows_refl _

theorem follows_pair {ek ev ek' ev' : Elem} (h1 : Follows X Y R ek.read ek'.read) (h2 : Follows X Y R ev.read ev'.read) :
    Follows X Y R (readPair ek ev) (readPair ek' ev') :=
  follows_bind h1 fun _ => follows_bind h2 fun _ => follows_refl _

section
variable (hXY : ∀ er, X.eof er = true → Y.eof er = true)
include hXY

theorem follows_onEof {p q : M α} (h : Follows X Y R p q) (d : α) : Follows X Y R (onEofC X p d) (onEofC Y q d) := by
  intro s
  have := h s
  unfold onEofC
  rw [Prog.run_bind, Prog.run_bind]
  rcases hp : p.run R s with ⟨er | a, s1⟩ <;> rw [hp] at this
  · cases hx : X.eof er
    · intro hs
      have hs' : X.eof er = Y.eof er := by simpa [hx, M.fail, Prog.run, Settled] using hs
      rw [this hs']
      simp only [← hs', hx]
    · intro _
      rw [this (hx.trans (hXY er hx).symm)]
      simp only [hx, hXY er hx, if_true]
  · intro _
    rw [this trivial]

theorem follows_untilEof {p q : M Val} (h : Follows X Y R p q) : ∀ n, Follows X Y R (readUntilEofC X n p) (readUntilEofC Y n q)
  | 0 => follows_refl _
  | n + 1 => by
    have ih := follows_untilEof h n
    intro s
    have := h s
    unfold readUntilEofC
    rw [Prog.run_bind, Prog.run_bind]
    rcases hp : p.run R s with ⟨er | a, s1⟩ <;> rw [hp] at this
    · cases hx : X.eof er
      · intro hs
        have hs' : X.eof er = Y.eof er := by simpa [hx, M.fail, Prog.run, Settled] using hs
        rw [this hs']
        simp only [← hs', hx]
      · intro _
        rw [this (hx.trans (hXY er hx).symm)]
        simp only [hx, hXY er hx, if_true]
    · rw [this trivial]
      exact follows_bind ih (fun _ => follows_refl _) s1

theorem follows_len (h : Host) (e : Endian) (l : LenR) : Follows X Y R (readLenRC X h e l) (readLenRC Y h e l) := by
  cases l with
  | typed lt d =>
    cases d
    · exact follows_refl _
    · exact follows_map (follows_onEof hXY (follows_refl _) 0)
  | fixed n => exact follows_refl _
  | untilEof => exact follows_refl _

theorem follows_str (T : Target) (e : Endian) (k : StrKind) (len : Option Nat) :
    Follows X Y R (readStrC X T e k len) (readStrC Y T e k len) := by
  cases k <;> cases len <;> first
    | exact follows_refl _
    | exact follows_bind (follows_untilEof hXY (follows_refl _) _) fun _ => follows_refl _
end

theorem follows_borrow {n : Nat} {k k' : Option (Except Err (Nat × Bytes)) → M α} (h : ∀ r, Follows X Y R (k r) (k' r)) :
    Follows X Y R (.borrow n k) (.borrow n k') := fun _ => h _ _

theorem follows_borrowR {n : Nat} {k k' : Option (Except Err (Nat × Bytes)) → M α} (h : ∀ r, Follows X Y R (k r) (k' r)) :
    Follows X Y R (.borrowR n k) (.borrowR n k') := fun _ => h _ _

theorem follows_vec {T : Target} {e : Endian} {t : Ty} {p q : M Val} (h : Follows X Y R p q) (n : Nat) :
    Follows X Y R (readVec T.toHost e (elemOf T t p) n) (readVec T.toHost e (elemOf T t q) n) := by
  refine follows_ite (follows_refl _) fun s => ?_
  simp only [Prog.run]
  refine (follows_ite (follows_refl _) (follows_ite (follows_refl _) fun s => ?_)) s
  simp only [Prog.run]
  exact follows_ite (follows_refl _) (follows_ite (follows_refl _) (follows_repeat h n)) s

theorem follows_cow {T : Target} {e : Endian} {t : Ty} {p q : M Val} (h : Follows X Y R p q) (n : Nat) :
    Follows X Y R (readCow T.toHost e (elemOf T t p) n) (readCow T.toHost e (elemOf T t q) n) := by
  have hv := follows_map (f := CowVal.owned) (follows_vec (T := T) (e := e) (t := t) h n)
  refine follows_ite (follows_borrow fun r => ?_) hv
  rcases r with _ | er | ⟨a, bs⟩
  · exact hv
  · exact follows_refl _
  · exact follows_refl _

theorem follows_collection {T : Target} {e : Endian} {t : Ty} {p q : M Val} (h : Follows X Y R p q) (n : Nat) :
    Follows X Y R (readCollection T.toHost e (elemOf T t p) n) (readCollection T.toHost e (elemOf T t q) n) := by
  have hv := follows_repeat h n
  refine follows_ite (follows_ite (follows_refl _) (follows_borrowR fun r => ?_)) hv
  rcases r with _ | er | ⟨a, bs⟩
  · exact hv
  · exact follows_refl _
  · exact follows_refl _

theorem follows_kv {T : Target} {e : Endian} {t t' : Ty} {p q p' q' : M Val} (h : Follows X Y R p q) (h' : Follows X Y R p' q') (n : Nat) :
    Follows X Y R (readKV T.toHost e (elemOf T t p) (elemOf T t' p') n) (readKV T.toHost e (elemOf T t q) (elemOf T t' q') n) := by
  have hv := follows_repeat (follows_pair (ek := elemOf T t p) (ek' := elemOf T t q) (ev := elemOf T t' p') (ev' := elemOf T t' q') h h') n
  refine follows_ite (follows_ite (follows_refl _) (follows_borrowR fun r => ?_)) hv
  rcases r with _ | er | ⟨a, bs⟩
  · exact hv
  · exact follows_refl _
  · exact follows_refl _

theorem follows_seq (hXY : ∀ er, X.eof er = true → Y.eof er = true) {T : Target} {e : Endian} (k : SeqKind) {t : Ty} {p q : M Val}
    (h : Follows X Y R p q) (len : Option Nat) :
    Follows X Y R (readSeqC X T e k (elemOf T t p) len) (readSeqC Y T e k (elemOf T t q) len) := by
  cases k <;> cases len
  · exact follows_map (follows_untilEof hXY h _)
  · exact follows_map (follows_vec h _)
  · exact follows_map (follows_untilEof hXY h _)
  · exact follows_map (follows_cow h _)
  · exact follows_refl _
  · exact follows_refl _

theorem follows_array {T : Target} {e : Endian} {inl : Bool} {t : Ty} {p q : M Val} (h : Follows X Y R p q) (n : Nat) :
    Follows X Y R (readArray T e inl (elemOf T t p) n) (readArray T e inl (elemOf T t q) n) :=
  follows_ite (follows_refl _) (follows_map (follows_repeat h n))

variable (hXY : ∀ er, X.eof er = true → Y.eof er = true) (T : Target) (e : Endian)
include hXY

mutual
theorem follows_decode : ∀ (t : Ty) (cx : Cx), Follows X Y R (decodeC X T e t cx) (decodeC Y T e t cx)
  | .prim _, _ | .usize, _ | .bool, _ | .char, _ | .nonZero _, _ | .atomic _, _ | .ipv4, _ | .ipv6, _
  | .ipAddr, _ | .duration, _ | .systemTime, _ | .endianness, _ | .varint64, _ | .uuid, _ | .unit, _
  | .refArray _ _, _ => by simp only [decodeC]; exact follows_refl _
  | .str k, cx => by
    simp only [decodeC]
    exact follows_bind (follows_len hXY _ _ _) fun _ => follows_str hXY _ _ _ _
  | .seq k t, cx => by
    simp only [decodeC]
    exact follows_ite (follows_refl _) (follows_bind (follows_len hXY _ _ _) fun _ => follows_seq hXY k (follows_decode t Cx.std) _)
  | .set t, cx => by
    simp only [decodeC]
    refine follows_bind (follows_len hXY _ _ _) fun len => ?_
    cases len with
    | none => exact follows_map (follows_untilEof hXY (follows_decode t Cx.std) _)
    | some n => exact follows_map (follows_collection (follows_decode t Cx.std) n)
  | .map a b, cx => by
    simp only [decodeC]
    refine follows_bind (follows_len hXY _ _ _) fun len => ?_
    cases len with
    | none => exact follows_map (follows_untilEof hXY (follows_pair (follows_decode a Cx.std) (follows_decode b Cx.std)) _)
    | some n => exact follows_map (follows_kv (follows_decode a Cx.std) (follows_decode b Cx.std) n)
  | .array n t, cx => by simp only [decodeC]; exact follows_array (follows_decode t Cx.std) n
  | .range t, cx | .rangeInc t, cx => by
    simp only [decodeC]
    exact follows_bind (follows_decode t Cx.std) fun _ => follows_bind (follows_decode t Cx.std) fun _ => follows_refl _
  | .box t, cx => by simp only [decodeC]; exact follows_decode t Cx.std
  | .via _ t, cx => by simp only [decodeC]; exact follows_bind (follows_decode t Cx.std) fun _ => follows_refl _
  | .option t, cx => by
    simp only [decodeC]
    exact follows_bind (follows_refl _) fun _ => follows_ite (follows_map (follows_decode t _)) (follows_refl _)
  | .result a b, cx => by
    simp only [decodeC]
    exact follows_bind (follows_refl _) fun _ => follows_ite (follows_map (follows_decode a _)) (follows_map (follows_decode b _))
  | .pair a b, cx => by
    simp only [decodeC]
    exact follows_bind (follows_decode a Cx.std) fun _ => follows_bind (follows_decode b Cx.std) fun _ => follows_refl _
  | .struct d fs, cx => by simp only [decodeC]; exact follows_fields fs []
  | .enum d vs, cx => by simp only [decodeC]; exact follows_bind (follows_refl _) fun _ => follows_variants vs _ _
theorem follows_fields : ∀ (fs : Fields) (prev : List Val), Follows X Y R (decodeFieldsC X T e fs prev) (decodeFieldsC Y T e fs prev)
  | .nil, _ => by simp only [decodeFieldsC]; exact follows_refl _
  | .cons a t fs, prev => by
    simp only [decodeFieldsC]
    refine follows_ite (follows_map (follows_fields fs prev)) (follows_bind ?_ fun _ => follows_map (follows_fields fs _))
    have h : Follows X Y R (if a.varint then M.map Val.num (readVarint T.toHost e) else decodeC X T e t (a.cx T.toHost prev))
        (if a.varint then M.map Val.num (readVarint T.toHost e) else decodeC Y T e t (a.cx T.toHost prev)) :=
      follows_ite (follows_refl _) (follows_decode t _)
    have h2 := follows_ite (c := a.pre.isEmpty = true) h (follows_bind (follows_refl (readConstant T.toHost e (u8Elem T e) a.pre)) fun _ => h)
    exact follows_ite (follows_onEof hXY h2 _) h2
theorem follows_variants : ∀ (vs : Variants) (tag i : Nat),
    Follows X Y R (decodeVariantsC X T e vs tag i) (decodeVariantsC Y T e vs tag i)
  | .nil, _, _ => by simp only [decodeVariantsC]; exact follows_refl _
  | .cons tag' fs vs, tag, i => by
    simp only [decodeVariantsC]
    exact follows_ite (follows_map (follows_fields fs [])) (follows_variants vs tag _)
end

end

/-! ## C62 -/

/-- An error type which may be used for `t`: its `is_eof` is that of the errors it is made of, unless reading `t` never asks. -/
def ErrTy.Suits (X : ErrTy) (t : Ty) : Prop := X.Faithful ∨ eofFree t = true

section
variable {X : ErrTy} {T : Target} {e : Endian} {t : Ty}

/-- **C62**: reading in a context with its own error type does to every reader, in every state, what reading with `speedy::Error` does;
the result is the same value, or the converted error. -/
theorem C62_read (h : X.Suits t) {σ : Type} (R : ReaderOps σ) (s : σ) :
    (decodeC X T e t Cx.std).run R s = (decode T e t Cx.std).run R s := by
  rw [decodeC_eq T e t Cx.std (h.imp id fun h => ⟨h, rfl⟩)]

/-- **C62** for `read_with_length_from_buffer_with_ctx`. -/
theorem C62_buffer (h : X.Suits t) (base : Nat) (buf : Bytes) :
    readWithLengthFromBufferC X T e t base buf =
      (X.result (readWithLengthFromBuffer T e t base buf).1, (readWithLengthFromBuffer T e t base buf).2) := by
  unfold readWithLengthFromBufferC readWithLengthFromBuffer
  split
  · rfl
  · simp only [C62_read h]

/-- **C62** for `read_with_length_from_buffer_copying_data_with_ctx`. -/
theorem C62_buffer_copying (h : X.Suits t) (base : Nat) (buf : Bytes) :
    readWithLengthFromBufferCopyingC X T e t base buf =
      (X.result (readWithLengthFromBufferCopying T e t base buf).1, (readWithLengthFromBufferCopying T e t base buf).2) := by
  unfold readWithLengthFromBufferCopyingC readWithLengthFromBufferCopying
  split
  · rfl
  · simp only [C62_read h]

/-- **C62** for streams: also the stream is left in the same state. -/
theorem C62_stream (h : X.Suits t) (grow : Nat → Nat) (buffering : Bool) (src : Src) :
    readFromStreamC X T e t grow buffering src =
      (X.result (readFromStream T e t grow buffering src).1, (readFromStream T e t grow buffering src).2) := by
  unfold readFromStreamC readFromStream
  simp only [C62_read h]

/-- **C62**: `speedy::Error` as the error type of a context. -/
theorem C62_speedy : ErrTy.speedy.Suits t := .inl fun _ _ => rfl

/-- **C62**, without the contract: an `is_eof` which overlooks ends of input makes reading fail where it would have gone on, but never
changes a value. -/
theorem C62_strict (hX : ∀ er, X.eof er = true → er.isEof = true) {σ : Type} {R : ReaderOps σ} {s s' : σ} {v : Val}
    (h : (decodeC X T e t Cx.std).run R s = (.ok v, s')) : (decode T e t Cx.std).run R s = (.ok v, s') := by
  have hY : ErrTy.speedy.Faithful := fun _ _ => rfl
  have := follows_decode (X := X) (Y := ErrTy.speedy) (fun er he => (hY.eof er).trans (hX er he)) T e t Cx.std s (by rw [h]; trivial)
  rw [h, C62_read (.inl hY)] at this
  exact this

/-- **C62**, without the contract: an `is_eof` which takes other errors for ends of input does not change the values which are read otherwise. -/
theorem C62_lax (hX : ∀ er : Err, er.isEof = true → X.eof er = true) {σ : Type} {R : ReaderOps σ} {s s' : σ} {v : Val}
    (h : (decode T e t Cx.std).run R s = (.ok v, s')) : (decodeC X T e t Cx.std).run R s = (.ok v, s') := by
  have hY : ErrTy.speedy.Faithful := fun _ _ => rfl
  have := follows_decode (X := ErrTy.speedy) (Y := X) (fun er he => hX er ((hY.eof er).symm.trans he)) T e t Cx.std s
    (by rw [C62_read (.inl hY), h]; trivial)
  rw [C62_read (.inl hY), h] at this
  exact this

/-- **C62**: a panic while a field is read is not taken for the end of the input by any error type: it is passed on. -/
theorem C62_panic {α σ : Type} {R : ReaderOps σ} {s s' : σ} {p : M α} {x : Panic} (h : p.run R s = (.error (.panic x), s')) (d : α) :
    (onEofC X p d).run R s = (.error (.panic x), s') ∧
    X.result (p.run R s).1 = .error (.fault (.panic x)) := by
  constructor
  · unfold onEofC
    rw [Prog.run_bind, h]
    rfl
  · rw [h]; rfl

end

/-! ## Examples -/

open Samples

/-- An error type which keeps whether the input has ended, and nothing else. -/
def endOrNot : ErrTy := ⟨Bool, Err.isEof, id⟩

/-- One which forgets it: `is_eof` returns `false`. -/
def neverEof : ErrTy := ⟨Unit, fun _ => (), fun _ => false⟩

/-- One for which everything is the end of the input. -/
def alwaysEof : ErrTy := ⟨Unit, fun _ => (), fun _ => true⟩

instance : DecidableEq endOrNot.E := inferInstanceAs (DecidableEq Bool)
instance : DecidableEq neverEof.E := inferInstanceAs (DecidableEq Unit)
instance : DecidableEq alwaysEof.E := inferInstanceAs (DecidableEq Unit)

/-- `struct S { a: u8, #[speedy(default_on_eof)] b: char }` -/
def lateChar : Ty := .struct ⟨.rust, 8, 4, [4, 0], false⟩ (.cons {} (.prim .u8) (.cons { defaultOnEof := true, dflt := .num 0 } .char .nil))

example : endOrNot.Suits lateChar := .inl fun _ _ => rfl
example : neverEof.Suits (.seq .vec (.pair (.str .owned) (.pair .char .unit))) := .inr rfl

example : readWithLengthFromBufferC endOrNot x64 .little lateChar 4096 [5] = (.ok (.pair (.num 5) (.pair (.num 0) .unit)), 1) := by
  decide +kernel
example : readWithLengthFromBufferC endOrNot x64 .little lateChar 4096 [5, 255, 255, 255, 255] = (.error (.err false), 5) := by
  decide +kernel

/-- The contract is needed: an error type which does not know ends of input makes `default_on_eof` useless, and one for which every error
is an end of input replaces what cannot be read. -/
theorem C62_contract :
    readWithLengthFromBufferC neverEof x64 .little lateChar 4096 [5] = (.error (.err ()), 1) ∧
    (readFromBuffer x64 .little lateChar 4096 [5]).isOk = true ∧
    readWithLengthFromBufferC alwaysEof x64 .little lateChar 4096 [5, 255, 255, 255, 255] = (.ok (.pair (.num 5) (.pair (.num 0) .unit)), 5) ∧
    readFromBuffer x64 .little lateChar 4096 [5, 255, 255, 255, 255] = .error .invalidChar := by
  decide +kernel

/-- A date which panics, in a field with `default_on_eof`, with an error type for which everything is the end of the input. -/
example : readWithLengthFromBufferC alwaysEof x64 .little (.struct ⟨.rust, 12, 1, [0], false⟩ (.cons { defaultOnEof := true, dflt := .unit }
      (.via (.dateTime fun _ n => n < 1000000000) (.pair (.prim .i64) (.prim .u32))) .nil)) 4096 [0, 0, 0, 0, 0, 0, 0, 0, 255, 255, 255, 255] =
    (.error (.fault (.panic .unwrapNone)), 12) := by
  decide +kernel

/-! ## Cases -/

section Cases
open Samples

/-- An error type of its own, which knows the end of the input. -/
example (base : Nat) (buf : Bytes) := C62_buffer (X := endOrNot) (T := x64) (e := .little) (t := lateChar) (.inl fun _ _ => rfl) base buf
example (base : Nat) (buf : Bytes) :=
  C62_buffer_copying (X := endOrNot) (T := x64) (e := .little) (t := lateChar) (.inl fun _ _ => rfl) base buf
example (src : Src) := C62_stream (X := endOrNot) (T := x64) (e := .little) (t := lateChar) (.inl fun _ _ => rfl) (· + 100) true src
example := C62_read (X := neverEof) (T := x64) (e := .little) (t := .seq .vec (.pair (.str .owned) (.pair .char .unit))) (.inr rfl)
  (bufferReader Host.x64) (BufSt.init 4096 [1, 0, 0, 0])

/-- The one byte, for which a default is used. -/
example := C62_lax (X := alwaysEof) (T := x64) (e := .little) (t := lateChar)
  (fun er h => by cases er <;> simp_all [Err.isEof, ErrTy.eof, Err.fault, alwaysEof]) (R := bufferReader Host.x64)
  (s := BufSt.init 4096 [5]) (v := .pair (.num 5) (.pair (.num 0) .unit)) (Prod.ext rfl rfl)

/-- All bytes are there, and no default is used. -/
example := C62_strict (X := neverEof) (T := x64) (e := .little) (t := lateChar) 
  (fun er h => by simp [ErrTy.eof, neverEof] at h) (R := bufferReader Host.x64)
  (s := BufSt.init 4096 [5, 65, 0, 0, 0]) (v := .pair (.num 5) (.pair (.num 65) .unit)) (Prod.ext rfl rfl)

example := C62_panic (X := alwaysEof) (R := bufferReader Host.x64) (s := BufSt.init 4096 [255, 255, 255, 255, 255, 255, 255, 255, 0, 0xca, 0x9a, 0x3b])
  (p := decode x64 .little .duration Cx.std) (x := .arithOverflow) (Prod.ext rfl rfl) .unit

end Cases

end Verif
