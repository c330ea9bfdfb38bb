import Verif.PropsSafe
import Verif.ErrorType

/-!
# C91: reading fails only for reasons which the type has
-/

namespace Verif

/-! ## Reasons -/

/-- Lengths of these types can be out of range: `u7` is read from a byte, and the others need not fit into `usize`. -/
def LenTy.tooLong (h : Host) : LenTy → Prop
  | .u7 => True
  | .u64 | .varint => h.usizeMax < 2 ^ 64 - 1
  | _ => False

/-- The error of a conversion. -/
def Conv.reason : Conv → Err → Prop
  | .regex ok, er => ∃ bs, ok bs = false ∧ er = .custom 0
  | .user f, er => ∃ v msg, f v = .error msg ∧ er = .custom msg
  | _, _ => False

mutual
/-- The reasons for which a value of the type may be refused, besides the end of the input.
`lends`: the reader lends bytes of the input (as `read_from_buffer` does); `T`, `e`: the machine and the byte order of the input. -/
def reason (T : Target) (e : Endian) (lends : Bool) : Ty → Err → Prop
  | .usize, er => er = .outOfRangeUsize ∧ T.usizeMax < 2 ^ 64 - 1
  | .char, er => er = .invalidChar
  | .nonZero _, er => er = .zeroNonZero
  | .ipAddr, er | .endianness, er => er = .invalidEnumVariant
  | .systemTime, er => er = .invalidSystemTime
  | .str .ref, er => er = .invalidUtf8 ∨ (er = .unsized ∧ lends = false)
  | .str _, er => er = .invalidUtf8
  | .seq .ref t, er => (er = .endiannessMismatch ∧ sizeOf T t ≠ 1 ∧ e.conv T.toHost = true) ∨
      (er = .unsized ∧ lends = false) ∨ er = .outOfRangeLength
  | .refArray _ t, er => (er = .endiannessMismatch ∧ sizeOf T t ≠ 1 ∧ e.conv T.toHost = true) ∨ (er = .unsized ∧ lends = false)
  | .seq _ t, er | .array _ t, er | .option t, er | .range t, er | .rangeInc t, er | .box t, er => reason T e lends t er
  | .set t, er => (er = .outOfRangeUsize ∧ isPrimitive T t = true) ∨ reason T e lends t er
  | .map k v, er => (er = .outOfRangeUsize ∧ isPrimitive T k = true ∧ isPrimitive T v = true) ∨ reason T e lends k er ∨ reason T e lends v er
  | .result a b, er | .pair a b, er => reason T e lends a er ∨ reason T e lends b er
  | .via c t, er => c.reason er ∨ reason T e lends t er
  | .struct _ fs, er => reasonFields T e lends fs er
  | .enum _ vs, er => er = .invalidEnumVariant ∨ reasonVariants T e lends vs er
  | _, _ => False
/-- Fields which are not skipped: their prefix, their length and their type. -/
def reasonFields (T : Target) (e : Endian) (lends : Bool) : Fields → Err → Prop
  | .nil, _ => False
  | .cons a t fs, er =>
    (a.skip = false ∧ ((a.pre ≠ [] ∧ er = .expectedConstant a.pre) ∨
      (er = .outOfRangeLength ∧ a.opaqueTy = false ∧ ∃ lt, a.len = some (.typed lt) ∧ lt.tooLong T.toHost) ∨
      (a.varint = false ∧ reason T e lends t er))) ∨ reasonFields T e lends fs er
/-- Variants. -/
def reasonVariants (T : Target) (e : Endian) (lends : Bool) : Variants → Err → Prop
  | .nil, _ => False
  | .cons _ fs vs, er => reasonFields T e lends fs er ∨ reasonVariants T e lends vs er
end

/-! ## Programs which fail only with certain errors -/

/-- `Q` holds of the result, whatever a reader answers whose errors satisfy `B`, and which lends bytes if `lends`. -/
def Prog.Ends {β : Type} (lends : Bool) (B : Err → Prop) (Q : β → Prop) : Prog β → Prop
  | .ret a => Q a
  | .read n k => (∀ bs, bs.length = n → (k (.ok bs)).Ends lends B Q) ∧ ∀ er, B er → (k (.error er)).Ends lends B Q
  | .peek n k => (∀ bs, bs.length = n → (k (.ok bs)).Ends lends B Q) ∧ ∀ er, B er → (k (.error er)).Ends lends B Q
  | .skip _ k => (k (.ok ())).Ends lends B Q ∧ ∀ er, B er → (k (.error er)).Ends lends B Q
  | .canRead _ k => ∀ o, (k o).Ends lends B Q
  | .borrow _ k => (∀ r, (k (some (.ok r))).Ends lends B Q) ∧ (∀ er, B er → (k (some (.error er))).Ends lends B Q) ∧
      (lends = false → (k none).Ends lends B Q)
  | .borrowR _ k => (∀ r, (k (some (.ok r))).Ends lends B Q) ∧ (∀ er, B er → (k (some (.error er))).Ends lends B Q) ∧
      (k none).Ends lends B Q
  | .borrowEof k => (∀ r, (k (some r)).Ends lends B Q) ∧ (lends = false → (k none).Ends lends B Q)
  | .alloc _ _ k => k.Ends lends B Q

/-- The errors of a reader satisfy `B`, and it lends bytes if `lends`. -/
structure Answers {σ : Type} (lends : Bool) (B : Err → Prop) (R : ReaderOps σ) (Inv : σ → Prop) : Prop where
  read : ∀ n s er, Inv s → (R.read n s).1 = .error er → B er
  peek : ∀ n s er, Inv s → (R.peek n s).1 = .error er → B er
  skip : ∀ n s er, Inv s → (R.skip n s).1 = .error er → B er
  borrow : ∀ n s er, Inv s → (R.borrow n s).1 = some (.error er) → B er
  borrowR : ∀ n s er, Inv s → (R.borrowR n s).1 = some (.error er) → B er
  lend : lends = true → ∀ n s, (R.borrow n s).1 ≠ none
  lendEof : lends = true → ∀ s, (R.borrowEof s).1 ≠ none

section
variable {α β : Type} {lends : Bool} {B : Err → Prop}

theorem Prog.Ends.run {σ : Type} {R : ReaderOps σ} {exact : Bool} {Inv : σ → Prop} {pend : σ → Bytes}
    (O : Orderly exact R Inv pend) (hR : Answers lends B R Inv) {Q : β → Prop} {p : Prog β} {s : σ} (hs : Inv s)
    (h : p.Ends lends B Q) : Q (p.run R s).1 := by
  induction p generalizing s with
  | ret a => exact h
  | read n k ih =>
    have he := hR.read n s
    rcases O.read n s hs with ⟨s', hr, hn, hi, _⟩ | ⟨er, s', _, hr, _, hi, _⟩ <;> simp only [Prog.run, hr] at he ⊢
    · exact ih _ hi (h.1 _ (by simp; omega))
    · exact ih _ hi (h.2 er (he er hs rfl))
  | peek n k ih =>
    have he := hR.peek n s
    rcases O.peek n s hs with ⟨s', hr, hn, hi, _⟩ | ⟨er, s', _, hr, _, hi, _⟩ <;> simp only [Prog.run, hr] at he ⊢
    · exact ih _ hi (h.1 _ (by simp; omega))
    · exact ih _ hi (h.2 er (he er hs rfl))
  | skip n k ih =>
    have he := hR.skip n s
    rcases O.skip n s hs with ⟨s', hr, hn, hi, _⟩ | ⟨er, s', _, hr, _, hi, _⟩ <;> simp only [Prog.run, hr] at he ⊢
    · exact ih _ hi h.1
    · exact ih _ hi (h.2 er (he er hs rfl))
  | canRead n k ih => exact ih _ hs (h _)
  | borrow n k ih =>
    have he := hR.borrow n s
    have hl := fun h => hR.lend h n s
    rcases O.borrow n s hs with hr | ⟨a, s', hr, hn, hi, _⟩ | ⟨er, s', _, hr, _, hi, _⟩ <;>
      simp only [Prog.run, hr] at he hl ⊢
    · refine ih _ hs (h.2.2 ?_)
      cases lends with
      | false => rfl
      | true => exact absurd rfl (hl rfl)
    · exact ih _ hi (h.1 _)
    · exact ih _ hi (h.2.1 er (he er hs rfl))
  | borrowR n k ih =>
    have he := hR.borrowR n s
    rcases O.borrowR n s hs with hr | ⟨a, s', hr, hn, hi, _⟩ | ⟨er, s', _, hr, _, hi, _⟩ <;>
      simp only [Prog.run, hr] at he ⊢
    · exact ih _ hs h.2.2
    · exact ih _ hi (h.1 _)
    · exact ih _ hi (h.2.1 er (he er hs rfl))
  | borrowEof k ih =>
    have hl := fun h => hR.lendEof h s
    rcases O.borrowEof s hs with hr | ⟨a, s', hr, hi, _⟩ <;> simp only [Prog.run, hr] at hl ⊢
    · refine ih _ hs (h.2 ?_)
      cases lends with
      | false => rfl
      | true => exact absurd rfl (hl rfl)
    · exact ih _ hi (h.1 _)
  | alloc n m k ih => exact ih hs h

theorem Prog.Ends.bind {P : α → Prop} {Q : β → Prop} {p : Prog α} {f : α → Prog β} (h : p.Ends lends B P)
    (hf : ∀ a, P a → (f a).Ends lends B Q) : (p.bind f).Ends lends B Q := by
  induction p with
  | ret a => exact hf a h
  | read n k ih | peek n k ih => exact ⟨fun bs hb => ih _ (h.1 bs hb), fun er he => ih _ (h.2 er he)⟩
  | skip n k ih => exact ⟨ih _ h.1, fun er he => ih _ (h.2 er he)⟩
  | canRead n k ih => exact fun o => ih _ (h o)
  | borrow n k ih => exact ⟨fun r => ih _ (h.1 r), fun er he => ih _ (h.2.1 er he), fun hl => ih _ (h.2.2 hl)⟩
  | borrowR n k ih => exact ⟨fun r => ih _ (h.1 r), fun er he => ih _ (h.2.1 er he), ih _ h.2.2⟩
  | borrowEof k ih => exact ⟨fun r => ih _ (h.1 r), fun hl => ih _ (h.2 hl)⟩
  | alloc n m k ih => exact ih h

theorem Prog.Ends.mono {P Q : β → Prop} {p : Prog β} (h : p.Ends lends B P) (hf : ∀ a, P a → Q a) : p.Ends lends B Q := by
  induction p with
  | ret a => exact hf a h
  | read n k ih | peek n k ih => exact ⟨fun bs hb => ih _ (h.1 bs hb), fun er he => ih _ (h.2 er he)⟩
  | skip n k ih => exact ⟨ih _ h.1, fun er he => ih _ (h.2 er he)⟩
  | canRead n k ih => exact fun o => ih _ (h o)
  | borrow n k ih => exact ⟨fun r => ih _ (h.1 r), fun er he => ih _ (h.2.1 er he), fun hl => ih _ (h.2.2 hl)⟩
  | borrowR n k ih => exact ⟨fun r => ih _ (h.1 r), fun er he => ih _ (h.2.1 er he), ih _ h.2.2⟩
  | borrowEof k ih => exact ⟨fun r => ih _ (h.1 r), fun hl => ih _ (h.2 hl)⟩
  | alloc n m k ih => exact ih h

/-- The value satisfies `V`, or the error `E`. -/
def Upshot (V : α → Prop) (E : Err → Prop) : Except Err α → Prop
  | .ok a => V a
  | .error er => E er

/-- Values satisfy `V` and errors `E`. -/
def Yields (lends : Bool) (B : Err → Prop) (V : α → Prop) (E : Err → Prop) (p : M α) : Prop := p.Ends lends B (Upshot V E)

variable {V : α → Prop} {W : β → Prop} {E : Err → Prop}

theorem yields_pure {a : α} (h : V a) : Yields lends B V E (M.pure a) := h

theorem yields_fail {er : Err} (h : E er) : Yields lends B V E (M.fail er) := h

theorem yields_bind {p : M α} {f : α → M β} (hp : Yields lends B V E p) (hf : ∀ a, V a → Yields lends B W E (f a)) :
    Yields lends B W E (M.bind p f) :=
  Prog.Ends.bind hp fun r hr => by cases r with
    | ok a => exact hf a hr
    | error er => exact hr

theorem yields_map {p : M α} {f : α → β} (hp : Yields lends B V E p) :
    Yields lends B (fun _ => True) E (M.map f p) :=
  yields_bind hp fun _ _ => yields_pure trivial

theorem yields_weak {p : M α} (hp : Yields lends B V E p) : Yields lends B (fun _ => True) E p :=
  Prog.Ends.mono hp fun r hr => by cases r with
    | ok a => trivial
    | error er => exact hr

/-- What every program may fail with: errors of the reader, the end of the input; panics are not errors. -/
structure Basis (B E : Err → Prop) : Prop where
  reader : ∀ er, B er → E er
  eof : E .unexpectedEndOfInput
  odd : ∀ er, er.fault = true → E er

variable (H : Basis B E)
include H

theorem yields_num {h : Host} {e : Endian} {n : Nat} : Yields lends B (fun v => v < 256 ^ n) E (readNum h e n) := by
  show ∀ r, Prog.Ends _ _ _ _
  intro r
  split
  · exact H.eof
  · refine ⟨fun bs hb => ?_, fun er he => H.reader er he⟩
    have h1 := Endian.num_lt h.native bs
    rw [hb] at h1
    show (if _ then _ else _) < _
    split
    · exact swapBytes_lt _ _
    · exact h1

theorem yields_peekNum {h : Host} {e : Endian} {n : Nat} : Yields lends B (fun v => v < 256 ^ n) E (peekNum h e n) := by
  show ∀ r, Prog.Ends _ _ _ _
  intro r
  split
  · exact H.eof
  · refine ⟨fun bs hb => ?_, fun er he => H.reader er he⟩
    have h1 := Endian.num_lt h.native bs
    rw [hb] at h1
    show (if _ then _ else _) < _
    split
    · exact swapBytes_lt _ _
    · exact h1

theorem yields_bytes {n : Nat} : Yields lends B (fun bs => bs.length = n) E (readBytes n) :=
  ⟨fun _ hb => hb, fun er he => H.reader er he⟩

theorem yields_peekBytes {n : Nat} : Yields lends B (fun bs => bs.length = n) E (peekBytes n) :=
  ⟨fun _ hb => hb, fun er he => H.reader er he⟩

omit H in
theorem viCombine_lt {h : Host} {b : UInt8} {rest : Bytes} (hl : rest.length = viLength b) : viCombine h b rest < 2 ^ 64 := by
  unfold viCombine
  have hk := leadingOnes_le b.toNat
  rw [viLength_eq] at hl
  refine Nat.or_lt_two_pow (Nat.mod_lt _ (by decide)) ?_
  have h1 := Endian.num_lt h.native (rest ++ List.replicate (8 - rest.length) 0)
  have h2 : (rest ++ List.replicate (8 - rest.length) (0 : UInt8)).length = 8 := by simp; omega
  rw [h2] at h1
  unfold toLe
  split
  · exact h1
  · exact swapBytes_lt 8 _

theorem yields_varint {h : Host} {e : Endian} : Yields lends B (fun v => v < 2 ^ 64) E (readVarint h e) :=
  yields_bind (yields_num H) fun _ _ => yields_bind (yields_bytes H) fun _ hb => yields_pure (viCombine_lt hb)

theorem yields_peekVarint {h : Host} {e : Endian} : Yields lends B (fun v => v < 2 ^ 64) E (peekVarint h e) :=
  yields_bind (yields_peekNum H) fun _ _ => yields_bind (yields_peekBytes H) fun _ hb => yields_pure (viCombine_lt hb)

theorem yields_len {h : Host} {e : Endian} {lt : LenTy} (hl : lt.tooLong h → E .outOfRangeLength) :
    Yields lends B (fun _ => True) E (readLen h e lt) := by
  cases lt <;> unfold readLen
  case u7 => exact yields_bind (yields_num H) fun n _ => by split; exact hl trivial; trivial
  case u64 =>
    refine yields_bind (yields_num H) fun n hn => ?_
    split
    · exact hl (by simp only [LenTy.tooLong]; have : (256 : Nat) ^ 8 = 2 ^ 64 := by decide
                   omega)
    · trivial
  case varint =>
    refine yields_bind (yields_varint H) fun n hn => ?_
    split
    · exact hl (by simp only [LenTy.tooLong]; omega)
    · trivial
  all_goals exact yields_weak (yields_num H)

omit H in
theorem yields_onEof {p : M α} {d : α} (hp : Yields lends B (fun _ => True) E p) :
    Yields lends B (fun _ => True) E (onEof p d) :=
  Prog.Ends.bind hp fun r hr => by cases r with
    | ok v => trivial
    | error er =>
      show Yields _ _ _ _ (if _ then _ else _)
      split
      · trivial
      · exact hr

theorem yields_lenR {h : Host} {e : Endian} {l : LenR} (hl : ∀ lt d, l = .typed lt d → lt.tooLong h → E .outOfRangeLength) :
    Yields lends B (fun _ => True) E (readLenR h e l) := by
  unfold readLenR
  split
  · exact yields_map (yields_len H (hl _ _ rfl))
  · exact yields_map (V := fun _ => True) (yields_onEof (yields_len H (hl _ _ rfl)))
  · trivial
  · trivial

omit H in
theorem yields_repeat {p : M α} (hp : Yields lends B (fun _ => True) E p) :
    ∀ n, Yields lends B (fun _ => True) E (repeatM n p)
  | 0 => trivial
  | n + 1 => yields_bind hp fun _ _ => yields_bind (yields_repeat hp n) fun _ _ => trivial

theorem yields_untilEof {p : M Val} (hp : Yields lends B (fun _ => True) E p) :
    ∀ n, Yields lends B (fun _ => True) E (readUntilEof n p)
  | 0 => H.odd _ rfl
  | n + 1 => Prog.Ends.bind hp fun r hr => by cases r with
    | ok v => exact yields_bind (yields_untilEof hp n) fun _ _ => trivial
    | error er =>
      show Yields _ _ _ _ (if _ then _ else _)
      split
      · trivial
      · exact hr

theorem yields_liftVals {el : Elem} {r : Except Panic (List Bytes)} : Yields lends B (fun _ => True) E (liftVals el r) := by
  cases r with
  | ok ms => trivial
  | error p => exact H.odd _ rfl

theorem yields_vec {h : Host} {e : Endian} {el : Elem} {n : Nat} (he : Yields lends B (fun _ => True) E el.read) :
    Yields lends B (fun _ => True) E (readVec h e el n) := by
  unfold readVec
  split
  · exact H.eof
  · show ∀ r, Prog.Ends _ _ _ _
    intro r
    split
    · exact H.eof
    · split
      · exact H.odd _ rfl
      · show Yields lends B (fun _ => True) E (if _ then _ else _)
        split
        · exact yields_bind (yields_bytes H) fun _ _ => yields_liftVals H
        · split
          · trivial
          · exact yields_repeat he n

theorem yields_cow {h : Host} {e : Endian} {el : Elem} {n : Nat} (he : Yields lends B (fun _ => True) E el.read) :
    Yields lends B (fun _ => True) E (readCow h e el n) := by
  unfold readCow
  split
  · refine ⟨fun r => ?_, fun er hb => H.reader er hb, fun _ => yields_map (yields_vec H he)⟩
    obtain ⟨addr, bs⟩ := r
    show Yields lends B (fun _ => True) E (if _ then _ else _)
    split
    · exact H.odd _ rfl
    · split
      · split
        · exact H.odd _ rfl
        · trivial
      · split
        · exact H.odd _ rfl
        · trivial
  · exact yields_map (yields_vec H he)

theorem yields_collection {h : Host} {e : Endian} {el : Elem} {n : Nat} (he : Yields lends B (fun _ => True) E el.read)
    (hp : el.prim = true → E .outOfRangeUsize) : Yields lends B (fun _ => True) E (readCollection h e el n) := by
  unfold readCollection
  split
  · rename_i hc
    split
    · exact hp (by simp at hc; exact hc.1)
    · refine ⟨fun r => ?_, fun er hb => H.reader er hb, yields_repeat he n⟩
      show Yields lends B (fun _ => True) E (if _ then _ else _)
      split
      · exact H.odd _ rfl
      · trivial
  · exact yields_repeat he n

omit H in
theorem yields_pair {ek ev : Elem} (hk : Yields lends B (fun _ => True) E ek.read)
    (hv : Yields lends B (fun _ => True) E ev.read) : Yields lends B (fun _ => True) E (readPair ek ev) :=
  yields_bind hk fun _ _ => yields_bind hv fun _ _ => trivial

theorem yields_kv {h : Host} {e : Endian} {ek ev : Elem} {n : Nat} (hk : Yields lends B (fun _ => True) E ek.read)
    (hv : Yields lends B (fun _ => True) E ev.read) (hp : ek.prim = true → ev.prim = true → E .outOfRangeUsize) :
    Yields lends B (fun _ => True) E (readKV h e ek ev n) := by
  unfold readKV
  split
  · rename_i hc
    split
    · simp at hc
      exact hp hc.1.1 hc.1.2
    · refine ⟨fun r => ?_, fun er hb => H.reader er hb, yields_repeat (yields_pair hk hv) n⟩
      show Yields lends B (fun _ => True) E (if _ then _ else _)
      split
      · exact H.odd _ rfl
      · trivial
  · exact yields_repeat (yields_pair hk hv) n

theorem yields_u8 {T : Target} {e : Endian} : Yields lends B (fun _ => True) E (u8Elem T e).read := yields_map (yields_num H)

theorem yields_constant {T : Target} {e : Endian} {c : Bytes} (hc : E (.expectedConstant c)) :
    Yields lends B (fun _ => True) E (readConstant T.toHost e (u8Elem T e) c) := by
  refine ⟨fun r => ?_, fun er hb => H.reader er hb, fun _ => yields_bind (yields_vec H (yields_u8 H)) fun _ _ => ?_⟩
  · show Yields lends B (fun _ => True) E (if _ then _ else _)
    split
    · trivial
    · exact hc
  · split
    · trivial
    · exact hc

theorem yields_borrow {n : Nat} (hu : lends = false → E .unsized) : Yields lends B (fun _ => True) E (borrowBytes n) :=
  ⟨fun _ => trivial, fun er hb => H.reader er hb, fun hl => hu hl⟩

omit H in
theorem yields_rest (hu : lends = false → E .unsized) : Yields lends B (fun _ => True) E borrowRest :=
  ⟨fun _ => trivial, fun hl => hu hl⟩

omit H in
theorem yields_asStr {bs : Bytes} (hu : E .invalidUtf8) : Yields lends B (fun _ => True) E (asStr bs) := by
  unfold asStr
  split
  · trivial
  · exact hu

theorem yields_str {T : Target} {e : Endian} {k : StrKind} {len : Option Nat}
    (h : ∀ er, reason T e lends (.str k) er → E er) : Yields lends B (fun _ => True) E (readStr T e k len) := by
  have hu : E .invalidUtf8 := h _ (by cases k <;> simp [reason])
  unfold readStr
  split
  · exact yields_bind (yields_vec H (yields_u8 H)) fun _ _ => yields_asStr hu
  · exact yields_bind (yields_untilEof H (yields_u8 H) _) fun _ _ => yields_asStr hu
  · exact yields_bind (yields_cow H (yields_u8 H)) fun _ _ => yields_asStr hu
  · exact yields_bind (yields_untilEof H (yields_u8 H) _) fun _ _ => yields_asStr hu
  · exact yields_bind (yields_borrow H fun hl => h _ (by simp [reason, hl])) fun _ _ => yields_asStr hu
  · exact yields_bind (yields_rest fun hl => h _ (by simp [reason, hl])) fun _ _ => yields_asStr hu

theorem yields_refSlice {h : Host} {el : Elem} {n : Nat} (hu : lends = false → E .unsized) (hl : E .outOfRangeLength) :
    Yields lends B (fun _ => True) E (readRefSlice h el n) := by
  unfold readRefSlice
  split
  · exact hl
  · exact yields_bind (yields_borrow H hu) fun _ _ => trivial

theorem yields_refSliceRest {el : Elem} (hu : lends = false → E .unsized) :
    Yields lends B (fun _ => True) E (readRefSliceRest el) :=
  yields_bind (yields_rest hu) fun r _ => by
    obtain ⟨addr, bs⟩ := r
    show Yields lends B (fun _ => True) E (if _ then _ else _)
    split
    · exact H.odd _ rfl
    · trivial

theorem yields_array {T : Target} {e : Endian} {inl : Bool} {el : Elem} {n : Nat}
    (he : Yields lends B (fun _ => True) E el.read) : Yields lends B (fun _ => True) E (readArray T e inl el n) := by
  unfold readArray
  split
  · exact yields_bind (yields_bytes H) fun _ _ => yields_map (yields_liftVals H)
  · exact yields_map (yields_repeat he n)

theorem yields_duration {h : Host} {e : Endian} : Yields lends B (fun _ => True) E (readDuration h e) :=
  yields_bind (yields_num H) fun _ _ => yields_bind (yields_num H) fun _ _ => by
    unfold durationNew
    split
    · trivial
    · exact H.odd _ rfl

theorem yields_tag {h : Host} {e : Endian} {d : EnumDesc} : Yields lends B (fun _ => True) E (readTag h e d) := by
  unfold readTag
  split
  · exact yields_weak (yields_varint H)
  · exact yields_weak (yields_num H)
  · exact yields_weak (yields_peekVarint H)
  · exact yields_weak (yields_peekNum H)

theorem yields_convert {c : Conv} {v : Val} (h : ∀ er, c.reason er → E er) : Yields lends B (fun _ => True) E (convert c v) := by
  unfold convert
  cases hc : c.apply v with
  | ok w => trivial
  | error er =>
    show E er
    unfold Conv.apply at hc
    split at hc
    · split at hc
      · cases hc
      · cases hc; exact H.odd _ rfl
    · split at hc
      · cases hc
      · rename_i hb
        cases hc; exact h _ ⟨_, by simpa using hb, rfl⟩
    · cases hc
    · split at hc
      · cases hc
      · rename_i hf
        cases hc; exact h _ ⟨_, _, hf, rfl⟩
    · cases hc; exact H.odd _ rfl

omit H in
theorem cx_tooLong {h : Host} {a : Attrs} {prev : List Val} {lt : LenTy} {d : Bool} (hc : (a.cx h prev).len = .typed lt d) :
    lt = .u32 ∨ (a.opaqueTy = false ∧ a.len = some (.typed lt)) := by
  unfold Attrs.cx Attrs.wcx at hc
  split at hc
  · cases hc; exact .inl rfl
  · rename_i ho
    split at hc <;> (try (rename_i hl; cases hc))
    · exact .inr ⟨by simpa using ho, hl⟩
    · exact .inl rfl

end

mutual
theorem yields_decode {lends : Bool} {B E : Err → Prop} (H : Basis B E) {T : Target} {e : Endian} : ∀ (t : Ty) (cx : Cx),
    (∀ er, reason T e lends t er → E er) → (∀ lt d, cx.len = .typed lt d → lt.tooLong T.toHost → E .outOfRangeLength) →
    Yields lends B (fun _ => True) E (decode T e t cx)
  | .prim p, cx, h, hl => yields_map (yields_num H)
  | .usize, cx, h, hl => yields_bind (yields_num H) fun n hn => by
    split
    · refine h _ ⟨rfl, ?_⟩
      have : (256 : Nat) ^ 8 = 2 ^ 64 := by decide
      omega
    · trivial
  | .bool, cx, h, hl => yields_map (V := fun _ => True) (yields_map (yields_num H))
  | .char, cx, h, hl => yields_bind (yields_num H) fun n hn => by
    split
    · trivial
    · exact h _ rfl
  | .nonZero p, cx, h, hl => yields_bind (yields_num H) fun n hn => by
    split
    · exact h _ rfl
    · trivial
  | .atomic p, cx, h, hl => yields_map (yields_num H)
  | .ipv4, cx, h, hl => yields_map (yields_num H)
  | .ipv6, cx, h, hl => yields_map (yields_bytes H)
  | .ipAddr, cx, h, hl => yields_bind (yields_num H) fun n hn => by
    split
    · exact yields_map (yields_num H)
    · split
      · exact yields_map (V := fun _ => True) (yields_map (yields_bytes H))
      · exact h _ rfl
  | .duration, cx, h, hl => yields_map (yields_duration H)
  | .systemTime, cx, h, hl => yields_bind (yields_duration H) fun n hn => by
    split
    · trivial
    · exact h _ rfl
  | .endianness, cx, h, hl => yields_bind (yields_num H) fun n hn => by
    split
    · trivial
    · split
      · trivial
      · exact h _ rfl
  | .varint64, cx, h, hl => yields_map (yields_varint H)
  | .uuid, cx, h, hl => yields_map (yields_bytes H)
  | .str k, cx, h, hl => yields_bind (yields_lenR H hl) fun len _ => yields_str H h
  | .seq k t, cx, h, hl => by
    unfold decode
    split
    · rename_i hc
      simp at hc
      obtain ⟨⟨rfl, hs⟩, he⟩ := hc
      exact h _ (.inl ⟨rfl, hs, he⟩)
    · refine yields_bind (yields_lenR H hl) fun len _ => ?_
      cases k
      case ref =>
        have hu : lends = false → E .unsized := fun hl => h _ (.inr (.inl ⟨rfl, hl⟩))
        cases len
        · exact yields_map (yields_refSliceRest H hu)
        · exact yields_map (yields_refSlice H hu (h _ (.inr (.inr rfl))))
      all_goals
        have ht : Yields lends B (fun _ => True) E (decode T e t Cx.std) :=
          yields_decode H t Cx.std (fun er he => h er (by simpa [reason] using he)) (by simp [Cx.std, LenTy.tooLong])
        cases len
      · exact yields_map (yields_untilEof H ht _)
      · exact yields_map (yields_vec H ht)
      · exact yields_map (yields_untilEof H ht _)
      · exact yields_map (yields_cow H ht)
  | .set t, cx, h, hl => by
    have ht : Yields lends B (fun _ => True) E (decode T e t Cx.std) :=
      yields_decode H t Cx.std (fun er he => h er (.inr he)) (by simp [Cx.std, LenTy.tooLong])
    refine yields_bind (yields_lenR H hl) fun len _ => ?_
    cases len
    · exact yields_map (yields_untilEof H ht _)
    · exact yields_map (yields_collection H ht fun hp => h _ (.inl ⟨rfl, hp⟩))
  | .map k v, cx, h, hl => by
    have hk : Yields lends B (fun _ => True) E (decode T e k Cx.std) :=
      yields_decode H k Cx.std (fun er he => h er (.inr (.inl he))) (by simp [Cx.std, LenTy.tooLong])
    have hv : Yields lends B (fun _ => True) E (decode T e v Cx.std) :=
      yields_decode H v Cx.std (fun er he => h er (.inr (.inr he))) (by simp [Cx.std, LenTy.tooLong])
    refine yields_bind (yields_lenR H hl) fun len _ => ?_
    cases len
    · exact yields_map (yields_untilEof H (yields_pair hk hv) _)
    · exact yields_map (yields_kv H hk hv fun hp hq => h _ (.inl ⟨rfl, hp, hq⟩))
  | .array n t, cx, h, hl => yields_array H (yields_decode H t Cx.std h (by simp [Cx.std, LenTy.tooLong]))
  | .refArray n t, cx, h, hl => by
    unfold decode
    split
    · rename_i hc
      simp at hc
      exact h _ (.inl ⟨rfl, hc.1, hc.2⟩)
    · exact yields_map (yields_borrow H fun hl => h _ (.inr ⟨rfl, hl⟩))
  | .option t, cx, h, hl => yields_bind (V := fun _ => True) (yields_map (yields_num H)) fun b _ => by
    split
    · refine yields_map (yields_decode H t _ h ?_)
      unfold Cx.opt
      split
      · simp [Cx.std, LenTy.tooLong]
      · exact hl
    · trivial
  | .result a b, cx, h, hl => yields_bind (V := fun _ => True) (yields_map (yields_num H)) fun _ _ => by
    split
    · exact yields_map (yields_decode H a _ (fun er he => h er (.inl he)) (by simp [Cx.std, LenTy.tooLong]))
    · exact yields_map (yields_decode H b _ (fun er he => h er (.inr he)) (by simp [Cx.std, LenTy.tooLong]))
  | .range t, cx, h, hl =>
    have ht : Yields lends B (fun _ => True) E (decode T e t Cx.std) :=
      yields_decode H t Cx.std h (by simp [Cx.std, LenTy.tooLong])
    yields_bind ht fun _ _ => yields_bind ht fun _ _ => trivial
  | .rangeInc t, cx, h, hl =>
    have ht : Yields lends B (fun _ => True) E (decode T e t Cx.std) :=
      yields_decode H t Cx.std h (by simp [Cx.std, LenTy.tooLong])
    yields_bind ht fun _ _ => yields_bind ht fun _ _ => trivial
  | .unit, cx, h, hl => trivial
  | .pair a b, cx, h, hl =>
    yields_bind (yields_decode H a _ (fun er he => h er (.inl he)) (by simp [Cx.std, LenTy.tooLong])) fun _ _ =>
      yields_bind (yields_decode H b _ (fun er he => h er (.inr he)) (by simp [Cx.std, LenTy.tooLong])) fun _ _ => trivial
  | .box t, cx, h, hl => yields_decode H t Cx.std h (by simp [Cx.std, LenTy.tooLong])
  | .via c t, cx, h, hl =>
    yields_bind (yields_decode H t _ (fun er he => h er (.inr he)) (by simp [Cx.std, LenTy.tooLong])) fun _ _ =>
      yields_convert H fun er he => h er (.inl he)
  | .struct d fs, cx, h, hl => yields_decodeFields H fs [] h
  | .enum d vs, cx, h, hl => yields_bind (yields_tag H) fun tag _ =>
    yields_decodeVariants H vs tag 0 (h _ (.inl rfl)) fun er he => h er (.inr he)

theorem yields_decodeFields {lends : Bool} {B E : Err → Prop} (H : Basis B E) {T : Target} {e : Endian} :
    ∀ (fs : Fields) (prev : List Val), (∀ er, reasonFields T e lends fs er → E er) →
    Yields lends B (fun _ => True) E (decodeFields T e fs prev)
  | .nil, prev, h => trivial
  | .cons a t fs, prev, h => by
    have hfs := fun prev => yields_decodeFields H (T := T) (e := e) fs prev fun er he => h er (.inr he)
    unfold decodeFields
    split
    · exact yields_map (hfs _)
    · rename_i hsk
      have hsk : a.skip = false := by simpa using hsk
      have hbody : Yields lends B (fun _ => True) E
          (if a.varint then M.map .num (readVarint T.toHost e) else decode T e t (a.cx T.toHost prev)) := by
        split
        · exact yields_map (yields_varint H)
        · rename_i hv
          refine yields_decode H t _ (fun er he => h er (.inl ⟨hsk, .inr (.inr ⟨by simpa using hv, he⟩)⟩)) fun lt d hlt hT => ?_
          rcases cx_tooLong hlt with rfl | ⟨ho, hlen⟩
          · exact absurd hT (by simp [LenTy.tooLong])
          · exact h _ (.inl ⟨hsk, .inr (.inl ⟨rfl, ho, lt, hlen, hT⟩)⟩)
      refine yields_bind (V := fun _ => True) ?_ fun v _ => yields_map (hfs _)
      have hpre : Yields lends B (fun _ => True) E
          (if a.pre.isEmpty then
            (if a.varint then M.map .num (readVarint T.toHost e) else decode T e t (a.cx T.toHost prev))
          else M.bind (readConstant T.toHost e (u8Elem T e) a.pre) fun _ =>
            (if a.varint then M.map .num (readVarint T.toHost e) else decode T e t (a.cx T.toHost prev))) := by
        split
        · exact hbody
        · rename_i hp
          exact yields_bind (yields_constant H (h _ (.inl ⟨hsk, .inl ⟨by simpa using hp, rfl⟩⟩))) fun _ _ => hbody
      show Yields lends B (fun _ => True) E (if _ then _ else _)
      split
      · exact yields_onEof hpre
      · exact hpre

theorem yields_decodeVariants {lends : Bool} {B E : Err → Prop} (H : Basis B E) {T : Target} {e : Endian} :
    ∀ (vs : Variants) (tag i : Nat), E .invalidEnumVariant → (∀ er, reasonVariants T e lends vs er → E er) →
    Yields lends B (fun _ => True) E (decodeVariants T e vs tag i)
  | .nil, tag, i, hi, h => hi
  | .cons tag' fs vs, tag, i, hi, h => by
    unfold decodeVariants
    split
    · exact yields_map (yields_decodeFields H fs [] fun er he => h er (.inl he))
    · exact yields_decodeVariants H vs tag (i + 1) hi fun er he => h er (.inr he)
end

/-! ## The readers of the library -/

theorem bufferReader_answers (h : Host) : Answers true (· = .unexpectedEndOfInput) (bufferReader h) fun s => s.Inv h where
  read n s er _ hr := by
    simp only [bufferReader, bufRead] at hr
    split at hr <;> cases hr; rfl
  peek n s er _ hr := by
    simp only [bufferReader, bufPeek] at hr
    split at hr <;> cases hr; rfl
  skip n s er _ hr := by
    simp only [bufferReader, bufSkip] at hr
    split at hr <;> cases hr; rfl
  borrow n s er _ hr := by
    simp only [bufferReader, bufBorrow] at hr
    split at hr <;> cases hr; rfl
  borrowR n s er _ hr := by
    simp only [bufferReader, bufBorrow] at hr
    split at hr <;> cases hr; rfl
  lend _ n s := by
    simp only [bufferReader, bufBorrow]
    split <;> simp
  lendEof _ s := by simp [bufferReader, bufBorrowEof]

theorem copyingReader_answers (h : Host) : Answers false (· = .unexpectedEndOfInput) (copyingReader h) fun s => s.Inv h where
  read := (bufferReader_answers h).read
  peek := (bufferReader_answers h).peek
  skip := (bufferReader_answers h).skip
  borrow n s er _ hr := by cases hr
  borrowR := (bufferReader_answers h).borrowR
  lend hl := by cases hl
  lendEof hl := by cases hl

/-- What a source may fail with: the end of the input, or one of its errors. -/
def srcReason (evs : List Ev) (er : Err) : Prop :=
  er = .unexpectedEndOfInput ∨ er = .io .unexpectedEof ∨ ∃ k, .fault k ∈ evs ∧ er = .io k

/-- The errors still to come are among `evs`. -/
def StreamSt.Among (evs : List Ev) (s : StreamSt) : Prop := s.buf.Inv ∧ ∀ k, .fault k ∈ s.src.evs → .fault k ∈ evs

theorem StreamFails.among {pend : Bytes} {evs a b : List Ev} {n : Nat} {er : Err} (h : StreamFails pend a b n er)
    (ha : ∀ k, .fault k ∈ a → .fault k ∈ evs) : srcReason evs er ∧ ∀ k, .fault k ∈ b → .fault k ∈ evs := by
  rcases h with ⟨he, _, hq⟩ | ⟨k, he, hq⟩
  · exact ⟨he.elim .inl fun h => .inr (.inl h), fun k hk => ha k (hq.mem hk)⟩
  · exact ⟨.inr (.inr ⟨k, ha k (hq.mem List.mem_cons_self), he⟩), fun k hk => ha k (hq.mem (List.mem_cons_of_mem _ hk))⟩

theorem streamReader_among {grow : Nat → Nat} (hg : ∀ n, n ≤ grow n) (evs : List Ev) :
    Orderly false (streamReader grow) (StreamSt.Among evs) StreamSt.pend where
  read n s hs := by
    rcases streamRead_any hg n s hs.1 with ⟨s', h1, h2, h3, h4, _, h5⟩ | ⟨e, s', k, h1, h2, h3, _, h4, _⟩
    · exact .inl ⟨s', h1, h2, ⟨h3, fun k hk => hs.2 k (h5.mem hk)⟩, h4⟩
    · exact .inr ⟨e, s', k, h1, h4.calm, ⟨h2, (h4.among hs.2).2⟩, h3⟩
  peek n s hs := by
    rcases streamPeek_any hg n s hs.1 with ⟨s', h1, h2, h3, h4, _, h5⟩ | ⟨e, s', h1, h2, h3, _, h4⟩
    · exact .inl ⟨s', h1, h2, ⟨h3, fun k hk => hs.2 k (h5.mem hk)⟩, h4⟩
    · exact .inr ⟨e, s', 0, h1, h4.calm, ⟨h2, (h4.among hs.2).2⟩, by simpa using h3⟩
  skip n s hs := by
    rcases skipLoop_any hg (n + 1) n s hs.1 (Nat.lt_succ_self n) with
      ⟨s', h1, h2, h3, h4, _, h5⟩ | ⟨e, s', k, h1, h2, h3, _, h4, _⟩
    · exact .inl ⟨s', h1, h2, ⟨h3, fun k hk => hs.2 k (h5.mem hk)⟩, h4⟩
    · exact .inr ⟨e, s', k, h1, h4.calm, ⟨h2, (h4.among hs.2).2⟩, h3⟩
  canRead n s hs := .inl ⟨rfl, rfl⟩
  borrow n s hs := .inl rfl
  borrowR n s hs := .inl rfl
  borrowEof s hs := .inl rfl

theorem streamReader_answers {grow : Nat → Nat} (hg : ∀ n, n ≤ grow n) (evs : List Ev) :
    Answers false (srcReason evs) (streamReader grow) (StreamSt.Among evs) where
  read n s er hs hr := by
    rcases streamRead_any hg n s hs.1 with ⟨s', h1, _⟩ | ⟨e, s', k, h1, h2, h3, _, h4, _⟩ <;>
      simp only [streamReader, h1] at hr <;> cases hr
    exact (h4.among hs.2).1
  peek n s er hs hr := by
    rcases streamPeek_any hg n s hs.1 with ⟨s', h1, _⟩ | ⟨e, s', h1, h2, h3, _, h4⟩ <;>
      simp only [streamReader, h1] at hr <;> cases hr
    exact (h4.among hs.2).1
  skip n s er hs hr := by
    rcases skipLoop_any hg (n + 1) n s hs.1 (Nat.lt_succ_self n) with ⟨s', h1, _⟩ | ⟨e, s', k, h1, h2, h3, _, h4, _⟩ <;>
      simp only [streamReader, h1] at hr <;> cases hr
    exact (h4.among hs.2).1
  borrow n s er _ hr := by cases hr
  borrowR n s er _ hr := by cases hr
  lend hl := by cases hl
  lendEof hl := by cases hl

/-! ## C91 -/

section
variable {T : Target} {e : Endian} {t : Ty}

/-- **C91**, any reader: an error of reading (panics and endless loops, `Err.fault`, are the subject of C32) is an error
of the reader, the end of the input, or has one of the reasons of the type. -/
theorem C91_reader {σ : Type} {R : ReaderOps σ} {exact lends : Bool} {Inv : σ → Prop} {pend : σ → Bytes} {B : Err → Prop}
    (O : Orderly exact R Inv pend) (hR : Answers lends B R Inv) {s : σ} (hs : Inv s) {er : Err}
    (h : ((decode T e t Cx.std).run R s).1 = .error er) (hf : er.fault = false) :
    B er ∨ er = .unexpectedEndOfInput ∨ reason T e lends t er := by
  have H : Basis B fun er => er.fault = false → B er ∨ er = .unexpectedEndOfInput ∨ reason T e lends t er :=
    ⟨fun er hb _ => .inl hb, fun _ => .inr (.inl rfl), fun er h h' => by simp [h] at h'⟩
  have hy := Prog.Ends.run O hR hs
    (yields_decode H t Cx.std (fun er he _ => .inr (.inr he)) (by simp [Cx.std, LenTy.tooLong]))
  rw [h] at hy
  exact hy hf

/-- **C91**, `read_from_buffer`. -/
theorem C91_buffer {base : Nat} {buf : Bytes} (hb : base + buf.length ≤ T.usizeMax) {er : Err}
    (h : readFromBuffer T e t base buf = .error er) (hf : er.fault = false) :
    (er = .inputBufferIsTooSmall buf.length (minBytes T t) ∧ buf.length < minBytes T t) ∨
      er = .unexpectedEndOfInput ∨ reason T e true t er := by
  unfold readFromBuffer readWithLengthFromBuffer at h
  split at h
  · cases h; exact .inl ⟨rfl, by assumption⟩
  · exact .inr ((C91_reader (bufferReader_orderly _) (bufferReader_answers _) (BufSt.init_inv hb) h hf).elim .inl id)

/-- **C91**, `read_from_buffer_copying_data` and mapped files. -/
theorem C91_copying {base : Nat} {buf : Bytes} (hb : base + buf.length ≤ T.usizeMax) {er : Err}
    (h : readFromBufferCopying T e t base buf = .error er) (hf : er.fault = false) :
    (er = .inputBufferIsTooSmall buf.length (minBytes T t) ∧ buf.length < minBytes T t) ∨
      er = .unexpectedEndOfInput ∨ reason T e false t er := by
  unfold readFromBufferCopying readWithLengthFromBufferCopying at h
  split at h
  · cases h; exact .inl ⟨rfl, by assumption⟩
  · exact .inr ((C91_reader (copyingReader_orderly _) (copyingReader_answers _) (BufSt.init_inv hb) h hf).elim .inl id)

/-- **C91**, streams: the errors of the source, the end of the input, or the reasons of the type. -/
theorem C91_stream {grow : Nat → Nat} (hg : ∀ n, n ≤ grow n) {b : Bool} {src : Src} {er : Err}
    (h : (readFromStream T e t grow b src).1 = .error er) (hf : er.fault = false) :
    srcReason src.evs er ∨ reason T e false t er :=
  (C91_reader (streamReader_among hg src.evs) (streamReader_answers hg src.evs)
    ⟨CBuf.withCapacity_inv _, fun _ hk => hk⟩ h hf).elim .inl fun h => h.elim (fun h => .inl (.inl h)) .inr
end

/-- Errors which only writing gives, and the error of a buffer which is too short from the beginning. -/
def Err.foreign : Err → Bool
  | .unexpectedEndOfOutputBuffer | .outputBufferIsTooSmall _ _ | .lengthMismatch | .inputBufferIsTooSmall _ _
  | .unexpectedEndOfInput => true
  | _ => false

mutual
theorem reason_foreign {T : Target} {e : Endian} {lends : Bool} {er : Err} : ∀ (t : Ty), reason T e lends t er → er.foreign = false
  | .prim _, h | .bool, h | .atomic _, h | .ipv4, h | .ipv6, h | .duration, h | .varint64, h | .uuid, h | .unit, h => by
    simp [reason] at h
  | .usize, h => by rw [h.1]; rfl
  | .char, h | .nonZero _, h | .ipAddr, h | .endianness, h | .systemTime, h => by
    simp only [reason] at h; rw [h]; rfl
  | .str .ref, h => by rcases h with rfl | ⟨rfl, _⟩ <;> rfl
  | .str .owned, h | .str .cow, h => by simp only [reason] at h; rw [h]; rfl
  | .seq .ref t, h => by rcases h with ⟨rfl, _⟩ | ⟨rfl, _⟩ | rfl <;> rfl
  | .refArray _ t, h => by rcases h with ⟨rfl, _⟩ | ⟨rfl, _⟩ <;> rfl
  | .seq .vec t, h | .seq .cow t, h => reason_foreign t (by simpa only [reason] using h)
  | .array _ t, h | .option t, h | .range t, h | .rangeInc t, h | .box t, h => reason_foreign t h
  | .set t, h => by
    rcases h with ⟨rfl, _⟩ | h
    · rfl
    · exact reason_foreign t h
  | .map k v, h => by
    rcases h with ⟨rfl, _⟩ | h | h
    · rfl
    · exact reason_foreign k h
    · exact reason_foreign v h
  | .result a b, h | .pair a b, h => h.elim (reason_foreign a) (reason_foreign b)
  | .via c t, h => by
    rcases h with h | h
    · cases c
      case regex => obtain ⟨_, _, rfl⟩ := h; rfl
      case user => obtain ⟨_, _, _, rfl⟩ := h; rfl
      all_goals exact h.elim
    · exact reason_foreign t h
  | .struct _ fs, h => reasonFields_foreign fs h
  | .enum _ vs, h => by
    rcases h with rfl | h
    · rfl
    · exact reasonVariants_foreign vs h
theorem reasonFields_foreign {T : Target} {e : Endian} {lends : Bool} {er : Err} :
    ∀ (fs : Fields), reasonFields T e lends fs er → er.foreign = false
  | .nil, h => h.elim
  | .cons a t fs, h => by
    rcases h with ⟨_, ⟨_, rfl⟩ | ⟨rfl, _⟩ | ⟨_, h⟩⟩ | h
    · rfl
    · rfl
    · exact reason_foreign t h
    · exact reasonFields_foreign fs h
theorem reasonVariants_foreign {T : Target} {e : Endian} {lends : Bool} {er : Err} :
    ∀ (vs : Variants), reasonVariants T e lends vs er → er.foreign = false
  | .nil, h => h.elim
  | .cons _ fs vs, h => h.elim (reasonFields_foreign fs) (reasonVariants_foreign vs)
end

/-- **C91**, a consequence: errors of writing never occur in reading. -/
theorem C91_not_writing {T : Target} {e : Endian} {t : Ty} {er : Err}
    (h : (∃ base buf, base + buf.length ≤ T.usizeMax ∧ readFromBuffer T e t base buf = .error er) ∨
      (∃ base buf, base + buf.length ≤ T.usizeMax ∧ readFromBufferCopying T e t base buf = .error er) ∨
      ∃ grow b src, (∀ n, n ≤ grow n) ∧ (readFromStream T e t grow b src).1 = .error er) :
    er ≠ .unexpectedEndOfOutputBuffer ∧ (∀ a b, er ≠ .outputBufferIsTooSmall a b) ∧ er ≠ .lengthMismatch := by
  have key : er.fault = true ∨ (∃ a b, er = .inputBufferIsTooSmall a b) ∨ er = .unexpectedEndOfInput ∨ (∃ k, er = .io k) ∨
      er.foreign = false := by
    cases hf : er.fault
    case true => exact .inl rfl
    right
    rcases h with ⟨base, buf, hb, h⟩ | ⟨base, buf, hb, h⟩ | ⟨grow, b, src, hg, h⟩
    · rcases C91_buffer hb h hf with ⟨h, _⟩ | h | h
      · exact .inl ⟨_, _, h⟩
      · exact .inr (.inl h)
      · exact .inr (.inr (.inr (reason_foreign t h)))
    · rcases C91_copying hb h hf with ⟨h, _⟩ | h | h
      · exact .inl ⟨_, _, h⟩
      · exact .inr (.inl h)
      · exact .inr (.inr (.inr (reason_foreign t h)))
    · rcases C91_stream hg h hf with (h | h | ⟨k, _, h⟩) | h
      · exact .inr (.inl h)
      · exact .inr (.inr (.inl ⟨_, h⟩))
      · exact .inr (.inr (.inl ⟨_, h⟩))
      · exact .inr (.inr (.inr (reason_foreign t h)))
  refine ⟨?_, fun a b => ?_, ?_⟩ <;> rintro rfl <;> simp [Err.fault, Err.foreign] at key

/-! ## Examples -/

section
open Samples

/-- `struct Line { #[speedy(constant_prefix = "L")] color: char, #[speedy(length_type = u7)] name: &str, code: NonZeroU8, on: Option<bool> }` -/
def line : Ty := .struct ⟨.rust, 40, 8, [0, 8, 24, 25], true⟩
  (.cons { pre := [76] } .char (.cons { len := some (.typed .u7) } (.str .ref)
    (.cons {} (.nonZero .u8) (.cons {} (.option .bool) .nil))))

/-- All the reasons for which a line is refused. -/
theorem line_reasons {e : Endian} {lends : Bool} {er : Err} : reason x64 e lends line er ↔
    er = .expectedConstant [76] ∨ er = .invalidChar ∨ er = .outOfRangeLength ∨ er = .invalidUtf8 ∨
      (er = .unsized ∧ lends = false) ∨ er = .zeroNonZero := by
  simp [line, reason, reasonFields, LenTy.tooLong]
  grind

/-- Each of them occurs. -/
example : readFromBuffer x64 .little line 4096 [77, 65, 0, 0, 0, 1, 66, 1, 0] = .error (.expectedConstant [76]) ∧
    readFromBuffer x64 .little line 4096 [76, 65, 0, 0, 255, 1, 66, 1, 0] = .error .invalidChar ∧
    readFromBuffer x64 .little line 4096 [76, 65, 0, 0, 0, 128, 66, 1, 0] = .error .outOfRangeLength ∧
    readFromBuffer x64 .little line 4096 [76, 65, 0, 0, 0, 1, 255, 1, 0] = .error .invalidUtf8 ∧
    readFromBufferCopying x64 .little line 4096 [76, 65, 0, 0, 0, 1, 66, 1, 0] = .error .unsized ∧
    readFromBuffer x64 .little line 4096 [76, 65, 0, 0, 0, 1, 66, 0, 0] = .error .zeroNonZero ∧
    readFromBuffer x64 .little line 4096 [76, 65, 0, 0, 0, 7, 66, 0, 0] = .error .unexpectedEndOfInput ∧
    readFromBuffer x64 .little line 4096 [76, 65] = .error (.inputBufferIsTooSmall 2 8) ∧
    (readFromStream x64 .little line id false ⟨[76, 65, 0], [.give 1, .fault (.other 5)]⟩).1 = .error (.io (.other 5)) := by
  decide

/-- There are no others. -/
example {base : Nat} {buf : Bytes} (hb : base + buf.length ≤ x64.usizeMax) (hl : 8 ≤ buf.length) {er : Err}
    (h : readFromBuffer x64 .little line base buf = .error er) (hf : er.fault = false) :
    er = .unexpectedEndOfInput ∨ er = .expectedConstant [76] ∨ er = .invalidChar ∨ er = .outOfRangeLength ∨
      er = .invalidUtf8 ∨ er = .zeroNonZero := by
  have hm : minBytes x64 line = 8 := by decide
  rcases C91_buffer hb h hf with ⟨_, h⟩ | h | h
  · omega
  · exact .inl h
  · rcases line_reasons.mp h with h | h | h | h | ⟨_, h⟩ | h <;> simp_all

/-- A copied buffer, a stream, any reader, and the consequence. -/
example : Err.unsized = .unexpectedEndOfInput ∨ reason x64 .little false line .unsized :=
  (C91_copying (base := 4096) (buf := [76, 65, 0, 0, 0, 1, 66, 1, 0]) (er := .unsized) (by decide) (by decide)
    (by decide)).elim (fun h => by cases h.1) id

example : srcReason [.give 1, .fault (.other 5)] (.io (.other 5)) ∨ reason x64 .little false line (.io (.other 5)) :=
  C91_stream (grow := id) (fun _ => Nat.le_refl _) (b := false) (src := ⟨[76, 65, 0], [.give 1, .fault (.other 5)]⟩)
    (by decide) (by decide)

example : (Err.zeroNonZero = .unexpectedEndOfInput) ∨ Err.zeroNonZero = .unexpectedEndOfInput ∨
    reason x64 .little true line .zeroNonZero :=
  C91_reader (bufferReader_orderly x64.toHost) (bufferReader_answers x64.toHost)
    (BufSt.init_inv (base := 4096) (buf := [76, 65, 0, 0, 0, 1, 66, 0, 0]) (by decide)) (by decide) (by decide)

example : Err.zeroNonZero ≠ .unexpectedEndOfOutputBuffer ∧ (∀ a b, Err.zeroNonZero ≠ .outputBufferIsTooSmall a b) ∧
    Err.zeroNonZero ≠ .lengthMismatch :=
  C91_not_writing (T := x64) (e := .little) (t := line)
    (.inl ⟨4096, [76, 65, 0, 0, 0, 1, 66, 0, 0], by decide, by decide⟩)

/-- A `usize` is never out of range on a 64-bit machine. -/
example : ¬ reason x64 .little true .usize .outOfRangeUsize := by simp [reason]; decide

/-- On a 32-bit machine it may be. -/
example : readFromBuffer le32 .little .usize 4096 [0, 0, 0, 0, 1, 0, 0, 0] = .error .outOfRangeUsize := by decide
end

end Verif
