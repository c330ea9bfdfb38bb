import Verif.Encode
import Verif.Spec
import Verif.WireLen

/-!
# Why writing can fail

The errors which `write_to` and `bytes_needed` return by themselves, for values which exist.
-/

namespace Verif

/-- The three reasons for which a value cannot be written: a length which does not fit its length type, one different from the
`length` attribute, and a system time before 1970. -/
def Refusal (er : Err) : Prop := er = .outOfRangeLength ∨ er = .lengthMismatch ∨ er = .invalidSystemTime

/-- Strings and containers in the value have fewer than `2^63 - 1` items. -/
inductive Val.Short : Val → Prop
  | unit : Short .unit
  | num {n} : Short (.num n)
  | bool {b} : Short (.bool b)
  | bytes {bs : Bytes} : bs.length < 2 ^ 63 - 1 → Short (.bytes bs)
  | list {vs : List Val} : vs.length < 2 ^ 63 - 1 → (∀ v ∈ vs, Short v) → Short (.list vs)
  | pair {a b} : Short a → Short b → Short (.pair a b)
  | none : Short .none
  | some {v} : Short v → Short (.some v)
  | variant {i v} : Short v → Short (.variant i v)

/-- All errors in the program satisfy `P`. -/
def WProg.Ends (P : Err → Prop) : WProg → Prop
  | .done r => ∀ er, r = .error er → P er
  | .bytes _ k | .num _ _ k | .room _ k => k.Ends P

theorem WProg.ends_ok {P : Err → Prop} : WProg.ok.Ends P := fun _ h => by cases h

theorem WProg.ends_fail {P : Err → Prop} {er : Err} (h : P er) : (WProg.fail er).Ends P := fun er' h' => by
  cases h'; exact h

theorem WProg.Ends.seq {P : Err → Prop} : ∀ {p q : WProg}, p.Ends P → q.Ends P → (p.seq q).Ends P
  | .done (.ok _), _, _, h => h
  | .done (.error _), _, h, _ => h
  | .bytes _ k, _, h, h' => WProg.Ends.seq (p := k) h h'
  | .num _ _ k, _, h, h' => WProg.Ends.seq (p := k) h h'
  | .room _ k, _, h, h' => WProg.Ends.seq (p := k) h h'

theorem WProg.Ends.run {σ : Type} {W : WriterOps σ} {P Q : Err → Prop}
    (hb : ∀ bs s er, (W.bytes bs s).1 = .error er → Q er) (hn : ∀ n v s er, (W.num n v s).1 = .error er → Q er)
    (hc : ∀ n s, W.canWrite n s = some false → Q .unexpectedEndOfOutputBuffer) :
    ∀ {p : WProg} {s : σ} {er : Err}, p.Ends P → (p.run W s).1 = .error er → P er ∨ Q er
  | .done r, s, er, h, h' => .inl (h er h')
  | .bytes bs k, s, er, h, h' => by
    simp only [WProg.run] at h'
    cases hw : W.bytes bs s with
    | mk r s' =>
      rw [hw] at h'
      cases r with
      | ok _ => exact WProg.Ends.run hb hn hc (p := k) h h'
      | error er' => cases h'; exact .inr (hb bs s er (by rw [hw]))
  | .num n v k, s, er, h, h' => by
    simp only [WProg.run] at h'
    cases hw : W.num n v s with
    | mk r s' =>
      rw [hw] at h'
      cases r with
      | ok _ => exact WProg.Ends.run hb hn hc (p := k) h h'
      | error er' => cases h'; exact .inr (hn n v s er (by rw [hw]))
  | .room n k, s, er, h, h' => by
    simp only [WProg.run] at h'
    split at h'
    · rename_i hw; cases h'; exact .inr (hc n s hw)
    · exact WProg.Ends.run hb hn hc (p := k) h h'

theorem ends_writeLenRaw {P : Err → Prop} (h : Host) (lt : LenTy) (n : Nat) : (writeLenRaw h lt n).Ends P := by
  cases lt <;> simp only [writeLenRaw]
  case varint =>
    simp only [WProg.Ends]
    split
    · exact WProg.ends_ok
    · exact WProg.ends_ok
  all_goals exact WProg.ends_ok

theorem ends_writeLenR (h : Host) (n : Nat) (l : LenR) : (writeLenR h n l).Ends Refusal := by
  cases l with
  | typed lt d =>
    cases lt <;> simp only [writeLenR, writeLen]
    case u64 | varint => exact ends_writeLenRaw _ _ _
    all_goals
      split
      · exact WProg.ends_fail (.inl rfl)
      · exact ends_writeLenRaw _ _ _
  | fixed m =>
    simp only [writeLenR]
    split
    · exact WProg.ends_ok
    · exact WProg.ends_fail (.inr (.inl rfl))
  | untilEof => exact WProg.ends_ok

theorem ends_writeEach {P : Err → Prop} {f : Val → WProg} : ∀ {vs : List Val}, (∀ v ∈ vs, (f v).Ends P) → (writeEach f vs).Ends P
  | [], _ => WProg.ends_ok
  | v :: vs, h => (h v (List.mem_cons_self ..)).seq (ends_writeEach fun w hw => h w (List.mem_cons_of_mem _ hw))

theorem ends_writeSlice {P : Err → Prop} {T : Target} {e : Endian} {t : Ty} {f : Val → WProg} {vs : List Val}
    (h : ∀ v ∈ vs, (f v).Ends P) : (writeSlice T e t f vs).Ends P := by
  unfold writeSlice
  split
  · exact WProg.ends_ok
  · exact ends_writeEach h

mutual
theorem encode_ends {T : Target} {e : Endian} : ∀ (t : Ty) (cx : Cx) (v : Val), declOk t = true → hasTy T t v →
    (encode T e t cx v).Ends Refusal
  | .prim _, _, v, _, hv | .usize, _, v, _, hv | .bool, _, v, _, hv | .char, _, v, _, hv | .nonZero _, _, v, _, hv
  | .atomic _, _, v, _, hv | .ipv4, _, v, _, hv | .ipv6, _, v, _, hv | .uuid, _, v, _, hv => by
    cases v <;> first | (simp only [hasTy] at hv; done) | exact WProg.ends_ok
  | .ipAddr, _, v, _, hv => by
    unfold hasTy at hv
    split at hv <;> simp_all [encode, WProg.Ends, writeIpv6] <;> exact WProg.ends_ok
  | .duration, _, v, _, hv => by
    unfold hasTy at hv
    split at hv <;> simp_all [encode, WProg.Ends, writeDuration] <;> exact WProg.ends_ok
  | .systemTime, _, .pair (.num s) (.num n), _, hv => by
    simp only [encode]
    split
    · exact WProg.ends_ok
    · exact WProg.ends_fail (.inr (.inr rfl))
  | .endianness, _, v, _, hv => by
    unfold hasTy at hv
    split at hv <;> simp_all [encode, WProg.Ends] <;> exact WProg.ends_ok
  | .varint64, _, v, _, hv => by
    cases v <;> simp only [hasTy] at hv
    simp only [encode, writeVarint]
    exact ends_writeLenRaw _ _ _
  | .str _, cx, v, _, hv => by
    cases v <;> simp only [hasTy] at hv
    exact (ends_writeLenR _ _ _).seq WProg.ends_ok
  | .seq _ t, cx, v, hd, hv => by
    cases v <;> simp only [hasTy] at hv
    simp only [declOk] at hd
    exact (ends_writeLenR _ _ _).seq (ends_writeSlice fun v h => encode_ends t Cx.std v hd (hv.1 v h))
  | .set t, cx, v, hd, hv => by
    cases v <;> simp only [hasTy] at hv
    simp only [declOk] at hd
    exact (ends_writeLenR _ _ _).seq (ends_writeEach fun v h => encode_ends t Cx.std v hd (hv.1 v h))
  | .map k t, cx, v, hd, hv => by
    cases v <;> simp only [hasTy] at hv
    simp only [declOk, Bool.and_eq_true] at hd
    refine (ends_writeLenR _ _ _).seq (ends_writeEach fun w h => ?_)
    obtain ⟨a, b, rfl, ha, hb⟩ := hv.1 w h
    exact (encode_ends k Cx.std a hd.1 ha).seq (encode_ends t Cx.std b hd.2 hb)
  | .array n t, cx, v, hd, hv => by
    cases v <;> simp only [hasTy] at hv
    simp only [declOk] at hd
    simp only [encode, hv.1, ne_eq, not_true_eq_false, if_false]
    split
    · exact ends_writeSlice fun v h => encode_ends t Cx.std v hd (hv.2 v h)
    · exact ends_writeEach fun v h => encode_ends t Cx.std v hd (hv.2 v h)
  | .refArray n t, cx, v, hd, hv => by
    cases v <;> simp only [hasTy] at hv
    simp only [declOk] at hd
    simp only [encode, hv.1, ne_eq, not_true_eq_false, if_false]
    exact ends_writeEach fun v h => encode_ends t Cx.std v hd (hv.2 v h)
  | .option t, cx, v, hd, hv => by
    cases v <;> first | (simp only [hasTy] at hv; done) | exact WProg.ends_ok | skip
    simp only [hasTy] at hv
    simp only [declOk] at hd
    exact encode_ends t _ _ hd hv
  | .result t er, cx, .variant i v, hd, hv => by
    simp only [declOk, Bool.and_eq_true] at hd
    match i, hv with
    | 0, hv => exact encode_ends er Cx.std v hd.2 (by simpa only [hasTy] using hv)
    | 1, hv => exact encode_ends t Cx.std v hd.1 (by simpa only [hasTy] using hv)
  | .range t, cx, .pair a (.pair b .unit), hd, hv => by
    simp only [declOk] at hd
    simp only [hasTy] at hv
    exact (encode_ends t Cx.std a hd hv.1).seq (encode_ends t Cx.std b hd hv.2)
  | .rangeInc t, cx, .pair a (.pair b (.bool _)), hd, hv => by
    simp only [declOk] at hd
    simp only [hasTy] at hv
    exact (encode_ends t Cx.std a hd hv.1).seq (encode_ends t Cx.std b hd hv.2)
  | .unit, _, v, _, hv => by
    cases v <;> first | (simp only [hasTy] at hv; done) | exact WProg.ends_ok
  | .pair a b, cx, .pair x y, hd, hv => by
    simp only [declOk, Bool.and_eq_true] at hd
    simp only [hasTy] at hv
    exact (encode_ends a Cx.std x hd.1 hv.1).seq (encode_ends b Cx.std y hd.2 hv.2)
  | .box t, _, v, hd, hv => by
    simp only [declOk] at hd
    rw [hasTy] at hv
    rw [encode]
    exact encode_ends t Cx.std v hd hv
  | .via c t, _, v, hd, hv => by
    simp only [declOk] at hd
    rw [hasTy] at hv
    rw [encode]
    exact encode_ends t Cx.std v hd hv.1
  | .struct d fs, _, v, hd, hv => by
    simp only [declOk] at hd
    rw [hasTy] at hv
    rw [encode]
    exact encodeFields_ends fs [] v hd hv
  | .enum d vs, _, .variant i v, hd, hv => by
    simp only [declOk, Bool.and_eq_true] at hd
    simp only [hasTy] at hv
    simp only [encode]
    exact encodeVariants_ends d vs i v hd.2 hv
theorem encodeFields_ends {T : Target} {e : Endian} : ∀ (fs : Fields) (prev : List Val) (v : Val), declOkFields fs = true →
    hasTyFields T fs v → (encodeFields T e fs prev v).Ends Refusal
  | .nil, _, v, _, hv => by
    cases v <;> first | (simp only [hasTyFields] at hv; done) | exact WProg.ends_ok
  | .cons a t fs, prev, .pair v rest, hd, hv => by
    simp only [declOkFields, Bool.and_eq_true] at hd
    simp only [hasTyFields] at hv
    simp only [encodeFields]
    split
    · exact encodeFields_ends fs prev rest hd.1.2 hv.2
    · refine WProg.Ends.seq ?_ (encodeFields_ends fs (prev ++ [v]) rest hd.1.2 hv.2)
      have key : ∀ q : WProg, q.Ends Refusal → (if a.pre.isEmpty then q else .bytes a.pre q).Ends Refusal := by
        intro q hq
        split
        · exact hq
        · exact hq
      refine key _ ?_
      split
      · rename_i hvi
        have h1 := hd.1.1.1
        simp only [Attrs.declOk, Bool.and_eq_true, hvi, Bool.not_true, Bool.false_or] at h1
        have h2 := h1.2
        split at h2
        · have h3 := hv.1
          cases v <;> simp only [hasTy] at h3
          exact ends_writeLenRaw _ _ _
        · cases h2
      · exact encode_ends t _ v hd.1.1.2 hv.1
theorem encodeVariants_ends {T : Target} {e : Endian} (d : EnumDesc) : ∀ (vs : Variants) (i : Nat) (v : Val),
    declOkVariants vs = true → hasTyVariants T vs i v → (encodeVariants T e d vs i v).Ends Refusal
  | .nil, _, _, _, hv => by simp only [hasTyVariants] at hv
  | .cons tag fs rest, 0, v, hd, hv => by
    simp only [declOkVariants, Bool.and_eq_true] at hd
    simp only [hasTyVariants] at hv
    simp only [encodeVariants]
    refine WProg.Ends.seq ?_ (encodeFields_ends fs [] v hd.1 hv)
    split
    · exact WProg.ends_ok
    · exact ends_writeLenRaw _ _ _
  | .cons _ fs rest, i + 1, v, hd, hv => by
    simp only [declOkVariants, Bool.and_eq_true] at hd
    simp only [hasTyVariants] at hv
    simp only [encodeVariants]
    exact encodeVariants_ends d rest i v hd.2 hv
end

/-! ## `bytes_needed` -/

theorem sumNeeded_err {h : Host} {f : Val → Except Err Nat} {P : Err → Prop} : ∀ {n : Nat} {vs : List Val} {er : Err},
    (∀ v ∈ vs, ∀ er, f v = .error er → P er) → sumNeeded h f n vs = .error er → P er
  | _, [], _, _, h => by cases h
  | n, v :: vs, er, hp, h => by
    simp only [sumNeeded] at h
    cases hf : f v with
    | ok a =>
      rw [hf] at h
      exact sumNeeded_err (fun w hw => hp w (List.mem_cons_of_mem _ hw)) h
    | error er' =>
      rw [hf] at h
      cases h
      exact hp v (List.mem_cons_self ..) er hf

theorem addNeeded_err {h : Host} {a b : Except Err Nat} {P : Err → Prop} {er : Err} (ha : ∀ er, a = .error er → P er)
    (hb : ∀ er, b = .error er → P er) (hr : addNeeded h a b = .error er) : P er := by
  cases a with
  | error er' => cases hr; exact ha _ rfl
  | ok a =>
    cases b with
    | error er' => cases hr; exact hb _ rfl
    | ok b => cases hr

theorem isLength_err {n : Nat} {r : Except Err Nat} {er : Err} (hn : n < 2 ^ 63 - 1) (h : isLength n r = .error er) :
    r = .error er := by
  unfold isLength at h
  rwa [if_neg (by omega)] at h

theorem sizeNeeded_err {T : Target} {t : Ty} {v : Val} {er : Err} (hd : declOk t = true) (hv : hasTy T t v)
    (h : sizeNeeded T t v = .error er) : Refusal er := by
  unfold sizeNeeded at h
  have key := WProg.Ends.run (W := sizeCalculator T.toHost) (Q := fun _ => False) (s := 0) (er := er)
    (fun bs s er h => by cases h) (fun n v s er h => by cases h) (fun n s h => by cases h)
    (encode_ends (T := T) (e := T.native) t Cx.std v hd hv)
  cases hr : (encode T T.native t Cx.std v).run (sizeCalculator T.toHost) 0 with
  | mk r n =>
    rw [hr] at h key
    cases r with
    | ok _ => cases h
    | error er' => cases h; exact (key rfl).elim id False.elim

theorem bytesNeeded_err {T : Target} (hT : T.Ok) : ∀ (t : Ty) (v : Val) (er : Err), declOk t = true → hasTy T t v →
    (T.usizeMax < 2 ^ 63 - 1 ∨ v.Short) → bytesNeeded T t v = .error er → Refusal er
  | .prim _, v, er, _, hv, _, h | .usize, v, er, _, hv, _, h | .bool, v, er, _, hv, _, h | .char, v, er, _, hv, _, h
  | .nonZero _, v, er, _, hv, _, h | .atomic _, v, er, _, hv, _, h | .ipv4, v, er, _, hv, _, h | .ipv6, v, er, _, hv, _, h
  | .duration, v, er, _, hv, _, h | .systemTime, v, er, _, hv, _, h | .endianness, v, er, _, hv, _, h
  | .varint64, v, er, _, hv, _, h | .uuid, v, er, _, hv, _, h | .unit, v, er, _, hv, _, h => by
    cases v <;> simp_all [hasTy, bytesNeeded]
  | .ipAddr, v, er, _, hv, _, h => by
    unfold hasTy at hv
    split at hv <;> simp_all [bytesNeeded]
  | .str _, v, er, _, hv, hs, h => by
    cases v <;> simp only [hasTy] at hv
    have := isLength_err (by
      rcases hs with hs | hs
      · have := hv.2
        have := hT.isize
        omega
      · cases hs; assumption) h
    cases this
  | .seq _ t, v, er, hd, hv, hs, h => by
    cases v <;> simp only [hasTy] at hv
    simp only [declOk] at hd
    have := isLength_err (by
      rcases hs with hs | hs
      · omega
      · cases hs; assumption) h
    split at this
    · cases this
    · refine sumNeeded_err (fun w hw er h => bytesNeeded_err hT t w er hd (hv.1 w hw) ?_ h) this
      rcases hs with hs | hs
      · exact .inl hs
      · cases hs with | list _ h => exact .inr (h w hw)
  | .set t, v, er, hd, hv, hs, h => by
    cases v <;> simp only [hasTy] at hv
    simp only [declOk] at hd
    have := isLength_err (by
      rcases hs with hs | hs
      · omega
      · cases hs; assumption) h
    refine sumNeeded_err (fun w hw er h => bytesNeeded_err hT t w er hd (hv.1 w hw) ?_ h) this
    rcases hs with hs | hs
    · exact .inl hs
    · cases hs with | list _ h => exact .inr (h w hw)
  | .map k t, v, er, hd, hv, hs, h => by
    cases v <;> simp only [hasTy] at hv
    simp only [declOk, Bool.and_eq_true] at hd
    have := isLength_err (by
      rcases hs with hs | hs
      · omega
      · cases hs; assumption) h
    refine sumNeeded_err (fun w hw er h => ?_) this
    obtain ⟨a, b, rfl, ha, hb⟩ := hv.1 w hw
    have hs' : T.usizeMax < 2 ^ 63 - 1 ∨ (a.Short ∧ b.Short) := by
      rcases hs with hs | hs
      · exact .inl hs
      · cases hs with
        | list _ h =>
          cases h _ hw with
          | pair h1 h2 => cases h2 with | pair h2 _ => exact .inr ⟨h1, h2⟩
    exact addNeeded_err (fun er h => bytesNeeded_err hT k a er hd.1 ha (hs'.imp id And.left) h)
      (fun er h => bytesNeeded_err hT t b er hd.2 hb (hs'.imp id And.right) h) h
  | .array n t, v, er, hd, hv, hs, h | .refArray n t, v, er, hd, hv, hs, h => by
    cases v <;> simp only [hasTy] at hv
    simp only [declOk] at hd
    refine sumNeeded_err (fun w hw er h => bytesNeeded_err hT t w er hd (hv.2 w hw) ?_ h) h
    rcases hs with hs | hs
    · exact .inl hs
    · cases hs with | list _ h => exact .inr (h w hw)
  | .option t, v, er, hd, hv, hs, h => by
    cases v <;> simp only [hasTy] at hv
    · cases h
    · simp only [declOk] at hd
      refine addNeeded_err (fun er h => by cases h) (fun er h => bytesNeeded_err hT t _ er hd hv ?_ h) h
      exact hs.imp id fun hs => by cases hs; assumption
  | .result t er', .variant i v, er, hd, hv, hs, h => by
    simp only [declOk, Bool.and_eq_true] at hd
    have hs' : T.usizeMax < 2 ^ 63 - 1 ∨ v.Short := hs.imp id fun hs => by cases hs; assumption
    match i, hv, h with
    | 0, hv, h =>
      simp only [hasTy] at hv
      exact addNeeded_err (fun er h => by cases h) (fun er h => bytesNeeded_err hT er' v er hd.2 hv hs' h) h
    | 1, hv, h =>
      simp only [hasTy] at hv
      exact addNeeded_err (fun er h => by cases h) (fun er h => bytesNeeded_err hT t v er hd.1 hv hs' h) h
  | .range t, .pair a (.pair b .unit), er, hd, hv, hs, h | .rangeInc t, .pair a (.pair b (.bool _)), er, hd, hv, hs, h => by
    simp only [declOk] at hd
    simp only [hasTy] at hv
    have hs' : T.usizeMax < 2 ^ 63 - 1 ∨ (a.Short ∧ b.Short) := hs.imp id fun hs => by
      cases hs with | pair h1 h2 => cases h2 with | pair h2 _ => exact ⟨h1, h2⟩
    exact addNeeded_err (fun er h => bytesNeeded_err hT t a er hd hv.1 (hs'.imp id And.left) h)
      (fun er h => bytesNeeded_err hT t b er hd hv.2 (hs'.imp id And.right) h) h
  | .pair a b, .pair x y, er, hd, hv, hs, h => by
    simp only [declOk, Bool.and_eq_true] at hd
    simp only [hasTy] at hv
    have hs' : T.usizeMax < 2 ^ 63 - 1 ∨ (x.Short ∧ y.Short) := hs.imp id fun hs => by
      cases hs with | pair h1 h2 => exact ⟨h1, h2⟩
    exact addNeeded_err (fun er h => bytesNeeded_err hT a x er hd.1 hv.1 (hs'.imp id And.left) h)
      (fun er h => bytesNeeded_err hT b y er hd.2 hv.2 (hs'.imp id And.right) h) h
  | .box t, v, er, hd, hv, hs, h => by
    simp only [declOk] at hd
    rw [hasTy] at hv
    rw [bytesNeeded] at h
    exact bytesNeeded_err hT t v er hd hv hs h
  | .via c t, v, er, hd, hv, hs, h => by
    simp only [declOk] at hd
    rw [hasTy] at hv
    rw [bytesNeeded] at h
    exact bytesNeeded_err hT t v er hd hv.1 hs h
  | .struct d fs, v, er, hd, hv, hs, h => by
    rw [bytesNeeded] at h
    exact sizeNeeded_err hd hv h
  | .enum d vs, v, er, hd, hv, hs, h => by
    rw [bytesNeeded] at h
    exact sizeNeeded_err hd hv h

end Verif
