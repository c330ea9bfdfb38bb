import Verif.Cost
import Verif.PropsSafe

/-!
# C65: reading takes time proportional to the input

The time is measured by the number of calls of methods of the reader: all loops of the implementations of `Readable` either
call the reader for every element or go through bytes which one call has delivered.
-/

namespace Verif

/-! ## The constants -/

mutual
/-- The calls for a value without the elements of its containers: for a number two, for a length, a prefix or the tag of an
enum at most three, for a container at most three besides its length; one more element is included, at which reading may
fail. -/
def ownCalls : Ty → Nat
  | .unit => 0
  | .ipv6 | .uuid | .refArray _ _ => 1
  | .varint64 => 3
  | .ipAddr | .duration | .systemTime => 4
  | .str _ => 6
  | .seq _ t | .set t => ownCalls t + 6
  | .map k v => ownCalls k + ownCalls v + 6
  | .array n t => n * ownCalls t + 1
  | .option t => ownCalls t + 2
  | .result a b => ownCalls a + ownCalls b + 2
  | .range t | .rangeInc t => ownCalls t + ownCalls t
  | .pair a b => ownCalls a + ownCalls b
  | .box t | .via _ t => ownCalls t
  | .struct _ fs => ownCallsFields fs
  | .enum _ vs => ownCallsVariants vs + 3
  | _ => 2
/-- Fields. -/
def ownCallsFields : Fields → Nat
  | .nil => 0
  | .cons _ t fs => ownCalls t + 6 + ownCallsFields fs
/-- Variants. -/
def ownCallsVariants : Variants → Nat
  | .nil => 0
  | .cons _ fs vs => ownCallsFields fs + ownCallsVariants vs
end

mutual
/-- The calls for every byte: those for an element, for all containers around it. -/
def callsPerByte : Ty → Nat
  | .str _ => 2
  | .seq _ t | .set t => callsPerByte t + ownCalls t
  | .map k v => max (callsPerByte k) (callsPerByte v) + (ownCalls k + ownCalls v)
  | .array _ t | .option t | .range t | .rangeInc t | .box t | .via _ t => callsPerByte t
  | .result a b | .pair a b => max (callsPerByte a) (callsPerByte b)
  | .struct _ fs => callsPerByteFields fs
  | .enum _ vs => callsPerByteVariants vs
  | _ => 0
/-- Fields. -/
def callsPerByteFields : Fields → Nat
  | .nil => 0
  | .cons _ t fs => max (callsPerByte t) (callsPerByteFields fs)
/-- Variants. -/
def callsPerByteVariants : Variants → Nat
  | .nil => 0
  | .cons _ fs vs => max (callsPerByteFields fs) (callsPerByteVariants vs)
end

/-! ## Types whose elements take bytes -/

/-- The field is a container with its length in front (if the length is not a number in the input, nothing needs to be
read). -/
def Attrs.prefixed (a : Attrs) : Bool :=
  a.opaqueTy || match a.len with
    | none | some (.typed _) => true
    | _ => false

/-- The field is a container which takes the rest of the input. -/
def Attrs.toEnd (a : Attrs) : Bool :=
  !a.opaqueTy && match a.len with
    | some .untilEof => true
    | _ => false

mutual
/-- Every value takes at least one byte; `pfx`: a container has its length in front. -/
def eats (T : Target) (pfx : Bool) : Ty → Bool
  | .unit => false
  | .str _ | .seq _ _ | .set _ | .map _ _ => pfx
  | .array n t => n != 0 && eats T true t && (!isPrimitive T t || sizeOf T t != 0)
  | .refArray n t => n != 0 && sizeOf T t != 0
  | .range t | .rangeInc t | .box t | .via _ t => eats T true t
  | .pair a b => eats T true a || eats T true b
  | .struct _ fs => eatsFields T fs
  | .enum d vs => !d.peek || eatsVariants T vs
  | _ => true
/-- Some field takes at least one byte. -/
def eatsFields (T : Target) : Fields → Bool
  | .nil => false
  | .cons a t fs => (!a.skip && !a.defaultOnEof && (a.varint || !a.pre.isEmpty || eats T a.prefixed t)) || eatsFields T fs
/-- All variants. -/
def eatsVariants (T : Target) : Variants → Bool
  | .nil => true
  | .cons _ fs vs => eatsFields T fs && eatsVariants T vs
end

mutual
/-- Everything that is read in a loop takes at least one byte (`&[T]` is borrowed as a whole; a `Vec` or `Cow` of a known
length may also have elements which are copied in bulk or do not exist in memory).  `rest`: a container takes the rest of
the input. -/
def steady (T : Target) (rest : Bool) : Ty → Bool
  | .seq .ref _ => true
  | .seq _ t => (eats T true t || (!rest && (isPrimitive T t || sizeOf T t == 0))) && steady T false t
  | .set t => eats T true t && steady T false t
  | .map k v => (eats T true k || eats T true v) && steady T false k && steady T false v
  | .option t => steady T rest t
  | .array _ t | .range t | .rangeInc t | .box t | .via _ t => steady T false t
  | .result a b | .pair a b => steady T false a && steady T false b
  | .struct _ fs => steadyFields T fs
  | .enum _ vs => steadyVariants T vs
  | _ => true
/-- Fields. -/
def steadyFields (T : Target) : Fields → Bool
  | .nil => true
  | .cons a t fs => (a.skip || a.varint || steady T a.toEnd t) && steadyFields T fs
/-- Variants. -/
def steadyVariants (T : Target) : Variants → Bool
  | .nil => true
  | .cons _ fs vs => steadyFields T fs && steadyVariants T vs
end

/-! ## All types -/

/-- The length is given by the end of the input. -/
def LenR.isRest : LenR → Bool
  | .untilEof => true
  | _ => false

theorem prim_size_pos (p : Prim) : 1 ≤ p.size := by cases p <;> decide

/-- What is done with an image of what has been read. -/
theorem cost_bind_map {α β γ : Type} {a b g b' g' : Nat} {p : M α} {h : α → γ} {f : γ → M β} (hp : Costs a b g p)
    (hf : ∀ v, Costs a b' g' (f (h v))) : Costs a (b + b') (g + g') (M.bind (M.map h p) f) := fun c r => by
  refine Prog.Wc.bind (Prog.Wc.bind ((hp c r).mono fun c' r' x hx => ?_))
  cases x with
  | error er => exact ⟨hx.1, by have := hx.2.1; omega, fun _ h => by cases h⟩
  | ok v =>
    refine (hf v c' r').mono fun c'' r'' y hy => ⟨Nat.le_trans hy.1 hx.1, ?_, fun w hw => ?_⟩
    · have := hx.2.1; have := hy.2.1; omega
    · have := hx.2.2 v rfl; have := hy.2.2 w hw; omega

/-- What is done with a length; `none` only if it is given by the end of the input. -/
theorem cost_len {h : Host} {e : Endian} (lr : LenR) {α : Type} {a b g : Nat} {f : Option Nat → M α}
    (hf : ∀ len, (len = none → lr.isRest = true) → Costs a b g (f len)) :
    Costs a (3 + b) (lr.prefixed.toNat + g) (M.bind (readLenR h e lr) f) := by
  have hz : ∀ {p : M Nat} {g : Nat}, Costs 0 3 g p → Costs a 3 g p := fun hp =>
    hp.mono (Nat.zero_le _) (Nat.le_refl _) (Nat.le_refl _)
  cases lr with
  | typed lt d =>
    cases d with
    | false => exact cost_bind_map (hz (cost_readLen _ _ _)) fun _ => hf _ (by simp)
    | true => exact cost_bind_map (hz (cost_onEof (cost_readLen _ _ _) _)) fun _ => hf _ (by simp)
  | fixed n => exact (hf (some n) (by simp)).mono (Nat.le_refl _) (by omega) (by simp [LenR.prefixed])
  | untilEof => exact (hf none fun _ => rfl).mono (Nat.le_refl _) (by omega) (by simp [LenR.prefixed])

mutual
theorem decode_costs {T : Target} {e : Endian} : ∀ (t : Ty) (cx : Cx) (rest : Bool), (cx.len.isRest = true → rest = true) →
    steady T rest t = true → Costs (callsPerByte t) (ownCalls t) (eats T cx.len.prefixed t).toNat (decode T e t cx)
  | .prim p, _, _, _, _ => by
    unfold decode
    exact (cost_map _ (cost_readNum _ _ _)).mono (Nat.le_refl _) (Nat.le_refl _) (Nat.le_trans (Bool.toNat_le _) (prim_size_pos p))
  | .usize, _, _, _, _ => by
    unfold decode
    exact cost_check ((cost_readNum _ _ _).mono (Nat.le_refl _) (Nat.le_refl _) (Nat.le_trans (Bool.toNat_le _) (by decide))) fun _ =>
      cost_ite (fun _ => cost_fail _) fun _ => cost_pure _
  | .bool, _, _, _, _ => by unfold decode; exact cost_map _ (cost_readBool _ _)
  | .char, _, _, _, _ => by
    unfold decode
    exact cost_check ((cost_readNum _ _ _).mono (Nat.le_refl _) (Nat.le_refl _) (Nat.le_trans (Bool.toNat_le _) (by decide))) fun _ =>
      cost_ite (fun _ => cost_pure _) fun _ => cost_fail _
  | .nonZero p, _, _, _, _ => by
    unfold decode
    exact cost_check ((cost_readNum _ _ _).mono (Nat.le_refl _) (Nat.le_refl _) (Nat.le_trans (Bool.toNat_le _) (prim_size_pos p))) fun _ =>
      cost_ite (fun _ => cost_fail _) fun _ => cost_pure _
  | .atomic p, _, _, _, _ => by
    unfold decode
    exact (cost_map _ (cost_readNum _ _ _)).mono (Nat.le_refl _) (Nat.le_refl _) (Nat.le_trans (Bool.toNat_le _) (prim_size_pos p))
  | .ipv4, _, _, _, _ => by
    unfold decode
    exact (cost_map _ (cost_readNum _ _ _)).mono (Nat.le_refl _) (Nat.le_refl _) (Nat.le_trans (Bool.toNat_le _) (by decide))
  | .ipv6, _, _, _, _ => by unfold decode; exact cost_readIpv6 _ _
  | .ipAddr, _, _, _, _ => by
    unfold decode
    refine (cost_bind (b' := 2) (g' := 0) (cost_readNum _ _ 1) fun _ => cost_ite (fun _ => ?_) fun _ =>
      cost_ite (fun _ => ?_) fun _ => cost_fail _).mono (Nat.le_refl _) (Nat.le_refl _) (Nat.le_refl _)
    · exact (cost_map _ (cost_readNum _ _ _)).mono (Nat.le_refl _) (Nat.le_refl _) (Nat.zero_le _)
    · exact (cost_map _ (cost_readIpv6 _ _)).mono (Nat.le_refl _) (by omega) (Nat.zero_le _)
  | .duration, _, _, _, _ => by unfold decode; exact cost_map _ (cost_readDuration _ _)
  | .systemTime, _, _, _, _ => by
    unfold decode
    exact cost_check (cost_readDuration _ _) fun _ => cost_ite (fun _ => cost_pure _) fun _ => cost_fail _
  | .endianness, _, _, _, _ => by
    unfold decode
    exact cost_check (cost_readNum _ _ 1) fun _ => cost_ite (fun _ => cost_pure _) fun _ =>
      cost_ite (fun _ => cost_pure _) fun _ => cost_fail _
  | .varint64, _, _, _, _ => by unfold decode; exact cost_map _ (cost_readVarint _ _)
  | .uuid, _, _, _, _ => by
    unfold decode
    exact (cost_map _ (cost_readBytes _)).mono (Nat.le_refl _) (Nat.le_refl _) (Nat.le_trans (Bool.toNat_le _) (by decide))
  | .unit, _, _, _, _ => by unfold decode; exact cost_pure _
  | .str k, cx, _, _, _ => by
    unfold decode
    exact cost_len cx.len fun _ _ => cost_readStr k _
  | .seq k t, cx, rest, hr, hs => by
    unfold decode
    refine cost_ite (fun _ => cost_fail _) fun _ => ?_
    have h0 : k = .ref ∨ ((eats T true t || (!rest && (isPrimitive T t || sizeOf T t == 0))) && steady T false t) = true := by
      cases k <;> simp_all [steady]
    rcases h0 with rfl | h0
    · have hz : Costs (callsPerByte (.seq .ref t)) (3 + 1) (cx.len.prefixed.toNat + 0)
          (M.bind (readLenR T.toHost e cx.len) fun len => readSeq T e .ref (elemOf T t (decode T e t Cx.std)) len) :=
        cost_len cx.len fun len _ => by
          cases len with
          | none =>
            exact cost_map _ (cost_check (cost_borrowRest.mono (Nat.zero_le _) (Nat.le_refl _) (Nat.le_refl _)) fun _ =>
              cost_ite (fun _ => cost_fail _) fun _ => cost_pure _)
          | some n =>
            exact cost_map _ (cost_ite (fun _ => cost_fail _) fun _ =>
              cost_check ((cost_borrowBytes _).mono (Nat.zero_le _) (Nat.le_refl _) (Nat.zero_le _)) fun _ => cost_pure _)
      refine hz.mono (Nat.le_refl _) ?_ (Nat.le_refl _)
      show 4 ≤ ownCalls t + 6
      omega
    · simp only [Bool.and_eq_true] at h0
      have ih := decode_costs (e := e) t Cx.std false (fun h => by cases h) h0.2
      refine (cost_len (b := ownCalls t + 3) cx.len fun len hl => cost_readSeq k
        (el := elemOf T t (decode T e t Cx.std)) ih len ?_).mono (Nat.le_refl _) ?_ (Nat.le_refl _)
      · refine .inr ?_
        have h1 := h0.1
        cases he : eats T true t with
        | true => exact .inl (by rw [show eats T Cx.std.len.prefixed t = true from he]; rfl)
        | false =>
          rw [he] at h1
          simp only [Bool.false_or, Bool.and_eq_true, Bool.or_eq_true, Bool.not_eq_true', beq_iff_eq] at h1
          refine .inr ⟨fun h => ?_, h1.2⟩
          have h2 := hr (hl h)
          rw [h1.1] at h2
          cases h2
      · show 3 + (ownCalls t + 3) ≤ ownCalls t + 6
        omega
  | .set t, cx, rest, hr, hs => by
    unfold decode
    simp only [steady, Bool.and_eq_true] at hs
    have ih : Costs (callsPerByte t) (ownCalls t) 1 (elemOf T t (decode T e t Cx.std)).read :=
      (decode_costs t Cx.std false (fun h => by cases h) hs.2).mono (Nat.le_refl _) (Nat.le_refl _)
        (by rw [show eats T Cx.std.len.prefixed t = true from hs.1]; exact Nat.le_refl _)
    refine (cost_len (b := ownCalls t + 1) (g := 0) cx.len fun len hl => ?_).mono (Nat.le_refl _) ?_ (Nat.le_refl _)
    · cases len with
      | some n => exact cost_map _ (cost_readCollection _ _ ih _)
      | none => exact cost_map _ ((cost_readUntilEof ih _).mono (Nat.le_refl _) (by omega) (Nat.le_refl _))
    · show 3 + (ownCalls t + 1) ≤ ownCalls t + 6
      omega
  | .map k v, cx, rest, hr, hs => by
    unfold decode
    simp only [steady, Bool.and_eq_true] at hs
    have ih1 := decode_costs (e := e) k Cx.std false (fun h => by cases h) hs.1.2
    have ih2 := decode_costs (e := e) v Cx.std false (fun h => by cases h) hs.2
    have hp : Costs (max (callsPerByte k) (callsPerByte v)) (ownCalls k + ownCalls v) 1
        (readPair (elemOf T k (decode T e k Cx.std)) (elemOf T v (decode T e v Cx.std))) := by
      refine (cost_readPair (ek := elemOf T k (decode T e k Cx.std)) (ev := elemOf T v (decode T e v Cx.std))
        (ih1.mono (Nat.le_max_left _ _) (Nat.le_refl _) (Nat.le_refl _))
        (ih2.mono (Nat.le_max_right _ _) (Nat.le_refl _) (Nat.le_refl _))).mono (Nat.le_refl _) (Nat.le_refl _) ?_
      have h1 := hs.1.1
      show 1 ≤ (eats T true k).toNat + (eats T true v).toNat
      cases h2 : eats T true k <;> cases h3 : eats T true v <;> simp_all
    refine (cost_len (b := ownCalls k + ownCalls v + 1) (g := 0) cx.len fun len hl => ?_).mono (Nat.le_refl _) ?_
      (Nat.le_refl _)
    · cases len with
      | some n => exact cost_map _ (cost_readKV _ _ hp _)
      | none => exact cost_map _ ((cost_readUntilEof hp _).mono (Nat.le_refl _) (by omega) (Nat.le_refl _))
    · show 3 + (ownCalls k + ownCalls v + 1) ≤ ownCalls k + ownCalls v + 6
      omega
  | .array n t, cx, rest, hr, hs => by
    unfold decode
    simp only [steady] at hs
    have ih := decode_costs (e := e) t Cx.std false (fun h => by cases h) hs
    refine cost_readArray (el := elemOf T t (decode T e t Cx.std)) ih n _ ?_ fun hp => ?_
    · show (eats T _ (.array n t)).toNat ≤ n * (eats T true t).toNat
      simp only [eats]
      cases n with
      | zero => simp
      | succ n => cases eats T true t <;> simp; exact Nat.le_trans (Bool.toNat_le _) (by omega)
    · show (eats T _ (.array n t)).toNat ≤ n * sizeOf T t
      have hp' : isPrimitive T t = true := hp
      simp only [eats, hp', Bool.not_true, Bool.false_or]
      cases n with
      | zero => simp
      | succ n =>
        cases hz : sizeOf T t with
        | zero => simp
        | succ m => exact Nat.le_trans (Bool.toNat_le _) (Nat.mul_pos (by omega) (by omega))
  | .refArray n t, _, _, _, _ => by
    unfold decode
    refine cost_ite (fun _ => cost_fail _) fun _ => (cost_map _ (cost_borrowBytes _)).mono (Nat.le_refl _) (Nat.le_refl _) ?_
    simp only [eats]
    cases n with
    | zero => simp
    | succ n =>
      cases hz : sizeOf T t with
      | zero => simp
      | succ m => exact Nat.le_trans (Bool.toNat_le _) (Nat.mul_pos (by omega) (by omega))
  | .option t, cx, rest, hr, hs => by
    unfold decode
    simp only [steady] at hs
    have ih := decode_costs (e := e) t (cx.opt t) rest (fun h => hr (by
      cases t <;> first | exact h | cases h)) hs
    refine (cost_bind (b := 2) (b' := ownCalls t) (g := 1) (g' := 0) ((cost_readBool _ _).mono (Nat.zero_le _)
      (Nat.le_refl _) (Nat.le_refl _)) fun _ => cost_ite (fun _ => ?_) fun _ => cost_pure _).mono (Nat.le_refl _) ?_ (Nat.le_refl _)
    · exact cost_map _ (ih.mono (Nat.le_refl _) (Nat.le_refl _) (Nat.zero_le _))
    · show 2 + ownCalls t ≤ ownCalls t + 2
      omega
  | .result t er, cx, rest, hr, hs => by
    unfold decode
    simp only [steady, Bool.and_eq_true] at hs
    have ih1 := decode_costs (e := e) t Cx.std false (fun h => by cases h) hs.1
    have ih2 := decode_costs (e := e) er Cx.std false (fun h => by cases h) hs.2
    refine (cost_bind (b := 2) (b' := ownCalls t + ownCalls er) (g := 1) (g' := 0) ((cost_readBool _ _).mono (Nat.zero_le _)
      (Nat.le_refl _) (Nat.le_refl _)) fun _ => cost_ite (fun _ => ?_) fun _ => ?_).mono (Nat.le_refl _) ?_ (Nat.le_refl _)
    · exact cost_map _ (ih1.mono (Nat.le_max_left _ _) (by omega) (Nat.zero_le _))
    · exact cost_map _ (ih2.mono (Nat.le_max_right _ _) (by omega) (Nat.zero_le _))
    · show 2 + (ownCalls t + ownCalls er) ≤ ownCalls t + ownCalls er + 2
      omega
  | .range t, cx, rest, hr, hs => by
    unfold decode
    simp only [steady] at hs
    have ih := decode_costs (e := e) t Cx.std false (fun h => by cases h) hs
    exact (cost_bind ih fun _ => cost_map _ ih).mono (Nat.le_refl _) (Nat.le_refl _) (Nat.le_add_right _ _)
  | .rangeInc t, cx, rest, hr, hs => by
    unfold decode
    simp only [steady] at hs
    have ih := decode_costs (e := e) t Cx.std false (fun h => by cases h) hs
    exact (cost_bind ih fun _ => cost_map _ ih).mono (Nat.le_refl _) (Nat.le_refl _) (Nat.le_add_right _ _)
  | .pair a b, cx, rest, hr, hs => by
    unfold decode
    simp only [steady, Bool.and_eq_true] at hs
    have ih1 := decode_costs (e := e) a Cx.std false (fun h => by cases h) hs.1
    have ih2 := decode_costs (e := e) b Cx.std false (fun h => by cases h) hs.2
    refine (cost_bind (ih1.mono (Nat.le_max_left _ (callsPerByte b)) (Nat.le_refl _) (Nat.le_refl _)) fun _ =>
      cost_map _ (ih2.mono (Nat.le_max_right _ _) (Nat.le_refl _) (Nat.le_refl _))).mono (Nat.le_refl _) (Nat.le_refl _) ?_
    show (eats T true a || eats T true b).toNat ≤ (eats T true a).toNat + (eats T true b).toNat
    cases eats T true a <;> cases eats T true b <;> decide
  | .box t, cx, rest, hr, hs => by
    unfold decode
    simp only [steady] at hs
    exact decode_costs (e := e) t Cx.std false (fun h => by cases h) hs
  | .via c t, cx, rest, hr, hs => by
    unfold decode
    simp only [steady] at hs
    exact cost_check (decode_costs (e := e) t Cx.std false (fun h => by cases h) hs) fun _ => cost_convert _ _
  | .struct d fs, cx, rest, hr, hs => by
    unfold decode
    simp only [steady] at hs
    exact decodeFields_costs fs [] hs
  | .enum d vs, cx, rest, hr, hs => by
    unfold decode
    simp only [steady] at hs
    refine (cost_bind ((cost_readTag _ _ d).mono (Nat.zero_le _) (Nat.le_refl _) (Nat.le_refl _)) fun tag =>
      decodeVariants_costs vs tag 0 hs).mono (Nat.le_refl _) ?_ ?_
    · show 3 + ownCallsVariants vs ≤ ownCallsVariants vs + 3
      omega
    · show (!d.peek || eatsVariants T vs).toNat ≤ (!d.peek).toNat + (eatsVariants T vs).toNat
      cases d.peek <;> cases eatsVariants T vs <;> decide
theorem decodeFields_costs {T : Target} {e : Endian} : ∀ (fs : Fields) (prev : List Val), steadyFields T fs = true →
    Costs (callsPerByteFields fs) (ownCallsFields fs) (eatsFields T fs).toNat (decodeFields T e fs prev)
  | .nil, _, _ => by unfold decodeFields; exact cost_pure _
  | .cons a t fs, prev, hs => by
    unfold decodeFields
    simp only [steadyFields, Bool.and_eq_true] at hs
    have ih := fun prev => (decodeFields_costs (e := e) fs prev hs.2).mono (Nat.le_max_right (callsPerByte t) _) (Nat.le_refl _)
      (Nat.le_refl _)
    cases hk : a.skip with
    | true =>
      rw [if_pos rfl]
      refine cost_map _ ((ih prev).mono (Nat.le_refl _) (Nat.le_add_left _ _) ?_)
      simp [eatsFields, hk]
    | false =>
      rw [if_neg (by simp)]
      have h1 : Costs (callsPerByteFields (.cons a t fs)) (ownCalls t + 3)
          (!a.defaultOnEof && (a.varint || eats T a.prefixed t)).toNat
          (if a.varint then M.map .num (readVarint T.toHost e) else decode T e t (a.cx T.toHost prev)) := by
        cases hv : a.varint with
        | true =>
          exact cost_map _ ((cost_readVarint _ _).mono (Nat.zero_le _) (Nat.le_add_left _ _) (Bool.toNat_le _))
        | false =>
          have hs1 := hs.1
          rw [hk, hv, Bool.false_or, Bool.false_or] at hs1
          rw [if_neg (by simp), Bool.false_or]
          refine (decode_costs t (a.cx T.toHost prev) a.toEnd ?_ hs1).mono (Nat.le_max_left _ _) (Nat.le_add_right _ _) ?_
          · unfold Attrs.cx Attrs.wcx Attrs.toEnd
            cases a.opaqueTy with
            | true => exact fun h => by cases h
            | false =>
              rcases a.len with _ | ⟨_ | _ | _⟩
              · exact fun h => by cases h
              · exact fun h => by cases h
              · exact fun h => by cases h
              · exact fun _ => rfl
          · cases hd : a.defaultOnEof with
            | true => simp
            | false =>
              have : (a.cx T.toHost prev).len.prefixed = a.prefixed := by
                unfold Attrs.cx Attrs.wcx Attrs.prefixed
                rw [hd]
                cases a.opaqueTy with
                | true => rfl
                | false => rcases a.len with _ | ⟨_ | _ | _⟩ <;> rfl
              rw [this]
              simp
      have h2 : Costs (callsPerByteFields (.cons a t fs)) (ownCalls t + 6)
          (!a.defaultOnEof && (a.varint || !a.pre.isEmpty || eats T a.prefixed t)).toNat
          (if a.pre.isEmpty then
            (if a.varint then M.map .num (readVarint T.toHost e) else decode T e t (a.cx T.toHost prev))
            else M.bind (readConstant T.toHost e (u8Elem T e) a.pre) fun _ =>
              (if a.varint then M.map .num (readVarint T.toHost e) else decode T e t (a.cx T.toHost prev))) := by
        cases hp : a.pre.isEmpty with
        | true =>
          rw [if_pos rfl]
          refine h1.mono (Nat.le_refl _) (by omega) ?_
          simp
        | false =>
          rw [if_neg (by simp)]
          refine (cost_bind ((cost_readConstant a.pre).mono (Nat.zero_le _) (Nat.le_refl _) (Nat.le_refl _)) fun _ => h1).mono
            (Nat.le_refl _) (by omega) ?_
          refine Nat.le_trans (Bool.toNat_le _) ?_
          have : 1 ≤ a.pre.length := by cases h : a.pre <;> simp_all
          omega
      have h3 : Costs (callsPerByteFields (.cons a t fs)) (ownCalls t + 6)
          (!a.defaultOnEof && (a.varint || !a.pre.isEmpty || eats T a.prefixed t)).toNat
          (if a.defaultOnEof then onEof (if a.pre.isEmpty then
            (if a.varint then M.map .num (readVarint T.toHost e) else decode T e t (a.cx T.toHost prev))
            else M.bind (readConstant T.toHost e (u8Elem T e) a.pre) fun _ =>
              (if a.varint then M.map .num (readVarint T.toHost e) else decode T e t (a.cx T.toHost prev))) a.dflt
            else (if a.pre.isEmpty then
            (if a.varint then M.map .num (readVarint T.toHost e) else decode T e t (a.cx T.toHost prev))
            else M.bind (readConstant T.toHost e (u8Elem T e) a.pre) fun _ =>
              (if a.varint then M.map .num (readVarint T.toHost e) else decode T e t (a.cx T.toHost prev)))) := by
        cases hd : a.defaultOnEof with
        | true => exact cost_onEof h2 _
        | false => rw [hd] at h2; exact h2
      refine (cost_bind h3 fun v => cost_map (Val.pair v) (ih (prev ++ [v]))).mono (Nat.le_refl _) (Nat.le_refl _) ?_
      show ((!a.skip && !a.defaultOnEof && (a.varint || !a.pre.isEmpty || eats T a.prefixed t)) || eatsFields T fs).toNat ≤ _
      rw [hk]
      simp only [Bool.not_false, Bool.true_and]
      cases (!a.defaultOnEof && (a.varint || !a.pre.isEmpty || eats T a.prefixed t)) <;> cases eatsFields T fs <;> decide
theorem decodeVariants_costs {T : Target} {e : Endian} : ∀ (vs : Variants) (tag i : Nat), steadyVariants T vs = true →
    Costs (callsPerByteVariants vs) (ownCallsVariants vs) (eatsVariants T vs).toNat (decodeVariants T e vs tag i)
  | .nil, _, _, _ => by unfold decodeVariants; exact cost_fail _
  | .cons tag' fs vs, tag, i, hs => by
    unfold decodeVariants
    simp only [steadyVariants, Bool.and_eq_true] at hs
    refine cost_ite (fun _ => ?_) fun _ => ?_
    · exact cost_map _ ((decodeFields_costs fs [] hs.1).mono (Nat.le_max_left _ _) (Nat.le_add_right _ _) (by
        show (eatsFields T fs && eatsVariants T vs).toNat ≤ (eatsFields T fs).toNat
        cases eatsFields T fs <;> cases eatsVariants T vs <;> decide))
    · exact (decodeVariants_costs vs tag (i + 1) hs.2).mono (Nat.le_max_right _ _) (Nat.le_add_left _ _) (by
        show (eatsFields T fs && eatsVariants T vs).toNat ≤ (eatsVariants T vs).toNat
        cases eatsFields T fs <;> cases eatsVariants T vs <;> decide)
end

/-! ## The property -/

/-- **C65**: whatever the input, and also if reading fails, the number of calls of methods of the reader is at most
`callsPerByte t` for every byte which has been consumed, and `ownCalls t`; both depend on the type only.

Full claim: for all types.  Missing: types with a loop of elements which may take no byte (`steady`), for which it is false
(`C65_false_default`, `C65_false_peek`). -/
theorem C65_calls_partial {T : Target} {e : Endian} {t : Ty} (ht : steady T false t = true) {σ : Type} {exact : Bool}
    {R : ReaderOps σ} {Inv : σ → Prop} {pend : σ → Bytes} (O : Orderly exact R Inv pend) {s : σ} (hs : Inv s) :
    (decode T e t Cx.std).callCount R s ≤ callsPerByte t *
        ((pend s).length - (pend ((decode T e t Cx.std).run R s).2).length) + ownCalls t := by
  have h := O.callCount (c := 0) hs (decode_costs (e := e) t Cx.std false (fun h => by cases h) ht 0 (pend s).length)
  have h1 := h.2.1
  rw [Nat.mul_sub]
  omega

/-- **C65**, buffers and copies of buffers. -/
theorem C65_buffer_partial {T : Target} {e : Endian} {t : Ty} (ht : steady T false t = true) {base : Nat} {buf : Bytes}
    (htop : base + buf.length ≤ T.usizeMax) {R : ReaderOps BufSt}
    (hR : R = bufferReader T.toHost ∨ R = copyingReader T.toHost) :
    (decode T e t Cx.std).callCount R (BufSt.init base buf) ≤ callsPerByte t * buf.length + ownCalls t := by
  have O : Orderly true R (BufAt T.toHost base buf) BufSt.pend := by
    rcases hR with rfl | rfl
    · exact (bufferReader_at _ _ _).orderly fun _ n s => by simp [bufferReader, bufCanRead]
    · exact (copyingReader_at _ _ _).orderly fun _ n s => by simp [copyingReader, bufCanRead]
  refine Nat.le_trans (C65_calls_partial (e := e) ht O (BufAt.init htop)) (Nat.add_le_add_right (Nat.mul_le_mul_left _ ?_) _)
  rw [BufSt.init_pend]
  exact Nat.sub_le _ _

/-- **C65**, streams, whatever they deliver and however they fail. -/
theorem C65_stream_partial {T : Target} {e : Endian} {t : Ty} (ht : steady T false t = true) {grow : Nat → Nat}
    (hg : ∀ n, n ≤ grow n) (b : Bool) (src : Src) :
    (decode T e t Cx.std).callCount (streamReader grow) (StreamSt.init b src) ≤
      callsPerByte t * src.data.length + ownCalls t := by
  refine Nat.le_trans (C65_calls_partial (e := e) ht (streamReader_orderly hg) (CBuf.withCapacity_inv _))
    (Nat.add_le_add_right (Nat.mul_le_mul_left _ ?_) _)
  rw [StreamSt.init_pend]
  exact Nat.sub_le _ _

/-! ## Where it fails -/

theorem Prog.callCount_bind {α β σ : Type} (R : ReaderOps σ) (p : Prog α) (f : α → Prog β) (s : σ) :
    (p.bind f).callCount R s = p.callCount R s + (f (p.run R s).1).callCount R (p.run R s).2 := by
  induction p generalizing s with
  | ret a => simp [Prog.bind, Prog.callCount, Prog.run]
  | read n k ih => simp only [Prog.bind, Prog.callCount, Prog.run, ih]; exact Nat.add_right_comm _ _ _
  | peek n k ih => simp only [Prog.bind, Prog.callCount, Prog.run, ih]; exact Nat.add_right_comm _ _ _
  | skip n k ih => simp only [Prog.bind, Prog.callCount, Prog.run, ih]; exact Nat.add_right_comm _ _ _
  | canRead n k ih => simp only [Prog.bind, Prog.callCount, Prog.run, ih]; exact Nat.add_right_comm _ _ _
  | borrow n k ih => simp only [Prog.bind, Prog.callCount, Prog.run, ih]; exact Nat.add_right_comm _ _ _
  | borrowR n k ih => simp only [Prog.bind, Prog.callCount, Prog.run, ih]; exact Nat.add_right_comm _ _ _
  | borrowEof k ih => simp only [Prog.bind, Prog.callCount, Prog.run, ih]; exact Nat.add_right_comm _ _ _
  | alloc n m k ih => simp only [Prog.bind, Prog.callCount, Prog.run, ih]

/-- An element which leaves the reader as it is in the respect of `P`, any number of times. -/
theorem repeatM_idle {α σ : Type} {R : ReaderOps σ} {p : M α} {P : σ → Prop} {v : α} {k : Nat}
    (hp : ∀ s, P s → ∃ s', p.run R s = (.ok v, s') ∧ P s' ∧ p.callCount R s = k) : ∀ n s, P s →
      (∃ s', (repeatM n p).run R s = (.ok (List.replicate n v), s') ∧ P s') ∧ (repeatM n p).callCount R s = n * k
  | 0, s, hs => ⟨⟨s, rfl, hs⟩, (Nat.zero_mul _).symm⟩
  | n + 1, s, hs => by
    obtain ⟨s1, h1, h2, h3⟩ := hp s hs
    obtain ⟨⟨s2, h4, h5⟩, h6⟩ := repeatM_idle hp n s1 h2
    unfold repeatM M.bind
    simp only [Prog.run_bind, Prog.callCount_bind, h1, h3, h4, h6, M.pure, Prog.run, Prog.callCount, Nat.succ_mul]
    exact ⟨⟨s2, rfl, h5⟩, by omega⟩

section
open Samples

/-- `struct Extra { #[speedy(default_on_eof)] a: u8, #[speedy(default_on_eof)] b: u16 }` -/
def extra : Ty := .struct ⟨.rust, 4, 2, [2, 0], true⟩ (.cons { defaultOnEof := true, dflt := .num 0 } (.prim .u8)
  (.cons { defaultOnEof := true, dflt := .num 0 } (.prim .u16) .nil))

/-- The reader after the only four bytes. -/
def four : BufSt := ⟨4096, [255, 255, 255, 255], 4100, 4100, [(4096, 4)]⟩

theorem fourLen : ((readLenR x64.toHost .little (.typed .u32 false)).run (bufferReader x64.toHost)
    (BufSt.init 4096 [255, 255, 255, 255])).1 = .ok (some 4294967295) := by decide

theorem fourSt : ((readLenR x64.toHost .little (.typed .u32 false)).run (bufferReader x64.toHost)
    (BufSt.init 4096 [255, 255, 255, 255])).2 = four := by rfl

theorem fourCalls : (readLenR x64.toHost .little (.typed .u32 false)).callCount (bufferReader x64.toHost)
    (BufSt.init 4096 [255, 255, 255, 255]) = 2 := by rfl

theorem fourExtra : (decode x64 .little extra Cx.std).run (bufferReader x64.toHost) four =
    (.ok (.pair (.num 0) (.pair (.num 0) .unit)), four) := by rfl

theorem fourExtraCalls : (decode x64 .little extra Cx.std).callCount (bufferReader x64.toHost) four = 2 := by rfl

theorem extra_calls {s : BufSt} {n : Nat} (hn : n * 4 ≤ 9223372036854775807)
    (h1 : (readLenR x64.toHost .little (.typed .u32 false)).run (bufferReader x64.toHost) s = (.ok (some n), four))
    (h2 : (readLenR x64.toHost .little (.typed .u32 false)).callCount (bufferReader x64.toHost) s = 2) :
    (decode x64 .little (.seq .vec extra) Cx.std).callCount (bufferReader x64.toHost) s = 2 + (n * 2 + 1) ∧
    ((decode x64 .little (.seq .vec extra) Cx.std).run (bufferReader x64.toHost) s).1 =
      .ok (.list (List.replicate n (.pair (.num 0) (.pair (.num 0) .unit)))) := by
  have h5 := repeatM_idle (P := (· = four)) (R := bufferReader x64.toHost) (p := decode x64 .little extra Cx.std)
    (v := .pair (.num 0) (.pair (.num 0) .unit)) (k := 2) (by rintro s rfl; exact ⟨four, fourExtra, rfl, fourExtraCalls⟩) n
    four rfl
  obtain ⟨⟨s', h3, rfl⟩, h4⟩ := h5
  have h6 :
      (readVec x64.toHost .little (elemOf x64 extra (decode x64 .little extra Cx.std)) n).run (bufferReader x64.toHost) four =
        (.ok (List.replicate n (.pair (.num 0) (.pair (.num 0) .unit))), four) ∧
      (readVec x64.toHost .little (elemOf x64 extra (decode x64 .little extra Cx.std)) n).callCount
        (bufferReader x64.toHost) four = n * 2 + 1 := by
    have hm : (elemOf x64 extra (decode x64 .little extra Cx.std)).min = 0 := by rfl
    have hz : (elemOf x64 extra (decode x64 .little extra Cx.std)).size = 4 := by rfl
    have hp : (elemOf x64 extra (decode x64 .little extra Cx.std)).prim = false := by rfl
    have hi : x64.toHost.isizeMax = 9223372036854775807 := by rfl
    have hr : (elemOf x64 extra (decode x64 .little extra Cx.std)).read = decode x64 .little extra Cx.std := by rfl
    have hc : (bufferReader x64.toHost).canRead 0 four = some true := by rfl
    unfold readVec
    rw [hm, hz, hp, hi, hr, Nat.zero_mul, if_neg (by omega)]
    simp only [Prog.run, Prog.callCount, hc]
    rw [if_neg (by simp), if_neg (by omega)]
    simp only [Prog.run, Prog.callCount]
    rw [if_neg (by simp), if_neg (by omega)]
    exact ⟨h3, by rw [h4]⟩
  have h7 : decode x64 .little (.seq .vec extra) Cx.std = M.bind (readLenR x64.toHost .little (.typed .u32 false)) fun len =>
      readSeq x64 .little .vec (elemOf x64 extra (decode x64 .little extra Cx.std)) len := by rfl
  rw [h7]
  constructor
  · unfold M.bind
    rw [Prog.callCount_bind, h1, h2]
    simp only [readSeq, M.map, M.bind]
    rw [Prog.callCount_bind, h6.1, h6.2]
    simp only [M.pure, Prog.callCount]
  · rw [M.run_bind_ok h1]
    simp only [readSeq, M.map]
    rw [M.run_bind_ok h6.1]
    simp only [M.pure, Prog.run]

/-- **C65 is false for elements of which all fields are `default_on_eof`**: four bytes, which are the length of a
`Vec<Extra>`, are followed by two unsuccessful calls for each of 2^32 - 1 elements, all of which are delivered. -/
theorem C65_false_default :
    layoutOk x64 extra = true ∧ declOk extra = true ∧
    callsPerByte (.seq .vec extra) * 4 + ownCalls (.seq .vec extra) = 86 ∧
    (decode x64 .little (.seq .vec extra) Cx.std).callCount (bufferReader x64.toHost)
      (BufSt.init 4096 [255, 255, 255, 255]) = 2 + (4294967295 * 2 + 1) ∧
    ((decode x64 .little (.seq .vec extra) Cx.std).run (bufferReader x64.toHost)
      (BufSt.init 4096 [255, 255, 255, 255])).1 =
      .ok (.list (List.replicate 4294967295 (.pair (.num 0) (.pair (.num 0) .unit)))) :=
  ⟨by decide, by decide, by decide, extra_calls (by decide) (Prod.ext fourLen fourSt) fourCalls⟩

/-- `enum Mark { A }` with `peek_tag`, whose only variant has no field which would read the tag. -/
def mark : Ty := .enum ⟨.u8, true, 0⟩ (.cons 1 .nil .nil)

/-- The reader before the last of five bytes. -/
def five : BufSt := ⟨16, [255, 255, 255, 255, 1], 20, 21, [(16, 4)]⟩

theorem fiveLen : ((readLenR x64.toHost .little (.typed .u32 false)).run (bufferReader x64.toHost)
    (BufSt.init 16 [255, 255, 255, 255, 1])).1 = .ok (some 4294967295) := by decide

theorem fiveSt : ((readLenR x64.toHost .little (.typed .u32 false)).run (bufferReader x64.toHost)
    (BufSt.init 16 [255, 255, 255, 255, 1])).2 = five := by rfl

theorem fiveCalls : (readLenR x64.toHost .little (.typed .u32 false)).callCount (bufferReader x64.toHost)
    (BufSt.init 16 [255, 255, 255, 255, 1]) = 2 := by rfl

theorem markPeek (tr : List (Nat × Nat)) :
    (bufferReader x64.toHost).canRead 1 ⟨16, [255, 255, 255, 255, 1], 20, 21, tr⟩ = some true ∧
    (bufferReader x64.toHost).peek 1 ⟨16, [255, 255, 255, 255, 1], 20, 21, tr⟩ =
      (.ok [1], ⟨16, [255, 255, 255, 255, 1], 20, 21, (20, 1) :: tr⟩) := by
  have hw : wsub x64.toHost 21 20 = 1 := by decide
  simp [bufferReader, bufPeek, bufCanRead, hw, BufSt.load]

theorem markRun (tr : List (Nat × Nat)) :
    (decode x64 .little mark Cx.std).run (bufferReader x64.toHost) ⟨16, [255, 255, 255, 255, 1], 20, 21, tr⟩ =
      (.ok (.variant 0 .unit), ⟨16, [255, 255, 255, 255, 1], 20, 21, (20, 1) :: tr⟩) ∧
    (decode x64 .little mark Cx.std).callCount (bufferReader x64.toHost) ⟨16, [255, 255, 255, 255, 1], 20, 21, tr⟩ = 2 := by
  have h := markPeek tr
  have h1 : (peekNum x64.toHost .little 1).run (bufferReader x64.toHost) ⟨16, [255, 255, 255, 255, 1], 20, 21, tr⟩ =
      (.ok 1, ⟨16, [255, 255, 255, 255, 1], 20, 21, (20, 1) :: tr⟩) := by
    have hv : x64.toHost.native.num [1] = 1 := by decide
    have hc : Endian.little.conv x64.toHost = false := by decide
    simp [peekNum, Prog.run, h.1, h.2, hv, hc, M.pure]
  have h2 : (peekNum x64.toHost .little 1).callCount (bufferReader x64.toHost) ⟨16, [255, 255, 255, 255, 1], 20, 21, tr⟩ = 2 := by
    simp [peekNum, Prog.callCount, h.1, h.2, M.pure]
  have hd : decode x64 .little mark Cx.std = M.bind (peekNum x64.toHost .little 1) fun tag =>
      decodeVariants x64 .little (.cons 1 .nil .nil) tag 0 := by
    unfold mark decode readTag
    rfl
  have hv : decodeVariants x64 .little (.cons 1 .nil .nil) 1 0 = M.pure (.variant 0 .unit) := by
    unfold decodeVariants decodeFields
    rfl
  rw [hd]
  refine ⟨by rw [M.run_bind_ok h1, hv]; rfl, ?_⟩
  unfold M.bind
  rw [Prog.callCount_bind, h1, h2]
  simp only [hv, M.pure, Prog.callCount]

theorem mark_calls {s : BufSt} {n : Nat}
    (h1 : (readLenR x64.toHost .little (.typed .u32 false)).run (bufferReader x64.toHost) s = (.ok (some n), five))
    (h2 : (readLenR x64.toHost .little (.typed .u32 false)).callCount (bufferReader x64.toHost) s = 2) :
    (decode x64 .little (.set mark) Cx.std).callCount (bufferReader x64.toHost) s = 2 + n * 2 := by
  have h5 := repeatM_idle (P := fun s => ∃ tr, s = ⟨16, [255, 255, 255, 255, 1], 20, 21, tr⟩)
    (R := bufferReader x64.toHost) (p := decode x64 .little mark Cx.std) (v := .variant 0 .unit) (k := 2)
    (by rintro s ⟨tr, rfl⟩; exact ⟨_, (markRun tr).1, ⟨_, rfl⟩, (markRun tr).2⟩) n five ⟨_, rfl⟩
  obtain ⟨⟨s', h3, _⟩, h4⟩ := h5
  have h6 : decode x64 .little (.set mark) Cx.std = M.bind (readLenR x64.toHost .little (.typed .u32 false)) fun
      | some n => M.map (fun vs => .list (setOf vs)) (repeatM n (decode x64 .little mark Cx.std))
      | none => M.map (fun vs => .list (setOf vs)) (readUntilEof x64.fuel (decode x64 .little mark Cx.std)) := by rfl
  rw [h6]
  unfold M.bind
  rw [Prog.callCount_bind, h1, h2]
  simp only [M.map, M.bind]
  rw [Prog.callCount_bind, h3, h4]
  simp only [M.pure, Prog.callCount]
  omega

/-- **C65 is false for enums with `peek_tag`** whose variants do not read the tag: it is looked at again for every element
of a `HashSet<Mark>`. -/
theorem C65_false_peek :
    layoutOk x64 mark = true ∧ declOk mark = true ∧
    callsPerByte (.set mark) * 5 + ownCalls (.set mark) = 24 ∧
    (decode x64 .little (.set mark) Cx.std).callCount (bufferReader x64.toHost)
      (BufSt.init 16 [255, 255, 255, 255, 1]) = 2 + 4294967295 * 2 :=
  ⟨by decide, by decide, by decide, mark_calls (Prod.ext fiveLen fiveSt) fiveCalls⟩

/-- A list of records with names and optional measurements, and a map. -/
def inventory : Ty := .pair (.seq .vec (.struct ⟨.rust, 48, 8, [0, 24], false⟩ (.cons {} (.str .owned)
  (.cons { len := some (.typed .u8), defaultOnEof := true, dflt := .none } (.option (.seq .vec (.prim .u16))) .nil))))
  (.map (.str .owned) (.prim .u64))

/-- Reading 29 bytes takes 21 calls. -/
example : steady x64 false inventory = true ∧ callsPerByte inventory = 30 ∧ ownCalls inventory = 48 ∧
    (decode x64 .little inventory Cx.std).callCount (bufferReader x64.toHost) (BufSt.init 4096
      [1, 0, 0, 0, 1, 0, 0, 0, 65, 1, 1, 7, 0, 1, 0, 0, 0, 0, 0, 0, 0, 1, 2, 3, 4, 5, 6, 7, 8]) = 21 := by
  decide

end

/-! ## Cases -/

section Cases
open Samples

example := C65_buffer_partial (T := x64) (e := .little) (t := inventory) (by decide) (base := 4096)
  (buf := [1, 0, 0, 0, 1, 0, 0, 0, 65, 1, 1, 7, 0, 1, 0, 0, 0, 0, 0, 0, 0, 1, 2, 3, 4, 5, 6, 7, 8]) (by decide) (.inl rfl)
example := C65_calls_partial (T := x64) (e := .little) (t := inventory) (by decide) (bufferReader_orderly Host.x64)
  (BufSt.init_inv (base := 4096) (buf := [1, 0, 0, 0, 1, 0, 0, 0, 65, 1, 1, 7, 0, 1, 0, 0, 0]) (by decide))
example (src : Src) := C65_stream_partial (T := x64) (e := .little) (t := inventory) (by decide) (grow := (· + 100)) (fun n => by omega)
  true src

end Cases

end Verif
