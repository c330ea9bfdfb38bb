import Verif.PropsTwin

/-!
# C29: memory is reserved for what the input can contain

`C29_reservations_partial` (PropsSafe.lean) uses that results need at least `minimum_bytes_needed` bytes.  It is not
needed: `read_vec` compares with what is left before it reserves anything, whatever the type.
-/

namespace Verif

/-- Every reservation (`n` elements of at least `m` bytes with `r` bytes left of `B`) is backed by bytes which are left or
have been read. -/
def Backed (B r n m : Nat) : Prop := n * m ≤ r ∨ n * m ≤ B - r

/-- All reservations of a program are backed, whatever a reader of at most `B` bytes which knows what is left answers. -/
def Frugal {α : Type} (B : Nat) (p : Prog α) : Prop :=
  ∀ r, r ≤ B → p.Wp true (Backed B) (fun r' _ => r' ≤ B) r

section
variable {α β : Type} {B : Nat}

theorem fru_ret (a : α) : Frugal B (.ret a) := fun _ h => h

theorem fru_pure (a : α) : Frugal B (M.pure a) := fru_ret _

theorem fru_fail (er : Err) : Frugal B (M.fail er : M α) := fru_ret _

theorem fru_pbind {p : Prog α} {f : α → Prog β} (hp : Frugal B p) (hf : ∀ a, Frugal B (f a)) : Frugal B (p.bind f) :=
  fun r hr => ((hp r hr).mono fun r' x h => hf x r' h).bind

theorem fru_bind {p : M α} {f : α → M β} (hp : Frugal B p) (hf : ∀ a, Frugal B (f a)) : Frugal B (M.bind p f) := by
  unfold M.bind
  refine fru_pbind hp fun r => ?_
  cases r with
  | error er => exact fru_ret _
  | ok a => exact hf a

theorem fru_map {p : M α} (f : α → β) (hp : Frugal B p) : Frugal B (M.map f p) := fru_bind hp fun _ => fru_pure _

theorem fru_ite {c : Prop} [Decidable c] {p q : Prog α} (hp : c → Frugal B p) (hq : ¬ c → Frugal B q) :
    Frugal B (if c then p else q) := by
  split
  · exact hp ‹_›
  · exact hq ‹_›

theorem fru_onEof {p : M α} (hp : Frugal B p) (d : α) : Frugal B (onEof p d) := by
  unfold onEof
  refine fru_pbind hp fun r => ?_
  cases r with
  | error er => exact fru_ite (fun _ => fru_pure _) fun _ => fru_fail _
  | ok a => exact fru_pure _

theorem fru_read {n : Nat} {k : Except Err Bytes → Prog α} (hk : ∀ r, Frugal B (k r)) : Frugal B (.read n k) :=
  fun _ hr => ⟨fun _ _ _ => hk _ _ (by omega), fun _ _ _ _ => hk _ _ (by omega)⟩

theorem fru_peek {n : Nat} {k : Except Err Bytes → Prog α} (hk : ∀ r, Frugal B (k r)) : Frugal B (.peek n k) :=
  fun _ hr => ⟨fun _ _ _ => hk _ _ hr, fun _ _ _ _ => hk _ _ (by omega)⟩

theorem fru_canRead {n : Nat} {k : Option Bool → Prog α} (hk : ∀ r, Frugal B (k r)) : Frugal B (.canRead n k) :=
  fun _ hr => ⟨hk _ _ hr, fun _ => hk _ _ hr⟩

theorem fru_borrow {n : Nat} {k : Option (Except Err (Nat × Bytes)) → Prog α} (hk : ∀ r, Frugal B (k r)) :
    Frugal B (.borrow n k) :=
  fun _ hr => ⟨fun _ _ _ _ => hk _ _ (by omega), fun _ _ _ _ => hk _ _ (by omega), hk _ _ hr⟩

theorem fru_borrowR {n : Nat} {k : Option (Except Err (Nat × Bytes)) → Prog α} (hk : ∀ r, Frugal B (k r)) :
    Frugal B (.borrowR n k) :=
  fun _ hr => ⟨fun _ _ _ _ => hk _ _ (by omega), fun _ _ _ _ => hk _ _ (by omega), hk _ _ hr⟩

theorem fru_borrowEof {k : Option (Nat × Bytes) → Prog α} (hk : ∀ r, Frugal B (k r)) : Frugal B (.borrowEof k) :=
  fun _ hr => ⟨fun _ _ _ => hk _ _ (by omega), hk _ _ hr⟩

theorem fru_repeatM {p : M α} (hp : Frugal B p) : ∀ n, Frugal B (repeatM n p)
  | 0 => fru_pure _
  | n + 1 => fru_bind hp fun _ => fru_bind (fru_repeatM hp n) fun _ => fru_pure _

theorem fru_readUntilEof {p : M Val} (hp : Frugal B p) : ∀ fuel, Frugal B (readUntilEof fuel p)
  | 0 => fru_fail _
  | n + 1 => by
    unfold readUntilEof
    refine fru_pbind hp fun r => ?_
    cases r with
    | ok v => exact fru_bind (fru_readUntilEof hp n) fun _ => fru_pure _
    | error er => exact fru_ite (fun _ => fru_pure _) fun _ => fru_fail _

theorem fru_readBytes (n : Nat) : Frugal B (readBytes n) := fru_read fun _ => fru_ret _

theorem fru_peekBytes (n : Nat) : Frugal B (peekBytes n) := fru_peek fun _ => fru_ret _

theorem fru_readNum (h' : Host) (e : Endian) (n : Nat) : Frugal B (readNum h' e n) := by
  refine fru_canRead fun r => fru_ite (fun _ => fru_fail _) fun _ => fru_read fun r => ?_
  cases r with
  | error er => exact fru_fail _
  | ok bs => exact fru_pure _

theorem fru_peekNum (h' : Host) (e : Endian) (n : Nat) : Frugal B (peekNum h' e n) := by
  refine fru_canRead fun r => fru_ite (fun _ => fru_fail _) fun _ => fru_peek fun r => ?_
  cases r with
  | error er => exact fru_fail _
  | ok bs => exact fru_pure _

theorem fru_readVarint (h' : Host) (e : Endian) : Frugal B (readVarint h' e) :=
  fru_bind (fru_readNum _ _ _) fun _ => fru_bind (fru_readBytes _) fun _ => fru_pure _

theorem fru_peekVarint (h' : Host) (e : Endian) : Frugal B (peekVarint h' e) :=
  fru_bind (fru_peekNum _ _ _) fun _ => fru_bind (fru_peekBytes _) fun _ => fru_pure _

theorem fru_readLen (h' : Host) (e : Endian) (lt : LenTy) : Frugal B (readLen h' e lt) := by
  cases lt <;> unfold readLen
  · exact fru_bind (fru_readNum _ _ _) fun _ => fru_ite (fun _ => fru_fail _) fun _ => fru_pure _
  · exact fru_readNum _ _ _
  · exact fru_readNum _ _ _
  · exact fru_readNum _ _ _
  · exact fru_bind (fru_readNum _ _ _) fun _ => fru_ite (fun _ => fru_fail _) fun _ => fru_pure _
  · exact fru_bind (fru_readVarint _ _) fun _ => fru_ite (fun _ => fru_fail _) fun _ => fru_pure _

theorem fru_readLenR (h' : Host) (e : Endian) (lr : LenR) : Frugal B (readLenR h' e lr) := by
  cases lr with
  | typed lt d =>
    cases d with
    | false => exact fru_map _ (fru_readLen _ _ _)
    | true => exact fru_map _ (fru_onEof (fru_readLen _ _ _) _)
  | fixed n => exact fru_pure _
  | untilEof => exact fru_pure _

theorem fru_liftVals (el : Elem) (r : Except Panic (List Bytes)) : Frugal B (liftVals el r) := by
  cases r with
  | error p => exact fru_fail _
  | ok ms => exact fru_pure _

/-- `read_vec` compares with what is left. -/
theorem fru_readVec (h' : Host) (e : Endian) {el : Elem} (hel : Frugal B el.read) (n : Nat) :
    Frugal B (readVec h' e el n) := by
  refine fru_ite (fun _ => fru_fail _) fun _ r hr => ?_
  have key : el.min * n ≤ r → (if el.prim then
        M.bind (readBytes (n * el.size)) fun mem => liftVals el (convSlice h' e el (chunks el.size n mem))
      else if el.size = 0 then M.pure (List.replicate n el.zst) else repeatM n el.read).Wp true (Backed B)
        (fun r' _ => r' ≤ B) r := fun _ =>
    fru_ite (fun _ => fru_bind (fru_readBytes _) fun _ => fru_liftVals _ _)
      (fun _ => fru_ite (fun _ => fru_pure _) fun _ => fru_repeatM hel _) r hr
  refine ⟨?_, fun h => by cases h⟩
  by_cases hn : el.min * n ≤ r
  · simp only [hn, decide_true, Option.some.injEq, Bool.true_eq_false, if_false]
    split
    · exact hr
    · exact ⟨.inl (by rw [Nat.mul_comm]; exact hn), key hn⟩
  · simp only [hn, decide_false, if_true]
    exact hr

theorem fru_readCollection (h' : Host) (e : Endian) {el : Elem} (hel : Frugal B el.read) (n : Nat) :
    Frugal B (readCollection h' e el n) := by
  refine fru_ite (fun _ => fru_ite (fun _ => fru_fail _) fun _ => fru_borrowR (fun r => ?_))
    fun _ => fru_repeatM hel _
  rcases r with _ | er | ⟨a, bs⟩
  · exact fru_repeatM hel _
  · exact fru_fail _
  · exact fru_ite (fun _ => fru_fail _) fun _ => fru_pure _

theorem fru_readPair {ek ev : Elem} (hk : Frugal B ek.read) (hv : Frugal B ev.read) : Frugal B (readPair ek ev) :=
  fru_bind hk fun _ => fru_bind hv fun _ => fru_pure _

theorem fru_readKV (h' : Host) (e : Endian) {ek ev : Elem} (hk : Frugal B ek.read) (hv : Frugal B ev.read) (n : Nat) :
    Frugal B (readKV h' e ek ev n) := by
  have hp := fru_repeatM (fru_readPair hk hv) n
  refine fru_ite (fun _ => fru_ite (fun _ => fru_fail _) fun _ => fru_borrowR (fun r => ?_)) fun _ => hp
  rcases r with _ | er | ⟨a, bs⟩
  · exact hp
  · exact fru_fail _
  · exact fru_ite (fun _ => fru_fail _) fun _ => fru_pure _

theorem fru_durationNew (a b : Nat) : Frugal B (durationNew a b) :=
  fru_ite (fun _ => fru_pure _) fun _ => fru_fail _

theorem fru_readDuration (h' : Host) (e : Endian) : Frugal B (readDuration h' e) :=
  fru_bind (fru_readNum _ _ _) fun _ => fru_bind (fru_readNum _ _ _) fun _ => fru_durationNew _ _

theorem fru_readIpv6 (h' : Host) (e : Endian) : Frugal B (readIpv6 h' e) := fru_map _ (fru_readBytes _)

theorem fru_readBool (h' : Host) (e : Endian) : Frugal B (readBool h' e) := fru_map _ (fru_readNum _ _ _)

theorem fru_convert (c : Conv) (v : Val) : Frugal B (convert c v) := by
  unfold convert
  cases c.apply v with
  | ok w => exact fru_pure _
  | error er => exact fru_fail _

theorem fru_asStr (bs : Bytes) : Frugal B (asStr bs) := fru_ite (fun _ => fru_pure _) fun _ => fru_fail _

theorem fru_readTag (h' : Host) (e : Endian) (d : EnumDesc) : Frugal B (readTag h' e d) := by
  obtain ⟨lt, pk⟩ := d
  cases pk <;> cases lt
  case false.varint => exact fru_readVarint _ _
  case true.varint => exact fru_peekVarint _ _
  case false.u7 | false.u8 | false.u16 | false.u32 | false.u64 => exact fru_readNum _ _ _
  all_goals exact fru_peekNum _ _ _

/-- `read_cow` reserves memory for what it has borrowed. -/
theorem fru_readCow {h : Host} (hh : h.Ok) {e : Endian} {el : Elem} (hel : Frugal B el.read) {n : Nat}
    (hm : el.prim = true → el.min ≤ el.size) : Frugal B (readCow h e el n) := by
  have hv := fru_map CowVal.owned (fru_readVec h e hel n)
  refine fru_ite (fun hp r hr => ⟨fun hn a bs hb => ?_, fun er r' _ hr' => ?_, ?_⟩) fun _ => hv
  · have hle : el.min ≤ el.size := hm (by simp only [Bool.and_eq_true] at hp; exact hp.1)
    simp only
    split
    · exact Nat.le_trans (Nat.sub_le _ _) hr
    · split
      · split
        · exact Nat.le_trans (Nat.sub_le _ _) hr
        · exact Nat.le_trans (Nat.sub_le _ _) hr
      · split
        · exact Nat.le_trans (Nat.sub_le _ _) hr
        · rename_i hc
          have hi := hh.isize
          have hw : wmul h n el.size = n * el.size := wmul_fits (by omega)
          have : n * el.min ≤ n * el.size := Nat.mul_le_mul_left _ hle
          rw [hw] at hn ⊢
          exact ⟨.inr (by omega), by show _ ≤ _; omega⟩
  · exact Nat.le_trans hr' hr
  · exact hv r hr

theorem fru_borrowBytes (n : Nat) : Frugal B (borrowBytes n) := by
  refine fru_borrow fun r => ?_
  rcases r with _ | er | ⟨a, bs⟩
  · exact fru_fail _
  · exact fru_fail _
  · exact fru_pure _

theorem fru_borrowRest : Frugal B borrowRest := by
  refine fru_borrowEof fun r => ?_
  rcases r with _ | ⟨a, bs⟩
  · exact fru_fail _
  · exact fru_pure _

theorem fru_u8 {T : Target} {e : Endian} : Frugal B (u8Elem T e).read := fru_map _ (fru_readNum _ _ _)

theorem fru_readConstant {T : Target} {e : Endian} (c : Bytes) :
    Frugal B (readConstant T.toHost e (u8Elem T e) c) := by
  refine fru_borrow fun r => ?_
  rcases r with _ | er | ⟨a, bs⟩
  · exact fru_bind (fru_readVec _ _ fru_u8 _) fun _ => fru_ite (fun _ => fru_pure _) fun _ => fru_fail _
  · exact fru_fail _
  · exact fru_ite (fun _ => fru_pure _) fun _ => fru_fail _

theorem fru_readStr {T : Target} (hT : T.Ok) {e : Endian} (k : StrKind) (len : Option Nat) :
    Frugal B (readStr T e k len) := by
  cases k <;> cases len <;> unfold readStr
  · exact fru_bind (fru_readUntilEof fru_u8 _) fun _ => fru_asStr _
  · exact fru_bind (fru_readVec _ _ fru_u8 _) fun _ => fru_asStr _
  · exact fru_bind (fru_readUntilEof fru_u8 _) fun _ => fru_asStr _
  · exact fru_bind (fru_readCow hT.toOk fru_u8 fun _ => Nat.le_refl 1) fun _ => fru_asStr _
  · exact fru_bind fru_borrowRest fun _ => fru_asStr _
  · exact fru_bind (fru_borrowBytes _) fun _ => fru_asStr _

theorem fru_readSeq {T : Target} (hT : T.Ok) {e : Endian} (k : SeqKind) {el : Elem} (hel : Frugal B el.read)
    (hm : k = .cow → el.prim = true → el.min ≤ el.size) (len : Option Nat) : Frugal B (readSeq T e k el len) := by
  cases k <;> cases len <;> unfold readSeq
  · exact fru_map _ (fru_readUntilEof hel _)
  · exact fru_map _ (fru_readVec _ _ hel _)
  · exact fru_map _ (fru_readUntilEof hel _)
  · exact fru_map _ (fru_readCow hT.toOk hel (hm rfl))
  · exact fru_map _ (fru_bind fru_borrowRest fun _ => fru_ite (fun _ => fru_fail _) fun _ => fru_pure _)
  · exact fru_map _ (fru_ite (fun _ => fru_fail _) fun _ => fru_bind (fru_borrowBytes _) fun _ => fru_pure _)

theorem fru_readArray {T : Target} {e : Endian} {inl : Bool} {el : Elem} (hel : Frugal B el.read) (n : Nat) :
    Frugal B (readArray T e inl el n) :=
  fru_ite (fun _ => fru_bind (fru_readBytes _) fun _ => fru_map _ (fru_liftVals _ _)) fun _ =>
    fru_map _ (fru_repeatM hel _)

end

mutual
/-- Elements of `Cow` slices which are copied in bulk take at least `minimum_bytes_needed` bytes of memory. -/
def thrifty (T : Target) : Ty → Bool
  | .seq k t => (!(k == .cow && isPrimitive T t) || decide (minBytes T t ≤ sizeOf T t)) && thrifty T t
  | .set t | .array _ t | .range t | .rangeInc t | .box t | .via _ t | .option t => thrifty T t
  | .map k v | .result k v | .pair k v => thrifty T k && thrifty T v
  | .struct _ fs => thriftyFields T fs
  | .enum _ vs => thriftyVariants T vs
  | _ => true
/-- Fields. -/
def thriftyFields (T : Target) : Fields → Bool
  | .nil => true
  | .cons _ t fs => thrifty T t && thriftyFields T fs
/-- Variants. -/
def thriftyVariants (T : Target) : Variants → Bool
  | .nil => true
  | .cons _ fs vs => thriftyFields T fs && thriftyVariants T vs
end

section
variable {T : Target} (hT : T.Ok) {e : Endian} {B : Nat}
include hT

mutual
/-- Reading any type. -/
theorem decode_frugal : ∀ (t : Ty) (cx : Cx), thrifty T t = true → Frugal B (decode T e t cx)
  | .prim p, _, _ => by unfold decode; exact fru_map _ (fru_readNum _ _ _)
  | .usize, _, _ => by
    unfold decode; exact fru_bind (fru_readNum _ _ _) fun _ => fru_ite (fun _ => fru_fail _) fun _ => fru_pure _
  | .bool, _, _ => by unfold decode; exact fru_map _ (fru_readBool _ _)
  | .char, _, _ => by
    unfold decode; exact fru_bind (fru_readNum _ _ _) fun _ => fru_ite (fun _ => fru_pure _) fun _ => fru_fail _
  | .nonZero p, _, _ => by
    unfold decode; exact fru_bind (fru_readNum _ _ _) fun _ => fru_ite (fun _ => fru_fail _) fun _ => fru_pure _
  | .atomic p, _, _ => by unfold decode; exact fru_map _ (fru_readNum _ _ _)
  | .ipv4, _, _ => by unfold decode; exact fru_map _ (fru_readNum _ _ _)
  | .ipv6, _, _ => by unfold decode; exact fru_readIpv6 _ _
  | .ipAddr, _, _ => by
    unfold decode
    exact fru_bind (fru_readNum _ _ _) fun _ => fru_ite (fun _ => fru_map _ (fru_readNum _ _ _)) fun _ =>
      fru_ite (fun _ => fru_map _ (fru_readIpv6 _ _)) fun _ => fru_fail _
  | .duration, _, _ => by unfold decode; exact fru_map _ (fru_readDuration _ _)
  | .systemTime, _, _ => by
    unfold decode
    exact fru_bind (fru_readDuration _ _) fun _ => fru_ite (fun _ => fru_pure _) fun _ => fru_fail _
  | .endianness, _, _ => by
    unfold decode
    exact fru_bind (fru_readNum _ _ _) fun _ => fru_ite (fun _ => fru_pure _) fun _ =>
      fru_ite (fun _ => fru_pure _) fun _ => fru_fail _
  | .varint64, _, _ => by unfold decode; exact fru_map _ (fru_readVarint _ _)
  | .uuid, _, _ => by unfold decode; exact fru_map _ (fru_readBytes _)
  | .unit, _, _ => by unfold decode; exact fru_pure _
  | .str k, cx, _ => by
    unfold decode
    exact fru_bind (fru_readLenR _ _ _) fun _ => fru_readStr hT _ _
  | .seq k t, cx, hc => by
    unfold decode
    simp only [thrifty, Bool.and_eq_true] at hc
    refine fru_ite (fun _ => fru_fail _) fun _ => fru_bind (fru_readLenR _ _ _) fun _ =>
      fru_readSeq hT _ (el := elemOf T t (decode T e t Cx.std)) (decode_frugal t Cx.std hc.2) (fun hk hp => ?_) _
    have h1 := hc.1
    have hp' : isPrimitive T t = true := hp
    show minBytes T t ≤ sizeOf T t
    simpa [hk, hp'] using h1
  | .set t, cx, hc => by
    unfold decode
    simp only [thrifty] at hc
    refine fru_bind (fru_readLenR _ _ _) fun len => ?_
    have ih : Frugal B (elemOf T t (decode T e t Cx.std)).read := decode_frugal t Cx.std hc
    cases len with
    | some n => exact fru_map _ (fru_readCollection _ _ ih _)
    | none => exact fru_map _ (fru_readUntilEof ih _)
  | .map k v, cx, hc => by
    unfold decode
    simp only [thrifty, Bool.and_eq_true] at hc
    have ih1 : Frugal B (elemOf T k (decode T e k Cx.std)).read := decode_frugal k Cx.std hc.1
    have ih2 : Frugal B (elemOf T v (decode T e v Cx.std)).read := decode_frugal v Cx.std hc.2
    refine fru_bind (fru_readLenR _ _ _) fun len => ?_
    cases len with
    | some n => exact fru_map _ (fru_readKV _ _ ih1 ih2 _)
    | none => exact fru_map _ (fru_readUntilEof (fru_readPair ih1 ih2) _)
  | .array n t, cx, hc => by
    unfold decode
    simp only [thrifty] at hc
    exact fru_readArray (decode_frugal t Cx.std hc) n
  | .refArray n t, _, _ => by
    unfold decode
    exact fru_ite (fun _ => fru_fail _) fun _ => fru_map _ (fru_borrowBytes _)
  | .option t, cx, hc => by
    unfold decode
    simp only [thrifty] at hc
    exact fru_bind (fru_readBool _ _) fun _ => fru_ite (fun _ => fru_map _ (decode_frugal t _ hc)) fun _ => fru_pure _
  | .result t er, cx, hc => by
    unfold decode
    simp only [thrifty, Bool.and_eq_true] at hc
    exact fru_bind (fru_readBool _ _) fun _ => fru_ite (fun _ => fru_map _ (decode_frugal t Cx.std hc.1))
      fun _ => fru_map _ (decode_frugal er Cx.std hc.2)
  | .range t, cx, hc => by
    unfold decode
    simp only [thrifty] at hc
    exact fru_bind (decode_frugal t Cx.std hc) fun _ => fru_bind (decode_frugal t Cx.std hc) fun _ => fru_pure _
  | .rangeInc t, cx, hc => by
    unfold decode
    simp only [thrifty] at hc
    exact fru_bind (decode_frugal t Cx.std hc) fun _ => fru_bind (decode_frugal t Cx.std hc) fun _ => fru_pure _
  | .pair a b, cx, hc => by
    unfold decode
    simp only [thrifty, Bool.and_eq_true] at hc
    exact fru_bind (decode_frugal a Cx.std hc.1) fun _ => fru_bind (decode_frugal b Cx.std hc.2) fun _ => fru_pure _
  | .box t, cx, hc => by
    unfold decode
    simp only [thrifty] at hc
    exact decode_frugal t Cx.std hc
  | .via c t, cx, hc => by
    unfold decode
    simp only [thrifty] at hc
    exact fru_bind (decode_frugal t Cx.std hc) fun _ => fru_convert _ _
  | .struct d fs, cx, hc => by
    unfold decode
    simp only [thrifty] at hc
    exact decodeFields_frugal fs [] hc
  | .enum d vs, cx, hc => by
    unfold decode
    simp only [thrifty] at hc
    exact fru_bind (fru_readTag _ _ _) fun tag => decodeVariants_frugal vs tag 0 hc
theorem decodeFields_frugal : ∀ (fs : Fields) (prev : List Val), thriftyFields T fs = true →
    Frugal B (decodeFields T e fs prev)
  | .nil, _, _ => by unfold decodeFields; exact fru_pure _
  | .cons a t fs, prev, hc => by
    unfold decodeFields
    simp only [thriftyFields, Bool.and_eq_true] at hc
    have h1 : Frugal B
        (if a.varint then M.map .num (readVarint T.toHost e) else decode T e t (a.cx T.toHost prev)) :=
      fru_ite (fun _ => fru_map _ (fru_readVarint _ _)) fun _ => decode_frugal t _ hc.1
    have h2 : Frugal B (if a.pre.isEmpty then
        (if a.varint then M.map .num (readVarint T.toHost e) else decode T e t (a.cx T.toHost prev))
        else M.bind (readConstant T.toHost e (u8Elem T e) a.pre) fun _ =>
          (if a.varint then M.map .num (readVarint T.toHost e) else decode T e t (a.cx T.toHost prev))) :=
      fru_ite (fun _ => h1) fun _ => fru_bind (fru_readConstant _) fun _ => h1
    refine fru_ite (fun _ => fru_map _ (decodeFields_frugal fs prev hc.2)) fun _ => ?_
    exact fru_bind (fru_ite (fun _ => fru_onEof h2 _) fun _ => h2) fun v =>
      fru_map _ (decodeFields_frugal fs _ hc.2)
theorem decodeVariants_frugal : ∀ (vs : Variants) (tag i : Nat), thriftyVariants T vs = true →
    Frugal B (decodeVariants T e vs tag i)
  | .nil, _, _, _ => by unfold decodeVariants; exact fru_fail _
  | .cons tag' fs vs, tag, i, hc => by
    unfold decodeVariants
    simp only [thriftyVariants, Bool.and_eq_true] at hc
    exact fru_ite (fun _ => fru_map _ (decodeFields_frugal fs [] hc.1)) fun _ => decodeVariants_frugal vs tag (i + 1) hc.2
end
end

/-- **C29**: whatever the type and the input, whenever memory is reserved for `n` elements of which each needs at least
`m` bytes (`minimum_bytes_needed`), `n * m` bytes are left in the input, or have been read already (a borrowed slice
which is then copied because of its alignment).

Full claim: for all types.  Missing: `Cow<[T]>` with elements that need more bytes than their memory has
(`repr(transparent)` structs with a prefix), for which it is false (`C29_false`). -/
theorem C29_backed_partial {T : Target} (hT : T.Ok) {e : Endian} {t : Ty} (ht : thrifty T t = true) {base : Nat} {buf : Bytes}
    (htop : base + buf.length ≤ T.usizeMax) {R : ReaderOps BufSt}
    (hR : R = bufferReader T.toHost ∨ R = copyingReader T.toHost) :
    ∀ x ∈ (decode T e t Cx.std).allocs R BufSt.pend (BufSt.init base buf),
      x.2.1 * x.2.2 ≤ x.1 ∨ x.2.1 * x.2.2 ≤ buf.length - x.1 := by
  have O : Orderly true R (BufAt T.toHost base buf) BufSt.pend := by
    rcases hR with rfl | rfl
    · exact (bufferReader_at _ _ _).orderly fun _ n s => by simp [bufferReader, bufCanRead]
    · exact (copyingReader_at _ _ _).orderly fun _ n s => by simp [copyingReader, bufCanRead]
  have := O.run (s := BufSt.init base buf) (BufAt.init htop) (decode_frugal hT t Cx.std ht (e := e) (B := buf.length)
    (BufSt.pend (BufSt.init base buf)).length (by rw [BufSt.init_pend]; exact Nat.le_refl _))
  exact this.2.2.2

section
open Samples

/-- A pair of a shared slice of numbers, and a list of strings: borrowed and copied, reserved before it is read. -/
example : thrifty x64 (.pair (.seq .cow (.prim .u16)) (.seq .vec (.str .owned))) = true ∧
    (decode x64 .little (.pair (.seq .cow (.prim .u16)) (.seq .vec (.str .owned))) Cx.std).allocs (bufferReader x64.toHost)
      BufSt.pend (BufSt.init 4097 [2, 0, 0, 0, 1, 0, 2, 0, 1, 0, 0, 0, 1, 0, 0, 0, 65]) = [(9, 2, 2), (5, 1, 4), (1, 1, 1)] := by
  decide

/-- **C29 is false for `Cow<[T]>`** with a `repr(transparent)` `T` which has a constant prefix.  The length says five, the
buffer has ten bytes for them (`size_of` is two), and memory is reserved for five elements of which each claims to need
three: more than the whole input has. -/
theorem C29_false : ∃ x ∈ (decode x64 .little (.seq .cow tagged16) Cx.std).allocs (bufferReader x64.toHost) BufSt.pend
      (BufSt.init 4097 [5, 0, 0, 0, 1, 0, 2, 0, 3, 0, 4, 0, 5, 0]),
    ¬ (x.2.1 * x.2.2 ≤ x.1 ∨ x.2.1 * x.2.2 ≤ [5, 0, 0, 0, 1, 0, 2, 0, 3, 0, 4, 0, 5, 0].length - x.1) :=
  ⟨(0, 5, 3), by decide, by decide⟩

end

/-! ## Cases -/

section Cases
open Samples

/-- The elements of the list: 1 string, 4 bytes of which have to be there, with 5 bytes left. -/
example := C29_backed_partial x64_ok (e := .little) (t := .pair (.seq .cow (.prim .u16)) (.seq .vec (.str .owned))) (by decide)
  (base := 4097) (buf := [2, 0, 0, 0, 1, 0, 2, 0, 1, 0, 0, 0, 1, 0, 0, 0, 65]) (by decide) (.inl rfl) (5, 1, 4) (by decide)

end Cases

end Verif
