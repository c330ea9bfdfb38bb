import Verif.PropsCost
import Verif.PropsRecursive

/-!
# C65: at most six calls for a byte

`C65_calls_partial` has constants which depend on the type, and therefore says little about recursive types, of which every
level of nesting is a type of its own in the model.  For types without the attributes which make reading depend on
anything but the input read so far there is one constant for all: every number, length, flag or tag pays with its bytes for
the calls made for it and for the container behind it.
-/

namespace Verif

/-- With six calls paid by every byte, a value leaves the debt `d`, and a failure the debt `f`. -/
def Pays {α : Type} (d f : Int) (p : M α) : Prop :=
  ∀ c r, p.Wc (fun c' r' x => r' ≤ r ∧ match x with
    | .ok _ => (c' : Int) + 6 * r' ≤ c + 6 * r + d
    | .error _ => (c' : Int) + 6 * r' ≤ c + 6 * r + f) c r

section
variable {α β : Type} {d f : Int}

theorem Pays.mono {d' f' : Int} {p : M α} (h : Pays d f p) (hd : d ≤ d') (hf : f ≤ f') : Pays d' f' p :=
  fun c r => (h c r).mono fun c' r' x hx => ⟨hx.1, by
    have h2 := hx.2
    cases x <;> simp only at h2 ⊢ <;> omega⟩

theorem pays_pure (v : α) : Pays 0 f (M.pure v) := fun _ _ => ⟨Nat.le_refl _, by simp only; omega⟩

theorem pays_fail (er : Err) (hf : 0 ≤ f) : Pays d f (M.fail er : M α) := fun _ _ => ⟨Nat.le_refl _, by simp only; omega⟩

theorem pays_bind {d1 f1 d2 f2 : Int} {p : M α} {q : α → M β} (hp : Pays d1 f1 p) (hq : ∀ v, Pays d2 f2 (q v))
    (hd : d1 + d2 ≤ d) (h1 : f1 ≤ f) (h2 : d1 + f2 ≤ f) : Pays d f (M.bind p q) := fun c r => by
  refine Prog.Wc.bind ((hp c r).mono fun c' r' x hx => ?_)
  cases x with
  | error er => exact ⟨hx.1, by have := hx.2; simp only at this ⊢; omega⟩
  | ok v =>
    refine (hq v c' r').mono fun c'' r'' y hy => ⟨Nat.le_trans hy.1 hx.1, ?_⟩
    have h3 := hx.2
    have h4 := hy.2
    cases y <;> simp only at h3 h4 ⊢ <;> omega

theorem pays_check {p : M α} {q : α → M β} (hp : Pays d f p) (hf : d ≤ f) (hq : ∀ v, Pays 0 0 (q v)) :
    Pays d f (M.bind p q) := pays_bind hp hq (by omega) (Int.le_refl _) (by omega)

theorem pays_map {p : M α} (g : α → β) (hp : Pays d f p) : Pays d f (M.map g p) := fun c r => by
  refine Prog.Wc.bind ((hp c r).mono fun c' r' x hx => ?_)
  cases x with
  | error er => exact hx
  | ok v => exact hx

theorem pays_ite {c : Prop} [Decidable c] {p q : M α} (hp : c → Pays d f p) (hq : ¬ c → Pays d f q) :
    Pays d f (if c then p else q) := by
  split
  · exact hp ‹_›
  · exact hq ‹_›

theorem pays_readBytes (n : Nat) : Pays (1 - 6 * n) 1 (readBytes n) := fun c r =>
  ⟨fun hn bs hb => ⟨by omega, by simp only; omega⟩, fun er r' hr => ⟨hr, by simp only; omega⟩⟩

theorem pays_readNum (h' : Host) (e : Endian) (n : Nat) : Pays (2 - 6 * n) 2 (readNum h' e n) := fun c r o => by
  simp only
  split
  · exact ⟨Nat.le_refl _, by simp only; omega⟩
  · exact ⟨fun hn bs hb => ⟨by omega, by simp only; omega⟩, fun er r' hr => ⟨hr, by simp only; omega⟩⟩

/-- A number. -/
theorem pays_num (h' : Host) (e : Endian) {n : Nat} (hn : 1 ≤ n) : Pays (-3) 3 (readNum h' e n) :=
  (pays_readNum h' e n).mono (by omega) (by omega)

theorem pays_readVarint (h' : Host) (e : Endian) : Pays (-3) 3 (readVarint h' e) :=
  pays_bind (pays_readNum _ _ 1) (fun _ => pays_check ((pays_readBytes _).mono (d' := 1) (by omega) (Int.le_refl 1))
    (by omega) fun _ => pays_pure _) (by omega) (by omega) (by omega)

theorem pays_readLen (h' : Host) (e : Endian) (lt : LenTy) : Pays (-3) 3 (readLen h' e lt) := by
  cases lt <;> unfold readLen
  · exact pays_check (pays_num _ _ (by omega)) (by omega) fun _ => pays_ite (fun _ => pays_fail _ (by omega)) fun _ => pays_pure _
  · exact pays_num _ _ (by omega)
  · exact pays_num _ _ (by omega)
  · exact pays_num _ _ (by omega)
  · exact pays_check (pays_num _ _ (by omega)) (by omega) fun _ => pays_ite (fun _ => pays_fail _ (by omega)) fun _ => pays_pure _
  · exact pays_check (pays_readVarint _ _) (by omega) fun _ => pays_ite (fun _ => pays_fail _ (by omega)) fun _ => pays_pure _

/-- What is done with a length. -/
theorem pays_len {h' : Host} {e : Endian} {lr : LenR} (hl : lr.prefixed = true) {q : Option Nat → M α}
    (hq : ∀ n, Pays 3 9 (q (some n))) : Pays 0 6 (M.bind (readLenR h' e lr) q) := by
  cases lr with
  | typed lt dt =>
    cases dt with
    | true => cases hl
    | false =>
      intro c r
      refine Prog.Wc.bind (Prog.Wc.bind ((pays_readLen h' e lt c r).mono fun c' r' x hx => ?_))
      have h3 := hx.2
      cases x with
      | error er => exact ⟨hx.1, by simp only at h3 ⊢; omega⟩
      | ok n =>
        refine (hq n c' r').mono fun c'' r'' y hy => ⟨Nat.le_trans hy.1 hx.1, ?_⟩
        have h4 := hy.2
        cases y <;> simp only at h3 h4 ⊢ <;> omega
  | fixed n => cases hl
  | untilEof => cases hl

theorem pays_repeatM {p : M α} (hp : Pays 0 6 p) : ∀ n, Pays 0 6 (repeatM n p)
  | 0 => pays_pure _
  | n + 1 => pays_bind hp (fun v => pays_map (fun vs => v :: vs) (pays_repeatM hp n)) (by omega) (by omega) (by omega)

theorem pays_liftVals (el : Elem) (r : Except Panic (List Bytes)) : Pays 0 0 (liftVals el r) := by
  cases r with
  | error p => exact pays_fail _ (by omega)
  | ok ms => exact pays_pure _

theorem pays_canRead {n : Nat} {k : Option Bool → M α} (hk : ∀ o, Pays d f (k o)) : Pays (d + 1) (f + 1) (.canRead n k) :=
  fun c r o => (hk o (c + 1) r).mono fun c' r' x hx => ⟨hx.1, by
    have h2 := hx.2
    cases x <;> simp only at h2 ⊢ <;> omega⟩

theorem pays_alloc {n m : Nat} {p : M α} (hp : Pays d f p) : Pays d f (.alloc n m p) := hp

/-- A borrowed slice. -/
theorem pays_borrow {n : Nat} {k : Option (Except Err (Nat × Bytes)) → M α} (h0 : Pays d f (k none))
    (h1 : ∀ er, Pays d f (k (some (.error er)))) (h2 : ∀ x, Pays (d + 6 * n) f (k (some (.ok x)))) :
    Pays (d + 1) (f + 1) (.borrow n k) := fun c r =>
  ⟨fun hn a bs hb => (h2 (a, bs) (c + 1) (r - n)).mono fun c' r' x hx => ⟨by have := hx.1; omega, by
      have h2 := hx.2
      cases x <;> simp only at h2 ⊢ <;> omega⟩,
    fun er r1 hr => (h1 er (c + 1) r1).mono fun c' r' x hx => ⟨by have := hx.1; omega, by
      have h2 := hx.2
      cases x <;> simp only at h2 ⊢ <;> omega⟩,
    (h0 (c + 1) r).mono fun c' r' x hx => ⟨hx.1, by
      have h2 := hx.2
      cases x <;> simp only at h2 ⊢ <;> omega⟩⟩

theorem pays_borrowR {n : Nat} {k : Option (Except Err (Nat × Bytes)) → M α} (h0 : Pays d f (k none))
    (h1 : ∀ er, Pays d f (k (some (.error er)))) (h2 : ∀ x, Pays (d + 6 * n) f (k (some (.ok x)))) :
    Pays (d + 1) (f + 1) (.borrowR n k) := pays_borrow h0 h1 h2

theorem pays_borrowBytes (n : Nat) : Pays (1 - 6 * n) 1 (borrowBytes n) := by
  refine Pays.mono (d := -6 * n + 1) (f := 0 + 1) (pays_borrow (pays_fail _ (Int.le_refl 0))
    (fun _ => pays_fail _ (Int.le_refl 0)) fun x => ?_) (by omega) (by omega)
  exact (pays_pure _).mono (by omega) (Int.le_refl 0)

theorem pays_readVec (h' : Host) (e : Endian) {el : Elem} (hel : Pays 0 6 el.read) (n : Nat) :
    Pays 2 8 (readVec h' e el n) := by
  refine pays_ite (fun _ => pays_fail _ (by omega)) fun _ => pays_canRead (d := 1) (f := 7) fun o =>
    pays_ite (fun _ => pays_fail _ (by omega)) fun _ => pays_ite (fun _ => pays_fail _ (by omega)) fun _ => pays_alloc ?_
  refine pays_ite (fun _ => ?_) fun hp => pays_ite (fun _ => (pays_pure _).mono (by omega) (Int.le_refl _)) fun hs => ?_
  · exact (pays_check ((pays_readBytes _).mono (d' := 1) (by omega) (Int.le_refl 1)) (by omega) fun _ =>
      pays_liftVals _ _).mono (by omega) (by omega)
  · exact (pays_repeatM hel n).mono (by omega) (by omega)

/-- Elements in bulk. -/
theorem pays_readVec_bulk (h' : Host) (e : Endian) {el : Elem} (hp : el.prim = true) (n : Nat) :
    Pays (2 - 6 * (n * el.size : Nat)) 2 (readVec h' e el n) := by
  refine pays_ite (fun _ => pays_fail _ (by omega)) fun _ => (pays_canRead (d := 1 - 6 * (n * el.size : Nat)) (f := 1)
    fun o => pays_ite (fun _ => pays_fail _ (by omega)) fun _ => pays_ite (fun _ => pays_fail _ (by omega)) fun _ =>
    pays_alloc ?_).mono (by omega) (by omega)
  rw [if_pos hp]
  exact pays_check (pays_readBytes _) (by omega) fun _ => pays_liftVals _ _

theorem pays_cow (h' : Host) (e : Endian) {el : Elem} {n : Nat} (hv : Pays 2 8 (readVec h' e el n)) :
    Pays 3 9 (readCow h' e el n) := by
  refine pays_ite (fun _ => pays_borrow (d := 2) (f := 8) (pays_map _ hv) (fun _ => pays_fail _ (by omega)) fun x => ?_)
    fun _ => (pays_map _ hv).mono (by omega) (by omega)
  exact pays_ite (fun _ => pays_fail _ (by omega)) fun _ => pays_ite
    (fun _ => pays_ite (fun _ => pays_fail _ (by omega)) fun _ => (pays_pure _).mono (by omega) (Int.le_refl _)) fun _ =>
    pays_ite (fun _ => pays_fail _ (by omega)) fun _ => pays_alloc ((pays_pure _).mono (by omega) (Int.le_refl _))

theorem pays_readCollection (h' : Host) (e : Endian) {el : Elem} (hel : Pays 0 6 el.read) (n : Nat) :
    Pays 3 9 (readCollection h' e el n) := by
  refine pays_ite (fun _ => pays_ite (fun _ => pays_fail _ (by omega)) fun _ => (pays_borrowR (pays_repeatM hel n)
    (fun _ => pays_fail _ (by omega)) fun x => ?_).mono (by omega) (by omega)) fun _ =>
    (pays_repeatM hel n).mono (by omega) (by omega)
  exact pays_ite (fun _ => pays_fail _ (by omega)) fun _ => (pays_pure _).mono (by omega) (Int.le_refl _)

theorem pays_readPair {ek ev : Elem} (hk : Pays 0 6 ek.read) (hv : Pays 0 6 ev.read) : Pays 0 6 (readPair ek ev) :=
  pays_bind hk (fun _ => pays_map _ hv) (by omega) (by omega) (by omega)

theorem pays_readKV (h' : Host) (e : Endian) {ek ev : Elem} (hk : Pays 0 6 ek.read) (hv : Pays 0 6 ev.read) (n : Nat) :
    Pays 3 9 (readKV h' e ek ev n) := by
  have hp := pays_repeatM (pays_readPair hk hv) n
  refine pays_ite (fun _ => pays_ite (fun _ => pays_fail _ (by omega)) fun _ => (pays_borrowR hp
    (fun _ => pays_fail _ (by omega)) fun x => ?_).mono (by omega) (by omega)) fun _ => hp.mono (by omega) (by omega)
  exact pays_ite (fun _ => pays_fail _ (by omega)) fun _ => (pays_pure _).mono (by omega) (Int.le_refl _)

theorem pays_readDuration (h' : Host) (e : Endian) : Pays (-3) 3 (readDuration h' e) :=
  pays_bind (pays_num _ _ (by omega)) (fun _ => pays_check (pays_num _ _ (by omega)) (by omega) fun _ =>
    pays_ite (fun _ => pays_pure _) fun _ => pays_fail _ (by omega)) (by omega) (by omega) (by omega)

theorem pays_readIpv6 (h' : Host) (e : Endian) : Pays (-3) 3 (readIpv6 h' e) :=
  pays_map _ ((pays_readBytes 16).mono (by omega) (by omega))

theorem pays_readBool (h' : Host) (e : Endian) : Pays (-3) 3 (readBool h' e) := pays_map _ (pays_num _ _ (by omega))

theorem pays_convert (cv : Conv) (v : Val) : Pays 0 0 (convert cv v) := by
  unfold convert
  cases cv.apply v with
  | ok w => exact pays_pure _
  | error er => exact pays_fail _ (by omega)

theorem pays_asStr (bs : Bytes) : Pays 0 0 (asStr bs) :=
  pays_ite (fun _ => pays_pure _) fun _ => pays_fail _ (by omega)

theorem pays_readTag (h' : Host) (e : Endian) {d : EnumDesc} (hd : d.peek = false) : Pays (-3) 3 (readTag h' e d) := by
  obtain ⟨lt, pk⟩ := d
  cases hd
  cases lt
  case varint => exact pays_readVarint _ _
  all_goals exact pays_num _ _ (by simp [LenTy.minSize])

theorem pays_u8 {T : Target} {e : Endian} : Pays 0 6 (u8Elem T e).read :=
  pays_map _ ((pays_num _ _ (by omega)).mono (by omega) (by omega))

theorem pays_readConstant {T : Target} {e : Endian} {cs : Bytes} (hc : cs.isEmpty = false) :
    Pays (-3) 3 (readConstant T.toHost e (u8Elem T e) cs) := by
  have hl : 1 ≤ cs.length := by cases cs <;> simp_all
  refine (pays_borrow (d := 2 - 6 * cs.length) (f := 2) ?_ (fun _ => pays_fail _ (by omega)) fun x => ?_).mono (by omega)
    (by omega)
  · have h := pays_readVec_bulk T.toHost e (el := u8Elem T e) rfl cs.length
    have h1 : cs.length * (u8Elem T e).size = cs.length := Nat.mul_one _
    rw [h1] at h
    exact pays_check h (by omega) fun _ => pays_ite (fun _ => pays_pure _) fun _ => pays_fail _ (by omega)
  · exact pays_ite (fun _ => (pays_pure _).mono (by omega) (Int.le_refl _)) fun _ => pays_fail _ (by omega)

theorem pays_readStr {T : Target} {e : Endian} (k : StrKind) (n : Nat) : Pays 3 9 (readStr T e k (some n)) := by
  have hv := pays_readVec T.toHost e (el := u8Elem T e) pays_u8 n
  cases k <;> unfold readStr
  · exact pays_check (hv.mono (by omega) (by omega)) (by omega) fun _ => pays_asStr _
  · exact pays_check (pays_cow _ _ hv) (by omega) fun _ => pays_asStr _
  · exact pays_check ((pays_borrowBytes _).mono (by omega) (by omega)) (by omega) fun _ => pays_asStr _

theorem pays_readSeq {T : Target} {e : Endian} (k : SeqKind) {el : Elem} (hel : Pays 0 6 el.read) (n : Nat) :
    Pays 3 9 (readSeq T e k el (some n)) := by
  have hv := pays_readVec T.toHost e hel n
  cases k <;> unfold readSeq
  · exact pays_map _ (hv.mono (by omega) (by omega))
  · exact pays_map _ (pays_cow _ _ hv)
  · exact pays_map _ (pays_ite (fun _ => pays_fail _ (by omega)) fun _ =>
      pays_check ((pays_borrowBytes _).mono (by omega) (by omega)) (by omega) fun _ => pays_pure _)

theorem pays_readArray {T : Target} {e : Endian} {inl : Bool} {el : Elem} (hel : Pays 0 6 el.read) {n : Nat}
    (hn : n ≠ 0) (hz : el.size ≠ 0) : Pays 0 6 (readArray T e inl el n) := by
  refine pays_ite (fun _ => ?_) fun _ => pays_map _ (pays_repeatM hel n)
  have h1 : 1 ≤ n * el.size := Nat.mul_pos (Nat.pos_of_ne_zero hn) (Nat.pos_of_ne_zero hz)
  exact pays_check ((pays_readBytes _).mono (by omega) (by omega)) (by omega) fun _ => pays_map _ (pays_liftVals _ _)

end

/-! ## Types -/

mutual
/-- Every part which is read takes bytes of its own: lengths are in front of the containers, nothing is replaced by a default
at the end of the input, tags of enums are not only looked at, arrays have elements with memory. -/
def paying (T : Target) : Ty → Bool
  | .seq _ t | .set t | .option t | .range t | .rangeInc t | .box t | .via _ t => paying T t
  | .map a b | .result a b | .pair a b => paying T a && paying T b
  | .array n t => n != 0 && sizeOf T t != 0 && paying T t
  | .refArray n t => n != 0 && sizeOf T t != 0
  | .struct _ fs => payingFields T fs
  | .enum d vs => !d.peek && payingVariants T vs
  | _ => true
/-- Fields. -/
def payingFields (T : Target) : Fields → Bool
  | .nil => true
  | .cons a t fs => (a.skip || (!a.defaultOnEof && a.prefixed && (a.varint || paying T t))) && payingFields T fs
/-- Variants. -/
def payingVariants (T : Target) : Variants → Bool
  | .nil => true
  | .cons _ fs vs => payingFields T fs && payingVariants T vs
end

section
variable {T : Target} {e : Endian}

theorem std_prefixed : Cx.std.len.prefixed = true := rfl

mutual
theorem decode_pays : ∀ (t : Ty) (cx : Cx), cx.len.prefixed = true → paying T t = true → Pays 0 6 (decode T e t cx)
  | .prim p, _, _, _ => by
    unfold decode; exact pays_map _ ((pays_num _ _ (prim_size_pos p)).mono (by omega) (by omega))
  | .usize, _, _, _ => by
    unfold decode
    exact pays_check ((pays_num _ _ (by omega)).mono (by omega) (by omega)) (by omega) fun _ =>
      pays_ite (fun _ => pays_fail _ (by omega)) fun _ => pays_pure _
  | .bool, _, _, _ => by unfold decode; exact pays_map _ ((pays_readBool _ _).mono (by omega) (by omega))
  | .char, _, _, _ => by
    unfold decode
    exact pays_check ((pays_num _ _ (by omega)).mono (by omega) (by omega)) (by omega) fun _ =>
      pays_ite (fun _ => pays_pure _) fun _ => pays_fail _ (by omega)
  | .nonZero p, _, _, _ => by
    unfold decode
    exact pays_check ((pays_num _ _ (prim_size_pos p)).mono (by omega) (by omega)) (by omega) fun _ =>
      pays_ite (fun _ => pays_fail _ (by omega)) fun _ => pays_pure _
  | .atomic p, _, _, _ => by
    unfold decode; exact pays_map _ ((pays_num _ _ (prim_size_pos p)).mono (by omega) (by omega))
  | .ipv4, _, _, _ => by unfold decode; exact pays_map _ ((pays_num _ _ (by omega)).mono (by omega) (by omega))
  | .ipv6, _, _, _ => by unfold decode; exact (pays_readIpv6 _ _).mono (by omega) (by omega)
  | .ipAddr, _, _, _ => by
    unfold decode
    exact pays_bind (pays_num _ _ (by omega)) (fun _ => pays_ite (fun _ => pays_map _ (pays_num _ _ (by omega))) fun _ =>
      pays_ite (fun _ => pays_map _ (pays_readIpv6 _ _)) fun _ => pays_fail _ (by omega)) (by omega) (by omega) (by omega)
  | .duration, _, _, _ => by unfold decode; exact pays_map _ ((pays_readDuration _ _).mono (by omega) (by omega))
  | .systemTime, _, _, _ => by
    unfold decode
    exact pays_check ((pays_readDuration _ _).mono (by omega) (by omega)) (by omega) fun _ =>
      pays_ite (fun _ => pays_pure _) fun _ => pays_fail _ (by omega)
  | .endianness, _, _, _ => by
    unfold decode
    exact pays_check ((pays_num _ _ (by omega)).mono (by omega) (by omega)) (by omega) fun _ =>
      pays_ite (fun _ => pays_pure _) fun _ => pays_ite (fun _ => pays_pure _) fun _ => pays_fail _ (by omega)
  | .varint64, _, _, _ => by unfold decode; exact pays_map _ ((pays_readVarint _ _).mono (by omega) (by omega))
  | .uuid, _, _, _ => by unfold decode; exact pays_map _ ((pays_readBytes _).mono (by omega) (by omega))
  | .unit, _, _, _ => by unfold decode; exact pays_pure _
  | .str k, cx, hx, _ => by unfold decode; exact pays_len hx fun n => pays_readStr k n
  | .seq k t, cx, hx, hp => by
    unfold decode
    simp only [paying] at hp
    exact pays_ite (fun _ => pays_fail _ (by omega)) fun _ => pays_len hx fun n =>
      pays_readSeq k (el := elemOf T t (decode T e t Cx.std)) (decode_pays t Cx.std rfl hp) n
  | .set t, cx, hx, hp => by
    unfold decode
    simp only [paying] at hp
    exact pays_len hx fun n =>
      pays_map _ (pays_readCollection _ _ (el := elemOf T t (decode T e t Cx.std)) (decode_pays t Cx.std rfl hp) n)
  | .map k v, cx, hx, hp => by
    unfold decode
    simp only [paying, Bool.and_eq_true] at hp
    exact pays_len hx fun n => pays_map _ (pays_readKV _ _ (ek := elemOf T k (decode T e k Cx.std))
      (ev := elemOf T v (decode T e v Cx.std)) (decode_pays k Cx.std rfl hp.1) (decode_pays v Cx.std rfl hp.2) n)
  | .array n t, cx, hx, hp => by
    unfold decode
    simp only [paying, Bool.and_eq_true, bne_iff_ne] at hp
    exact pays_readArray (el := elemOf T t (decode T e t Cx.std)) (decode_pays t Cx.std rfl hp.2) hp.1.1 hp.1.2
  | .refArray n t, _, _, hp => by
    unfold decode
    simp only [paying, Bool.and_eq_true, bne_iff_ne] at hp
    have h1 : 1 ≤ sizeOf T t * n := Nat.mul_pos (Nat.pos_of_ne_zero hp.2) (Nat.pos_of_ne_zero hp.1)
    exact pays_ite (fun _ => pays_fail _ (by omega)) fun _ =>
      pays_map _ ((pays_borrowBytes _).mono (by omega) (by omega))
  | .option t, cx, hx, hp => by
    unfold decode
    simp only [paying] at hp
    exact pays_bind (pays_readBool _ _) (fun _ => pays_ite
      (fun _ => pays_map _ (decode_pays t (cx.opt t) (by cases t <;> first | exact hx | rfl) hp))
      fun _ => pays_pure _) (by omega) (by omega) (by omega)
  | .result t er, cx, hx, hp => by
    unfold decode
    simp only [paying, Bool.and_eq_true] at hp
    exact pays_bind (pays_readBool _ _) (fun _ => pays_ite (fun _ => pays_map _ (decode_pays t Cx.std rfl hp.1))
      fun _ => pays_map _ (decode_pays er Cx.std rfl hp.2)) (by omega) (by omega) (by omega)
  | .range t, cx, hx, hp => by
    unfold decode
    simp only [paying] at hp
    have ih := decode_pays t Cx.std rfl hp
    exact pays_bind ih (fun _ => pays_map _ ih) (by omega) (by omega) (by omega)
  | .rangeInc t, cx, hx, hp => by
    unfold decode
    simp only [paying] at hp
    have ih := decode_pays t Cx.std rfl hp
    exact pays_bind ih (fun _ => pays_map _ ih) (by omega) (by omega) (by omega)
  | .pair a b, cx, hx, hp => by
    unfold decode
    simp only [paying, Bool.and_eq_true] at hp
    exact pays_bind (decode_pays a Cx.std rfl hp.1) (fun _ => pays_map _ (decode_pays b Cx.std rfl hp.2))
      (by omega) (by omega) (by omega)
  | .box t, cx, hx, hp => by
    unfold decode
    simp only [paying] at hp
    exact decode_pays t Cx.std rfl hp
  | .via c t, cx, hx, hp => by
    unfold decode
    simp only [paying] at hp
    exact pays_check (decode_pays t Cx.std rfl hp) (by omega) fun _ => pays_convert _ _
  | .struct d fs, cx, hx, hp => by
    unfold decode
    simp only [paying] at hp
    exact decodeFields_pays fs [] hp
  | .enum d vs, cx, hx, hp => by
    unfold decode
    simp only [paying, Bool.and_eq_true, Bool.not_eq_true'] at hp
    exact pays_bind (pays_readTag _ _ hp.1) (fun tag => decodeVariants_pays vs tag 0 hp.2) (by omega) (by omega) (by omega)
theorem decodeFields_pays : ∀ (fs : Fields) (prev : List Val), payingFields T fs = true →
    Pays 0 6 (decodeFields T e fs prev)
  | .nil, _, _ => by unfold decodeFields; exact pays_pure _
  | .cons a t fs, prev, hp => by
    unfold decodeFields
    simp only [payingFields, Bool.and_eq_true, Bool.or_eq_true, Bool.not_eq_true'] at hp
    refine pays_ite (fun _ => pays_map _ (decodeFields_pays fs prev hp.2)) fun hk => ?_
    have hq := hp.1.resolve_left hk
    have h1 : Pays 0 6 (if a.varint then M.map .num (readVarint T.toHost e) else decode T e t (a.cx T.toHost prev)) := by
      refine pays_ite (fun _ => pays_map _ ((pays_readVarint _ _).mono (by omega) (by omega))) fun hv =>
        decode_pays t _ ?_ (hq.2.resolve_left hv)
      have h3 := hq.1.2
      unfold Attrs.prefixed at h3
      unfold Attrs.cx Attrs.wcx
      rw [hq.1.1]
      cases ho : a.opaqueTy with
      | true => rfl
      | false =>
        rw [ho] at h3
        rcases hl : a.len with _ | ⟨_ | _ | _⟩ <;> rw [hl] at h3 <;> first | rfl | cases h3
    have h2 : Pays 0 6 (if a.pre.isEmpty then
        (if a.varint then M.map .num (readVarint T.toHost e) else decode T e t (a.cx T.toHost prev))
        else M.bind (readConstant T.toHost e (u8Elem T e) a.pre) fun _ =>
          (if a.varint then M.map .num (readVarint T.toHost e) else decode T e t (a.cx T.toHost prev))) :=
      pays_ite (fun _ => h1) fun hpre => pays_bind (pays_readConstant (by simpa using hpre)) (fun _ => h1)
        (by omega) (by omega) (by omega)
    simp only [hq.1.1, Bool.false_eq_true, if_false]
    exact pays_bind h2 (fun v => pays_map _ (decodeFields_pays fs _ hp.2)) (by omega) (by omega) (by omega)
theorem decodeVariants_pays : ∀ (vs : Variants) (tag i : Nat), payingVariants T vs = true →
    Pays 0 6 (decodeVariants T e vs tag i)
  | .nil, _, _, _ => by unfold decodeVariants; exact pays_fail _ (by omega)
  | .cons tag' fs vs, tag, i, hp => by
    unfold decodeVariants
    simp only [payingVariants, Bool.and_eq_true] at hp
    exact pays_ite (fun _ => pays_map _ (decodeFields_pays fs [] hp.1)) fun _ => decodeVariants_pays vs tag (i + 1) hp.2
end
end

/-- **C65**, one constant for all types whose every part takes bytes of its own: whatever the reader answers, and whether or
not a value comes out, at most six calls are made for every byte taken, and six more. -/
theorem C65_six_partial {T : Target} {e : Endian} {t : Ty} (ht : paying T t = true) {σ : Type} {exact : Bool}
    {R : ReaderOps σ} {Inv : σ → Prop} {pend : σ → Bytes} (O : Orderly exact R Inv pend) {s : σ} (hs : Inv s) :
    (decode T e t Cx.std).callCount R s ≤
      6 * ((pend s).length - (pend ((decode T e t Cx.std).run R s).2).length) + 6 := by
  have h := O.callCount (c := 0) hs (decode_pays (e := e) t Cx.std rfl ht 0 (pend s).length)
  have h1 := h.2
  have h2 := h.1
  split at h1 <;> omega

/-! ## Recursive types -/

mutual
theorem paying_fill {T : Target} (hB : Blind T) {u u' : EnumDesc → Ty} (hu : ∀ d, erase (u d) = erase (u' d))
    (hp : ∀ d, paying T (u d) = paying T (u' d)) : ∀ (c : Ty), paying T (fill u c) = paying T (fill u' c)
  | .seq _ t | .set t | .option t | .range t | .rangeInc t | .box t | .via _ t => by
    simp only [fill, paying, paying_fill hB hu hp t]
  | .map a b | .result a b | .pair a b => by simp only [fill, paying, paying_fill hB hu hp a, paying_fill hB hu hp b]
  | .array n t => by simp only [fill, paying, paying_fill hB hu hp t, size_fill hB hu t]
  | .refArray n t => by simp only [fill, paying, size_fill hB hu t]
  | .struct d fs => by simp only [fill, paying, payingFields_fill hB hu hp fs]
  | .enum d .nil => by simpa only [fill] using hp d
  | .enum d (.cons tag fs vs) => by
    simp only [fill, paying, payingVariants, payingFields_fill hB hu hp fs, payingVariants_fill hB hu hp vs]
  | .prim _ | .usize | .bool | .char | .nonZero _ | .atomic _
  | .ipv4 | .ipv6 | .ipAddr | .duration | .systemTime | .endianness
  | .varint64 | .uuid | .str _ | .unit => by simp only [fill]
theorem payingFields_fill {T : Target} (hB : Blind T) {u u' : EnumDesc → Ty} (hu : ∀ d, erase (u d) = erase (u' d))
    (hp : ∀ d, paying T (u d) = paying T (u' d)) : ∀ (fs : Fields),
    payingFields T (fillFields u fs) = payingFields T (fillFields u' fs)
  | .nil => rfl
  | .cons a t fs => by simp only [fillFields, payingFields, paying_fill hB hu hp t, payingFields_fill hB hu hp fs]
theorem payingVariants_fill {T : Target} (hB : Blind T) {u u' : EnumDesc → Ty} (hu : ∀ d, erase (u d) = erase (u' d))
    (hp : ∀ d, paying T (u d) = paying T (u' d)) : ∀ (vs : Variants),
    payingVariants T (fillVariants u vs) = payingVariants T (fillVariants u' vs)
  | .nil => rfl
  | .cons tag fs vs => by
    simp only [fillVariants, payingVariants, payingFields_fill hB hu hp fs, payingVariants_fill hB hu hp vs]
end

theorem unroll_shape {c : EnumDesc → Ty} (hg : ∀ d, guarded (c d) = true) :
    ∀ n d, erase (unroll c (n + 1) d) = erase (unroll c (n + 2) d)
  | 0, d => erase_guarded _ _ (c d) (hg d)
  | n + 1, d => erase_fill (unroll_shape hg n) (c d)

section
variable {T : Target} {c : EnumDesc → Ty} (hB : Blind T) (hg : ∀ d, guarded (c d) = true)
  (hp : ∀ d, paying T (unroll c 1 d) = true ∧ paying T (unroll c 2 d) = true)
include hB hg hp

theorem paying_unroll : ∀ n d, paying T (unroll c (n + 1) d) = true ∧ paying T (unroll c (n + 2) d) = true
  | 0, d => hp d
  | n + 1, d => by
    refine ⟨(paying_unroll n d).2, ?_⟩
    rw [← (paying_unroll n d).2]
    exact (paying_fill hB (unroll_shape hg n)
      (fun d => by rw [(paying_unroll n d).1, (paying_unroll n d).2]) (c d)).symm

/-- **C65**, recursive types: the constants do not depend on how deep the values are nested. -/
theorem C65_recursive_partial {e : Endian} {σ : Type} {exact : Bool} {R : ReaderOps σ} {Inv : σ → Prop}
    {pend : σ → Bytes} (O : Orderly exact R Inv pend) {s : σ} (hs : Inv s) (n : Nat) (d : EnumDesc) :
    (decode T e (unroll c (n + 1) d) Cx.std).callCount R s ≤
      6 * ((pend s).length - (pend ((decode T e (unroll c (n + 1) d) Cx.std).run R s).2).length) + 6 :=
  C65_six_partial (paying_unroll hB hg hp n d).1 O hs

end

/-- The conditions for groups of types. -/
theorem group_paying {T : Target} {t : Ty} {ts : List Ty}
    (h : ((t :: ts).all fun m => guarded m && paying T (fill (unroll (group t ts) 0) m) &&
      paying T (fill (unroll (group t ts) 1) m)) = true) :
    (∀ d, guarded (group t ts d) = true) ∧
      ∀ d, paying T (unroll (group t ts) 1 d) = true ∧ paying T (unroll (group t ts) 2 d) = true := by
  have hm : ∀ d, _ := fun d => List.all_eq_true.mp h _ (group_mem t ts d)
  simp only [Bool.and_eq_true] at hm
  exact ⟨fun d => (hm d).1.1, fun d => ⟨(hm d).1.2, (hm d).2⟩⟩

open Samples in
/-- Trees, lists, expressions, folders. -/
example {e : Endian} {σ : Type} {exact : Bool} {R : ReaderOps σ} {Inv : σ → Prop} {pend : σ → Bytes}
    (O : Orderly exact R Inv pend) {s : σ} (hs : Inv s) (n : Nat) :
    (∀ c ∈ [group treeT [], group listT [], group exprT [], group (folders folderHole) [folders entryHole]], ∀ d,
      (decode x64 e (unroll c (n + 1) d) Cx.std).callCount R s ≤
      6 * ((pend s).length - (pend ((decode x64 e (unroll c (n + 1) d) Cx.std).run R s).2).length) + 6) := by
  intro c hc d
  have h : (∀ d, guarded (c d) = true) ∧ ∀ d, paying x64 (unroll c 1 d) = true ∧ paying x64 (unroll c 2 d) = true := by
    simp only [List.mem_cons, List.mem_nil_iff, or_false] at hc
    rcases hc with rfl | rfl | rfl | rfl <;> exact group_paying (by decide)
  exact C65_recursive_partial x64_blind h.1 h.2 O hs n d

/-! ## Cases -/

section Cases
open Samples

open Samples in
example := C65_six_partial (T := x64) (e := .little) (t := .seq .vec (.str .owned)) (by decide) (bufferReader_orderly Host.x64)
  (BufSt.init_inv (base := 4096) (buf := [2, 0, 0, 0, 1, 0, 0, 0, 65, 0, 0, 0, 0]) (by decide))

end Cases

end Verif
