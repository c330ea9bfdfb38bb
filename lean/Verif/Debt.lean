import Verif.Heap
import Verif.PropsSteps

/-!
# Memory at a given rate

`memPerByte` adds up what the containers around a value take, and is of no use for recursive types.  Here every byte pays for `a`
bytes of memory; `owed` is what remains to be paid for a value, and is negative if its bytes pay for more than the value itself has on
the heap.  In a container every element has to pay for its place.
-/

namespace Verif

/-- Values of skipped fields, and defaults, with nothing on the heap. -/
def bare : Ty → Val → Bool
  | .option _, .none | .seq _ _, .list [] | .set _, .list [] | .map _ _, .list [] | .str _, .bytes [] => true
  | .prim _, _ | .bool, _ | .usize, _ | .char, _ => true
  | _, _ => false

theorem bare_heap {T : Target} {t : Ty} {v : Val} (h : bare t v = true) : heap T t v = 0 := by
  unfold bare at h
  split at h
  · simp [heap]
  · rename_i k t; cases k <;> simp [heap, total]
  · simp [heap, total]
  · simp [heap, total]
  · rename_i k; cases k <;> simp [heap]
  · simp [heap]
  · simp [heap]
  · simp [heap]
  · simp [heap]
  · cases h

mutual
/-- What remains to be paid if every byte pays for `a`. -/
def owed (T : Target) (a : Nat) (pfx : Bool) : Ty → Int
  | .str _ | .seq _ _ | .set _ | .map _ _ => if pfx then -(a : Int) else 0
  | .unit | .refArray _ _ => 0
  | .array n t => n * max 0 (owed T a true t)
  | .option t => -(a : Int) + max 0 (owed T a pfx t)
  | .result x y => -(a : Int) + max 0 (max (owed T a true x) (owed T a true y))
  | .range t | .rangeInc t => owed T a true t + owed T a true t
  | .pair x y => owed T a true x + owed T a true y
  | .box t => sizeOf T t + owed T a true t
  | .via _ t => owed T a true t
  | .struct _ fs => owedFields T a fs
  | .enum d vs => (if d.peek then 0 else -(a : Int)) + owedVariants T a vs
  | _ => -(a : Int)
/-- Fields. -/
def owedFields (T : Target) (a : Nat) : Fields → Int
  | .nil => 0
  | .cons at' t fs =>
    (if at'.skip then 0
      else if at'.defaultOnEof then max 0 (if at'.varint then -(a : Int) else owed T a false t)
      else if at'.varint then -(a : Int) else owed T a at'.prefixed t) + owedFields T a fs
/-- Variants. -/
def owedVariants (T : Target) (a : Nat) : Variants → Int
  | .nil => 0
  | .cons _ fs vs => max (owedFields T a fs) (owedVariants T a vs)
end

mutual
/-- Every element of a container pays for its place (unless its bytes are its memory, or it has none). -/
def bears (T : Target) (a : Nat) (rest : Bool) : Ty → Bool
  | .seq .ref _ => true
  | .seq _ t => (decide (owed T a true t + sizeOf T t ≤ 0) || (!rest && (isPrimitive T t || sizeOf T t == 0))) && bears T a false t
  | .set t => decide (owed T a true t + sizeOf T t ≤ 0) && bears T a false t
  | .map k v => decide (owed T a true k + owed T a true v + (sizeOf T k + sizeOf T v) ≤ 0) && bears T a false k && bears T a false v
  | .option t => bears T a rest t
  | .array _ t | .range t | .rangeInc t | .box t | .via _ t => bears T a false t
  | .result x y | .pair x y => bears T a false x && bears T a false y
  | .struct _ fs => bearsFields T a fs
  | .enum _ vs => bearsVariants T a vs
  | _ => true
/-- Fields. -/
def bearsFields (T : Target) (a : Nat) : Fields → Bool
  | .nil => true
  | .cons at' t fs => (at'.skip || at'.varint || bears T a at'.toEnd t) &&
      (!(at'.skip || at'.defaultOnEof) || at'.varint || bare t at'.dflt) && bearsFields T a fs
/-- Variants. -/
def bearsVariants (T : Target) (a : Nat) : Variants → Bool
  | .nil => true
  | .cons _ fs vs => bearsFields T a fs && bearsVariants T a vs
end

/-- `Fills` with a constant which may be negative. -/
def Owes {α : Type} (w : α → Nat) (a : Nat) (d : Int) (p : M α) : Prop :=
  ∀ c r, p.Wc (fun _ r' x => r' ≤ r ∧ ∀ v, x = .ok v → (w v : Int) + (a * r' : Nat) ≤ (a * r : Nat) + d) c r

section
variable {α β : Type} {w : α → Nat} {w' : β → Nat} {a : Nat} {d d' : Int}

theorem Owes.mono {p : M α} (h : Owes w a d p) (hd : d ≤ d') : Owes w a d' p := fun c r =>
  (h c r).mono fun c' r' x hx => ⟨hx.1, fun v hv => by have := hx.2 v hv; omega⟩

theorem Fills.owes {b : Nat} {p : M α} (h : Fills w a b p) (hd : (b : Int) ≤ d) : Owes w a d p := fun c r =>
  (h c r).mono fun c' r' x hx => ⟨hx.1, fun v hv => by have := hx.2 v hv; omega⟩

theorem Owes.fills {b : Nat} {p : M α} (h : Owes w a d p) (hd : d ≤ b) : Fills w a b p := fun c r =>
  (h c r).mono fun c' r' x hx => ⟨hx.1, fun v hv => by have := hx.2 v hv; omega⟩

/-- With the place in the container. -/
theorem Owes.placed {s : Nat} {p : M α} (h : Owes w a d p) (hd : d + s ≤ 0) : Fills (fun v => s + w v) a 0 p := fun c r =>
  (h c r).mono fun c' r' x hx => ⟨hx.1, fun v hv => by
    have := hx.2 v hv
    show s + w v + _ ≤ _
    omega⟩

theorem owes_pure {v : α} (h : (w v : Int) ≤ d) : Owes w a d (M.pure v) := fun _ _ => ⟨Nat.le_refl _, fun x hx => by cases hx; omega⟩

theorem owes_fail (er : Err) : Owes w a d (M.fail er : M α) := fun _ _ => ⟨Nat.le_refl _, fun _ h => by cases h⟩

theorem owes_bind {p : M α} {f : α → M β} (hp : Owes w a d p) (hf : ∀ v, Owes w' a (w v + d') (f v)) :
    Owes w' a (d + d') (M.bind p f) := fun c r => by
  refine Prog.Wc.bind ((hp c r).mono fun c' r' x hx => ?_)
  cases x with
  | error er => exact ⟨hx.1, fun _ h => by cases h⟩
  | ok v =>
    refine (hf v c' r').mono fun c'' r'' y hy => ⟨Nat.le_trans hy.1 hx.1, fun z hz => ?_⟩
    have := hx.2 v rfl
    have := hy.2 z hz
    omega

theorem owes_map {p : M α} {f : α → β} (hp : Owes w a d p) (h : ∀ v, w' (f v) ≤ w v) : Owes w' a d (M.map f p) :=
  (owes_bind (d' := 0) hp fun v => owes_pure (by have := h v; omega)).mono (by omega)

theorem owes_ite {c : Prop} [Decidable c] {p q : M α} (hp : c → Owes w a d p) (hq : ¬ c → Owes w a d q) :
    Owes w a d (if c then p else q) := by
  split
  · exact hp ‹_›
  · exact hq ‹_›

/-- A value without weight which takes a byte. -/
theorem owes_leaf {p : M α} {x y : Nat} (hp : Costs x y 1 p) (h : ∀ v, w v = 0) : Owes w a (-(a : Int)) p := fun c r =>
  (hp c r).mono fun c' r' z hz => ⟨hz.1, fun v hv => by
    have h1 := Nat.mul_le_mul_left a (hz.2.2 v hv)
    rw [Nat.mul_add, Nat.mul_one] at h1
    rw [h v]
    omega⟩

/-- The same, and what follows. -/
theorem owes_then {p : M α} {x y : Nat} {f : α → M β} (hp : Costs x y 1 p) (hf : ∀ v, Owes w' a d (f v)) :
    Owes w' a (-(a : Int) + d) (M.bind p f) :=
  owes_bind (w := fun _ => 0) (owes_leaf hp fun _ => rfl) fun v => (hf v).mono (by omega)

theorem owes_onEof {p : M α} (hp : Owes w a d p) {v : α} (hv : (w v : Int) ≤ d) : Owes w a d (onEof p v) := fun c r => by
  refine Prog.Wc.bind ((hp c r).mono fun c' r' x hx => ?_)
  cases x with
  | ok z => exact ⟨hx.1, fun z' hz => by cases hz; exact hx.2 z rfl⟩
  | error er =>
    simp only
    split
    · refine ⟨hx.1, fun z hz => ?_⟩
      cases hz
      have : a * r' ≤ a * r := Nat.mul_le_mul_left _ hx.1
      omega
    · exact ⟨hx.1, fun _ h => by cases h⟩

theorem owes_len {h : Host} {e : Endian} {lr : LenR} {pfx : Bool} (hp : pfx = true → lr.prefixed = true) {f : Option Nat → M α}
    (hf : ∀ len, (len = none → lr.isRest = true) → Fills w a 0 (f len)) :
    Owes w a (if pfx then -(a : Int) else 0) (M.bind (readLenR h e lr) f) := by
  cases pfx with
  | false => exact (fill_len lr hf).owes (Int.le_refl _)
  | true =>
    have hp := hp rfl
    cases lr with
    | fixed n => cases hp
    | untilEof => cases hp
    | typed lt dt =>
      cases dt with
      | true => cases hp
      | false =>
        have h1 : Owes (fun _ => 0) a (-(a : Int)) (readLen h e lt) := owes_leaf (cost_readLen _ _ _) fun _ => rfl
        intro c r
        refine Prog.Wc.bind (Prog.Wc.bind ((h1 c r).mono fun c' r' x hx => ?_))
        cases x with
        | error er => exact ⟨hx.1, fun _ h => by cases h⟩
        | ok n =>
          refine (hf (some n) (by simp) c' r').mono fun c'' r'' y hy => ⟨Nat.le_trans hy.1 hx.1, fun v hv => ?_⟩
          have h2 := hx.2 n rfl
          have h3 := hy.2 v hv
          simp only [if_true]
          omega

end

theorem leaf_costs {T : Target} {e : Endian} {t : Ty} {cx : Cx} {rest : Bool} (he : eats T cx.len.prefixed t = true)
    (hr : cx.len.isRest = true → rest = true) (hs : steady T rest t = true) :
    Costs (callsPerByte t) (ownCalls t) 1 (decode T e t cx) := by
  have h := decode_costs (e := e) t cx rest hr hs
  rw [he] at h
  exact h

section
variable {T : Target} (hT : T.Ok) {a : Nat} (ha : 1 ≤ a) {e : Endian}
include hT ha

theorem seq_owes {k : SeqKind} (hk : k ≠ .ref) {t : Ty} {cx : Cx} {rest : Bool} (hr : cx.len.isRest = true → rest = true) {d : Int}
    (hl : layoutOk T t = true) (h1 : (decide (d + sizeOf T t ≤ 0) || (!rest && (isPrimitive T t || sizeOf T t == 0))) = true)
    (ih : Owes (heap T t) a d (decode T e t Cx.std)) {pfx : Bool} (hp : pfx = true → cx.len.prefixed = true) :
    Owes (heap T (.seq k t)) a (if pfx then -(a : Int) else 0) (decode T e (.seq k t) cx) := by
  unfold decode
  refine owes_ite (fun _ => owes_fail _) fun _ => owes_len hp fun len hn => ?_
  refine fill_readSeq hT hk (elem_fills hT hl _ (.inr ha)) len ?_
  rw [Bool.or_eq_true] at h1
  rcases h1 with h1 | h1
  · exact .inl (ih.placed (of_decide_eq_true h1))
  · simp only [Bool.and_eq_true, Bool.or_eq_true, Bool.not_eq_true', beq_iff_eq] at h1
    refine .inr ⟨fun h => ?_, h1.2⟩
    have h2 := hr (hn h)
    rw [h1.1] at h2
    cases h2

mutual
theorem decode_owes : ∀ (t : Ty) (cx : Cx) (pfx rest : Bool), (pfx = true → cx.len.prefixed = true) →
    (cx.len.isRest = true → rest = true) → bears T a rest t = true → layoutOk T t = true →
    Owes (heap T t) a (owed T a pfx t) (decode T e t cx)
  | .prim p, cx, pfx, rest, hp, hr, hs, _ | .nonZero p, cx, pfx, rest, hp, hr, hs, _ | .atomic p, cx, pfx, rest, hp, hr, hs, _
  | .usize, cx, pfx, rest, hp, hr, hs, _ | .bool, cx, pfx, rest, hp, hr, hs, _ | .char, cx, pfx, rest, hp, hr, hs, _
  | .ipv4, cx, pfx, rest, hp, hr, hs, _ | .ipv6, cx, pfx, rest, hp, hr, hs, _
  | .ipAddr, cx, pfx, rest, hp, hr, hs, _ | .duration, cx, pfx, rest, hp, hr, hs, _ | .systemTime, cx, pfx, rest, hp, hr, hs, _
  | .endianness, cx, pfx, rest, hp, hr, hs, _ | .varint64, cx, pfx, rest, hp, hr, hs, _ | .uuid, cx, pfx, rest, hp, hr, hs, _ =>
    owes_leaf (leaf_costs rfl hr rfl) fun _ => by simp [heap]
  | .unit, cx, pfx, rest, hp, hr, hs, _ | .refArray _ _, cx, pfx, rest, hp, hr, hs, _ =>
    (fill_none (b := 0) (decode_costs _ cx rest hr rfl) fun _ => by simp [heap]).owes (Int.le_refl _)
  | .str k, cx, pfx, rest, hp, _, _, _ => by
    unfold decode
    exact owes_len hp fun _ _ => fill_readStr hT k (.inr ha) _
  | .seq .ref t, cx, pfx, rest, hp, hr, _, _ => by
    unfold decode
    refine owes_ite (fun _ => owes_fail _) fun _ => owes_len hp fun len _ => ?_
    have hw : ∀ v, heap T (.seq .ref t) v = 0 := fun _ => by simp [heap]
    cases len with
    | none =>
      exact fill_none (cost_map _ (cost_check cost_borrowRest fun _ => cost_ite (fun _ => cost_fail _) fun _ => cost_pure _)) hw
    | some n =>
      exact fill_none (a' := 0) (cost_map _ (cost_ite (fun _ => cost_fail _) fun _ =>
        cost_check ((cost_borrowBytes _).mono (Nat.zero_le _) (Nat.le_refl _) (Nat.zero_le _)) fun _ => cost_pure _)) hw
  | .seq .vec t, cx, pfx, rest, hp, hr, hs, hl => by
    simp only [layoutOk] at hl
    simp only [bears, Bool.and_eq_true] at hs
    exact seq_owes hT ha (by decide) hr hl hs.1 (decode_owes t Cx.std true false (fun _ => rfl) (fun h => by cases h) hs.2 hl) hp
  | .seq .cow t, cx, pfx, rest, hp, hr, hs, hl => by
    simp only [layoutOk] at hl
    simp only [bears, Bool.and_eq_true] at hs
    exact seq_owes hT ha (by decide) hr hl hs.1 (decode_owes t Cx.std true false (fun _ => rfl) (fun h => by cases h) hs.2 hl) hp
  | .set t, cx, pfx, rest, hp, hr, hs, hl => by
    unfold decode
    simp only [layoutOk] at hl
    simp only [bears, Bool.and_eq_true, decide_eq_true_eq] at hs
    have ih := (decode_owes t Cx.std true false (fun _ => rfl) (fun h => by cases h) hs.2 hl).placed hs.1
    have hv : ∀ vs, heap T (.set t) (.list (setOf vs)) ≤ total (fun v => sizeOf T t + heap T t v) vs := fun vs => by
      simp only [heap]
      exact setOf_total _ _
    refine owes_len hp fun len _ => ?_
    cases len with
    | some n =>
      exact fill_map (fill_readCollection T.toHost e (el := elemOf T t (decode T e t Cx.std)) (elem_fills hT hl _ (.inr ha)) ih n) hv
    | none => exact fill_map (fill_readUntilEof ih _) hv
  | .map k v, cx, pfx, rest, hp, hr, hs, hl => by
    unfold decode
    simp only [layoutOk, Bool.and_eq_true] at hl
    simp only [bears, Bool.and_eq_true, decide_eq_true_eq] at hs
    have ih1 := decode_owes k Cx.std true false (fun _ => rfl) (fun h => by cases h) hs.1.2 hl.1
    have ih2 := decode_owes v Cx.std true false (fun _ => rfl) (fun h => by cases h) hs.2 hl.2
    have hq : Owes (entryOwn T k v) a (owed T a true k + owed T a true v)
        (readPair (elemOf T k (decode T e k Cx.std)) (elemOf T v (decode T e v Cx.std))) := by
      refine owes_bind ih1 fun x => (owes_bind (d' := heap T k x) ih2 fun y => owes_pure ?_).mono (by omega)
      simp only [entryOwn]
      omega
    have hf := hq.placed (s := sizeOf T k + sizeOf T v) (by omega)
    have hv : ∀ vs, heap T (.map k v) (.list (mapOf vs)) ≤ total (fun x => sizeOf T k + sizeOf T v + entryOwn T k v x) vs :=
      fun vs => by
        rw [heap_map]
        exact Nat.le_trans (mapOf_total vs) (total_le (heapEntry_le T k v) vs)
    refine owes_len hp fun len _ => ?_
    cases len with
    | some n => exact fill_map (fill_readKV (.inr ha) hf n) hv
    | none => exact fill_map (fill_readUntilEof hf _) hv
  | .array n t, cx, pfx, rest, hp, hr, hs, hl => by
    unfold decode
    simp only [layoutOk] at hl
    simp only [bears] at hs
    have ih := (decode_owes t Cx.std true false (fun _ => rfl) (fun h => by cases h) hs hl).fills
      (b := (max 0 (owed T a true t)).toNat) (by omega)
    refine (fill_readArray cx.inl ih n).owes ?_
    rw [Int.natCast_mul, Int.toNat_of_nonneg (by omega)]
    exact Int.le_refl _
  | .option t, cx, pfx, rest, hp, hr, hs, hl => by
    unfold decode
    simp only [layoutOk] at hl
    simp only [bears] at hs
    have ih := decode_owes t (cx.opt t) pfx rest (fun h => by have := hp h; cases t <;> first | exact this | rfl)
      (fun h => hr (by cases t <;> first | exact h | cases h)) hs hl
    refine owes_then (cost_readBool _ _) fun _ => owes_ite (fun _ => (owes_map ih fun v => ?_).mono (by omega)) fun _ => owes_pure ?_
    · simp [heap]
    · simp only [heap]
      omega
  | .result t er, cx, pfx, rest, hp, hr, hs, hl => by
    unfold decode
    simp only [layoutOk, Bool.and_eq_true] at hl
    simp only [bears, Bool.and_eq_true] at hs
    have ih1 := decode_owes t Cx.std true false (fun _ => rfl) (fun h => by cases h) hs.1 hl.1
    have ih2 := decode_owes er Cx.std true false (fun _ => rfl) (fun h => by cases h) hs.2 hl.2
    refine owes_then (cost_readBool _ _) fun _ => owes_ite (fun _ => (owes_map ih1 fun v => ?_).mono (by omega)) fun _ =>
      (owes_map ih2 fun v => ?_).mono (by omega)
    · simp [heap]
    · simp [heap]
  | .range t, cx, pfx, rest, hp, hr, hs, hl => by
    unfold decode
    simp only [layoutOk] at hl
    simp only [bears] at hs
    have ih := decode_owes t Cx.std true false (fun _ => rfl) (fun h => by cases h) hs hl
    refine owes_bind ih fun x => (owes_bind (d' := heap T t x) ih fun y => owes_pure ?_).mono (by omega)
    simp only [heap]
    omega
  | .rangeInc t, cx, pfx, rest, hp, hr, hs, hl => by
    unfold decode
    simp only [layoutOk] at hl
    simp only [bears] at hs
    have ih := decode_owes t Cx.std true false (fun _ => rfl) (fun h => by cases h) hs hl
    refine owes_bind ih fun x => (owes_bind (d' := heap T t x) ih fun y => owes_pure ?_).mono (by omega)
    simp only [heap]
    omega
  | .pair x y, cx, pfx, rest, hp, hr, hs, hl => by
    unfold decode
    simp only [layoutOk, Bool.and_eq_true] at hl
    simp only [bears, Bool.and_eq_true] at hs
    have ih1 := decode_owes x Cx.std true false (fun _ => rfl) (fun h => by cases h) hs.1 hl.1
    have ih2 := decode_owes y Cx.std true false (fun _ => rfl) (fun h => by cases h) hs.2 hl.2
    refine owes_bind ih1 fun v => (owes_bind (d' := heap T x v) ih2 fun v' => owes_pure ?_).mono (by omega)
    simp only [heap]
    omega
  | .box t, cx, pfx, rest, hp, hr, hs, hl => by
    unfold decode
    simp only [layoutOk] at hl
    simp only [bears] at hs
    have ih := decode_owes t Cx.std true false (fun _ => rfl) (fun h => by cases h) hs hl
    refine fun c r => (ih c r).mono fun c' r' x hx => ⟨hx.1, fun v hv => ?_⟩
    have h1 := hx.2 v hv
    have h2 : heap T (.box t) v = sizeOf T t + heap T t v := by simp only [heap]
    show _ ≤ _ + ((sizeOf T t : Int) + owed T a true t)
    omega
  | .via c t, cx, pfx, rest, hp, hr, hs, hl => by
    unfold decode
    simp only [layoutOk] at hl
    simp only [bears] at hs
    have ih := decode_owes t Cx.std true false (fun _ => rfl) (fun h => by cases h) hs hl
    refine (owes_bind (d' := 0) ih fun v => ?_).mono (by simp only [owed]; omega)
    unfold convert
    cases c.apply v with
    | error er => exact owes_fail _
    | ok x =>
      refine owes_pure ?_
      simp only [heap]
      omega
  | .struct d fs, cx, pfx, rest, hp, hr, hs, hl => by
    unfold decode
    simp only [layoutOk, Bool.and_eq_true] at hl
    simp only [bears] at hs
    have h : heap T (.struct d fs) = heapFields T fs := by funext v; simp only [heap]
    rw [h]
    exact decodeFields_owes fs [] hs hl.2
  | .enum d vs, cx, pfx, rest, hp, hr, hs, hl => by
    unfold decode
    simp only [layoutOk] at hl
    simp only [bears] at hs
    have ih : ∀ tag, Owes (heap T (.enum d vs)) a (owedVariants T a vs) (decodeVariants T e vs tag 0) := fun tag =>
      decodeVariants_owes vs tag 0 hs hl fun i v => by
        simp only [heap, Nat.zero_add]
        exact Nat.le_refl _
    have hc := cost_readTag T.toHost e d
    simp only [owed]
    cases hk : d.peek with
    | false =>
      rw [hk] at hc
      exact owes_then hc ih
    | true =>
      exact owes_bind (w := fun _ => 0) (d := 0) ((fill_none (b := 0) hc fun _ => rfl).owes (Int.le_refl _)) fun tag =>
        (ih tag).mono (by omega)
theorem decodeFields_owes : ∀ (fs : Fields) (prev : List Val), bearsFields T a fs = true →
    layoutOkFields T fs = true → Owes (heapFields T fs) a (owedFields T a fs) (decodeFields T e fs prev)
  | .nil, _, _, _ => by
    unfold decodeFields
    exact owes_pure (by simp [heapFields, owedFields])
  | .cons at' t fs, prev, hs, hl => by
    unfold decodeFields
    simp only [bearsFields, Bool.and_eq_true] at hs
    simp only [layoutOkFields, Bool.and_eq_true] at hl
    have ih := fun prev => decodeFields_owes fs prev hs.2 hl.2
    have hd : (at'.skip || at'.defaultOnEof) = true → (if at'.varint then 0 else heap T t at'.dflt) = 0 := fun h => by
      have h1 := hs.1.2
      rw [h] at h1
      split
      · rfl
      · rename_i hv
        rw [Bool.not_eq_true] at hv
        rw [hv] at h1
        exact bare_heap (by simpa using h1)
    cases hk : at'.skip with
    | true =>
      rw [if_pos rfl]
      have h1 := hd (by rw [hk]; rfl)
      refine (owes_map (ih prev) fun vs => ?_).mono ?_
      · simp only [heapFields]
        omega
      · simp only [owedFields, hk, if_true]
        omega
    | false =>
      rw [if_neg (by simp)]
      have h1 : Owes (fun v => if at'.varint then 0 else heap T t v) a
          (if at'.varint then -(a : Int) else owed T a (!at'.defaultOnEof && at'.prefixed) t)
          (if at'.varint then M.map .num (readVarint T.toHost e) else decode T e t (at'.cx T.toHost prev)) := by
        cases hv : at'.varint with
        | true => exact owes_leaf (cost_map _ (cost_readVarint _ _)) fun _ => rfl
        | false =>
          have hs1 := hs.1.1
          rw [hk, hv, Bool.false_or, Bool.false_or] at hs1
          rw [if_neg (by simp), if_neg (by simp)]
          refine decode_owes t (at'.cx T.toHost prev) _ at'.toEnd ?_ ?_ hs1 hl.1
          · intro h3
            simp only [Bool.and_eq_true, Bool.not_eq_true'] at h3
            obtain ⟨hde, h3⟩ := h3
            unfold Attrs.prefixed at h3
            unfold Attrs.cx Attrs.wcx
            rw [hde]
            cases ho : at'.opaqueTy with
            | true => rfl
            | false =>
              rw [ho] at h3
              rcases hl : at'.len with _ | ⟨_ | _ | _⟩ <;> rw [hl] at h3 <;> first | rfl | cases h3
          · unfold Attrs.cx Attrs.wcx Attrs.toEnd
            cases at'.opaqueTy with
            | true => exact fun h => by cases h
            | false =>
              rcases at'.len with _ | ⟨_ | _ | _⟩
              · exact fun h => by cases h
              · exact fun h => by cases h
              · exact fun h => by cases h
              · exact fun _ => rfl
      have h2 := owes_ite (c := at'.pre.isEmpty = true) (fun _ => h1) fun _ =>
        (owes_bind (w := fun _ => 0) ((fill_none (b := 0) (cost_readConstant (T := T) (e := e) at'.pre) fun _ => rfl).owes
          (Int.le_refl _)) fun _ => h1.mono (Int.le_add_of_nonneg_left (Int.natCast_nonneg _))).mono (by omega)
      have h3 := owes_ite (c := at'.defaultOnEof = true)
        (d := if at'.defaultOnEof then max 0 (if at'.varint then -(a : Int) else owed T a false t)
          else if at'.varint then -(a : Int) else owed T a at'.prefixed t)
        (fun h => owes_onEof (h2.mono (by
          simp only [h, Bool.not_true, Bool.false_and, if_true]
          omega)) (v := at'.dflt) (by
          rw [hd (by rw [h, Bool.or_true])]
          simp only [h, if_true]
          omega)) fun h => h2.mono (by
          rw [Bool.not_eq_true] at h
          simp [h])
      refine (owes_bind h3 fun v => (owes_bind (d' := ((if at'.varint then 0 else heap T t v : Nat) : Int)) (ih (prev ++ [v]))
        fun vs => owes_pure ?_).mono (Int.le_of_eq (Int.add_comm _ _))).mono ?_
      · simp only [heapFields]
        omega
      · simp only [owedFields, hk, Bool.false_eq_true, if_false]
        exact Int.le_refl _
theorem decodeVariants_owes {w : Val → Nat} : ∀ (vs : Variants) (tag i : Nat),
    bearsVariants T a vs = true → layoutOkVariants T vs = true → (∀ k v, w (.variant (i + k) v) ≤ heapVariants T vs k v) →
    Owes w a (owedVariants T a vs) (decodeVariants T e vs tag i)
  | .nil, _, _, _, _, _ => by unfold decodeVariants; exact owes_fail _
  | .cons tag' fs vs, tag, i, hs, hl, hw => by
    unfold decodeVariants
    simp only [bearsVariants, Bool.and_eq_true] at hs
    simp only [layoutOkVariants, Bool.and_eq_true] at hl
    simp only [owedVariants]
    refine owes_ite (fun _ => (owes_map (decodeFields_owes fs [] hs.1 hl.1) fun v => ?_).mono (by omega)) fun _ =>
      (decodeVariants_owes vs tag (i + 1) hs.2 hl.2 fun k v => ?_).mono (by omega)
    · have := hw 0 v
      simp only [heapVariants, Nat.add_zero] at this
      exact this
    · have := hw (k + 1) v
      simp only [heapVariants] at this
      rw [Nat.add_assoc, Nat.add_comm 1 k]
      exact this
end
end

/-! ## Recursive types -/

/-- Not a hole. -/
def Ty.solid : Ty → Bool
  | .enum _ .nil => false
  | _ => true

theorem bare_solid {u : EnumDesc → Ty} {t : Ty} (h : t.solid = true) (v : Val) : bare (fill u t) v = bare t v := by
  cases t
  case enum d vs =>
    cases vs with
    | nil => cases h
    | cons tag fs vs => simp [fill, bare]
  all_goals simp only [fill]
  all_goals cases v <;> try rfl
  all_goals rename_i l; cases l <;> rfl

section
variable {T : Target} (hB : Blind T) {a : Nat} {u u' : EnumDesc → Ty} (hu : ∀ d, erase (u d) = erase (u' d))
  (hd : ∀ pfx d, owed T a pfx (u' d) ≤ owed T a pfx (u d))
include hB hu hd

mutual
theorem owed_fill : ∀ (c : Ty) (pfx : Bool), owed T a pfx (fill u' c) ≤ owed T a pfx (fill u c)
  | .str _, _ | .seq _ _, _ | .set _, _ | .map _ _, _ | .unit, _ | .refArray _ _, _ | .prim _, _ | .usize, _ | .bool, _
  | .char, _ | .nonZero _, _ | .atomic _, _ | .ipv4, _ | .ipv6, _ | .ipAddr, _ | .duration, _ | .systemTime, _
  | .endianness, _ | .varint64, _ | .uuid, _ => by simp only [fill, owed]; exact Int.le_refl _
  | .array n t, pfx => by
    have ih := owed_fill t true
    simp only [fill, owed]
    exact Int.mul_le_mul_of_nonneg_left (by omega) (by omega)
  | .option t, pfx => by
    have ih := owed_fill t pfx
    simp only [fill, owed]
    omega
  | .result x y, _ | .pair x y, _ => by
    have ih1 := owed_fill x true
    have ih2 := owed_fill y true
    simp only [fill, owed]
    omega
  | .range t, _ | .rangeInc t, _ | .via _ t, _ => by
    have ih := owed_fill t true
    simp only [fill, owed]
    omega
  | .box t, _ => by
    have ih := owed_fill t true
    simp only [fill, owed, size_fill hB hu t]
    omega
  | .struct _ fs, _ => by simp only [fill, owed]; exact owedFields_fill fs
  | .enum d .nil, pfx => by simp only [fill]; exact hd pfx d
  | .enum d (.cons tag fs vs), _ => by
    have ih1 := owedFields_fill fs
    have ih2 := owedVariants_fill vs
    simp only [fill, owed, owedVariants]
    omega
theorem owedFields_fill : ∀ (fs : Fields), owedFields T a (fillFields u' fs) ≤ owedFields T a (fillFields u fs)
  | .nil => Int.le_refl _
  | .cons at' t fs => by
    have ih1 := owed_fill t false
    have ih2 := owed_fill t at'.prefixed
    have ih3 := owedFields_fill fs
    simp only [fillFields, owedFields]
    repeat' split
    all_goals omega
theorem owedVariants_fill : ∀ (vs : Variants), owedVariants T a (fillVariants u' vs) ≤ owedVariants T a (fillVariants u vs)
  | .nil => Int.le_refl _
  | .cons tag fs vs => by
    have ih1 := owedFields_fill fs
    have ih2 := owedVariants_fill vs
    simp only [fillVariants, owedVariants]
    omega
end

variable (hb : ∀ rest d, bears T a rest (u d) = true → bears T a rest (u' d) = true) (hi : ∀ d v, bare (u d) v = bare (u' d) v)
include hb hi

omit hd hb hB hu in
theorem bare_fill (t : Ty) (v : Val) : bare (fill u t) v = bare (fill u' t) v := by
  cases h : t.solid with
  | true => rw [bare_solid h, bare_solid h]
  | false =>
    unfold Ty.solid at h
    split at h
    · exact hi _ v
    · cases h

mutual
theorem bears_fill : ∀ (c : Ty) (rest : Bool), bears T a rest (fill u c) = true → bears T a rest (fill u' c) = true
  | .str _, _, _ | .unit, _, _ | .refArray _ _, _, _ | .prim _, _, _ | .usize, _, _ | .bool, _, _
  | .char, _, _ | .nonZero _, _, _ | .atomic _, _, _ | .ipv4, _, _ | .ipv6, _, _ | .ipAddr, _, _ | .duration, _, _ | .systemTime, _, _
  | .endianness, _, _ | .varint64, _, _ | .uuid, _, _ => by simp only [fill, bears]
  | .seq .ref _, _, _ => by simp only [fill, bears]
  | .seq .vec t, _, h | .seq .cow t, _, h => by
    have h1 := owed_fill hB hu hd t true
    simp only [fill, bears, Bool.and_eq_true, Bool.or_eq_true, decide_eq_true_eq] at h ⊢
    rw [← prim_fill hB hu t, ← size_fill hB hu t]
    exact ⟨h.1.imp (fun h => by omega) id, bears_fill t false h.2⟩
  | .set t, _, h => by
    have h1 := owed_fill hB hu hd t true
    simp only [fill, bears, Bool.and_eq_true, decide_eq_true_eq] at h ⊢
    rw [← size_fill hB hu t]
    exact ⟨by omega, bears_fill t false h.2⟩
  | .map k v, _, h => by
    have h1 := owed_fill hB hu hd k true
    have h2 := owed_fill hB hu hd v true
    simp only [fill, bears, Bool.and_eq_true, decide_eq_true_eq] at h ⊢
    rw [← size_fill hB hu k, ← size_fill hB hu v]
    exact ⟨⟨by omega, bears_fill k false h.1.2⟩, bears_fill v false h.2⟩
  | .option t, rest, h => by
    simp only [fill, bears] at h ⊢
    exact bears_fill t rest h
  | .array _ t, _, h | .range t, _, h | .rangeInc t, _, h | .box t, _, h | .via _ t, _, h => by
    simp only [fill, bears] at h ⊢
    exact bears_fill t false h
  | .result x y, _, h | .pair x y, _, h => by
    simp only [fill, bears, Bool.and_eq_true] at h ⊢
    exact ⟨bears_fill x false h.1, bears_fill y false h.2⟩
  | .struct _ fs, _, h => by
    simp only [fill, bears] at h ⊢
    exact bearsFields_fill fs h
  | .enum d .nil, rest, h => by
    simp only [fill] at h ⊢
    exact hb rest d h
  | .enum d (.cons tag fs vs), _, h => by
    simp only [fill, bears, bearsVariants, Bool.and_eq_true] at h ⊢
    exact ⟨bearsFields_fill fs h.1, bearsVariants_fill vs h.2⟩
theorem bearsFields_fill : ∀ (fs : Fields), bearsFields T a (fillFields u fs) = true → bearsFields T a (fillFields u' fs) = true
  | .nil, _ => rfl
  | .cons at' t fs, h => by
    simp only [fillFields, bearsFields, Bool.and_eq_true] at h ⊢
    rw [← bare_fill hi t]
    refine ⟨⟨?_, h.1.2⟩, bearsFields_fill fs h.2⟩
    have h1 := h.1.1
    rw [Bool.or_eq_true] at h1 ⊢
    exact h1.imp id (bears_fill t _)
theorem bearsVariants_fill : ∀ (vs : Variants), bearsVariants T a (fillVariants u vs) = true →
    bearsVariants T a (fillVariants u' vs) = true
  | .nil, _ => rfl
  | .cons tag fs vs, h => by
    simp only [fillVariants, bearsVariants, Bool.and_eq_true] at h ⊢
    exact ⟨bearsFields_fill fs h.1, bearsVariants_fill vs h.2⟩
end
end

end Verif
