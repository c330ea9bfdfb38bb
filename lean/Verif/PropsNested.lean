import Verif.PropsSteps
import Verif.PropsHostile

/-!
# C65 for all recursive types

`C65_recursive_partial` has six calls for every byte, for types without the attributes which let a value end early.  Here
the constants depend on the declarations of the recursive types, but not on how deep values are nested, and all attributes
are allowed: what matters is that a type reads itself only after a byte has been consumed (`late`, C76), and that elements of
containers take bytes.
-/

namespace Verif

/-- With `a` calls paid by every byte which is consumed, at most `L` are not paid; after a value has been read the ones which are not
paid are at most `D`, even if `w` more are made. -/
def Due {α : Type} (a L D w : Nat) (p : M α) : Prop :=
  ∀ c r, p.Wc (fun c' r' x => r' ≤ r ∧ c' + a * r' ≤ c + a * r + L ∧
    (∀ v, x = .ok v → c' + a * r' + w ≤ c + a * r + D)) c r

section
variable {α β : Type} {a L D w : Nat}

theorem Due.mono {L' D' w' : Nat} {p : M α} (h : Due a L D w p) (hL : L ≤ L') (hD : D + w' ≤ D' + w) : Due a L' D' w' p :=
  fun c r => (h c r).mono fun c' r' x hx => ⟨hx.1, by have := hx.2.1; omega, fun v hv => by have := hx.2.2 v hv; omega⟩

theorem Due.flat {L' : Nat} {p : M α} (h : Due a L D w p) (hL : L ≤ L') : Due a L' L' 0 p :=
  fun c r => (h c r).mono fun c' r' x hx => ⟨hx.1, by have := hx.2.1; omega, fun v hv => by have := hx.2.1; omega⟩

/-- What does not depend on other types. -/
theorem Costs.due {k g : Nat} {p : M α} (h : Costs 0 k g p) (hw : w ≤ a * g) : Due a k k w p := fun c r =>
  (h c r).mono fun c' r' x hx => by
    have h1 := hx.2.1
    have h2 : a * r' ≤ a * r := Nat.mul_le_mul_left _ hx.1
    refine ⟨hx.1, by omega, fun v hv => ?_⟩
    have h3 : a * (r' + g) ≤ a * r := Nat.mul_le_mul_left _ (hx.2.2 v hv)
    rw [Nat.mul_add] at h3
    omega

theorem Costs.flat {a0 k g : Nat} {p : M α} (h : Costs a0 k g p) (ha : a0 ≤ a) : Due a k k 0 p := fun c r =>
  (h.mono ha (Nat.le_refl _) (Nat.le_refl _) c r).mono fun c' r' x hx =>
    ⟨hx.1, hx.2.1, fun v hv => by have := hx.2.1; omega⟩

theorem due_pure (v : α) : Due a L D 0 (M.pure v) := fun _ _ => ⟨Nat.le_refl _, by omega, fun _ _ => by omega⟩

theorem due_fail (er : Err) : Due a L D w (M.fail er : M α) := fun _ _ =>
  ⟨Nat.le_refl _, by omega, fun _ h => by cases h⟩

theorem due_bind {L1 D1 w1 L2 D2 w2 : Nat} {p : M α} {f : α → M β} (hp : Due a L1 D1 w1 p) (hf : ∀ v, Due a L2 D2 w2 (f v))
    (h1 : L1 ≤ L) (h2 : L1 + L2 ≤ L ∨ D1 + L2 ≤ L + w1) : Due a L (D1 + D2) (w1 + w2) (M.bind p f) := fun c r => by
  refine Prog.Wc.bind ((hp c r).mono fun c' r' x hx => ?_)
  cases x with
  | error er => exact ⟨hx.1, by have := hx.2.1; omega, fun _ h => by cases h⟩
  | ok v =>
    refine (hf v c' r').mono fun c'' r'' y hy => ⟨Nat.le_trans hy.1 hx.1, ?_, fun w hw => ?_⟩
    · have h3 := hx.2.1; have h4 := hx.2.2 v rfl; have h5 := hy.2.1
      rcases h2 with h2 | h2 <;> omega
    · have := hx.2.2 v rfl; have := hy.2.2 w hw; omega

theorem due_check {p : M α} {f : α → M β} (hp : Due a L D w p) (hf : ∀ v, Due a 0 0 0 (f v)) : Due a L D w (M.bind p f) :=
  due_bind hp hf (Nat.le_refl _) (.inl (Nat.le_refl _))

theorem due_map {p : M α} (f : α → β) (hp : Due a L D w p) : Due a L D w (M.map f p) := due_check hp fun _ => due_pure _

theorem due_ite {c : Prop} [Decidable c] {p q : M α} (hp : c → Due a L D w p) (hq : ¬ c → Due a L D w q) :
    Due a L D w (if c then p else q) := by
  split
  · exact hp ‹_›
  · exact hq ‹_›

theorem due_onEof {p : M α} (hp : Due a L D w p) (hL : L ≤ D) (d : α) : Due a L D 0 (onEof p d) := fun c r => by
  refine Prog.Wc.bind ((hp c r).mono fun c' r' x hx => ?_)
  have h1 := hx.2.1
  cases x with
  | ok v => exact ⟨hx.1, hx.2.1, fun _ _ => by omega⟩
  | error er =>
    simp only
    split
    · exact ⟨hx.1, hx.2.1, fun _ _ => by omega⟩
    · exact ⟨hx.1, hx.2.1, fun _ h => by cases h⟩

/-- Any number of elements which pay for themselves. -/
theorem due_repeatM {p : M α} (hp : Due a L D w p) (hD : D ≤ w) : ∀ n, Due a L L 0 (repeatM n p)
  | 0 => due_pure _
  | n + 1 => fun c r => by
    refine Prog.Wc.bind ((hp c r).mono fun c' r' x hx => ?_)
    cases x with
    | error er => exact ⟨hx.1, hx.2.1, fun _ h => by cases h⟩
    | ok v =>
      refine (due_map (fun vs => v :: vs) (due_repeatM hp hD n) c' r').mono fun c'' r'' y hy =>
        ⟨Nat.le_trans hy.1 hx.1, ?_, fun _ _ => ?_⟩
      all_goals have := hx.2.2 v rfl; have := hy.2.1; omega

theorem due_readUntilEof {p : M Val} (hp : Due a L D w p) (hD : D ≤ w) : ∀ fuel, Due a L L 0 (readUntilEof fuel p)
  | 0 => due_fail _
  | n + 1 => fun c r => by
    refine Prog.Wc.bind ((hp c r).mono fun c' r' x hx => ?_)
    cases x with
    | error er =>
      have := hx.2.1
      simp only
      split
      · exact ⟨hx.1, hx.2.1, fun _ _ => by omega⟩
      · exact ⟨hx.1, hx.2.1, fun _ h => by cases h⟩
    | ok v =>
      refine (due_map (fun vs => v :: vs) (due_readUntilEof hp hD n) c' r').mono fun c'' r'' y hy =>
        ⟨Nat.le_trans hy.1 hx.1, ?_, fun _ _ => ?_⟩
      all_goals have := hx.2.2 v rfl; have := hy.2.1; omega

/-- A fixed number of elements. -/
theorem due_times {p : M α} (hp : Due a L D w p) : ∀ n, Due a (n * L) (n * D) (n * w) (repeatM n p)
  | 0 => (due_pure (L := 0) (D := 0) _).mono (Nat.zero_le _) (by omega)
  | n + 1 => by
    unfold repeatM
    refine (due_bind (L := (n + 1) * L) hp (fun v => due_map (fun vs => v :: vs) (due_times hp n)) ?_ (.inl ?_)).mono
      (Nat.le_refl _) ?_
    all_goals simp only [Nat.succ_mul]; omega

theorem due_canRead {n : Nat} {k : Option Bool → M α} (hk : ∀ o, Due a L L 0 (k o)) : Due a (L + 1) (L + 1) 0 (.canRead n k) :=
  fun c r o => (hk o (c + 1) r).mono fun c' r' x hx =>
    ⟨hx.1, by have := hx.2.1; omega, fun v hv => by have := hx.2.2 v hv; omega⟩

theorem due_alloc {n m : Nat} {p : M α} (hp : Due a L D w p) : Due a L D w (.alloc n m p) := hp

theorem due_borrow {n : Nat} {k : Option (Except Err (Nat × Bytes)) → M α}
    (h0 : Due a L L 0 (k none)) (h1 : ∀ er, Due a L L 0 (k (some (.error er))))
    (h2 : ∀ x, Due a L L 0 (k (some (.ok x)))) : Due a (L + 1) (L + 1) 0 (.borrow n k) := fun c r =>
  ⟨fun hn x bs hb => (h2 (x, bs) (c + 1) (r - n)).mono fun c' r' y hy => by
      have h3 := hy.2.1
      have h4 : a * (r - n) ≤ a * r := Nat.mul_le_mul_left _ (by omega)
      exact ⟨by have := hy.1; omega, by omega, fun v hv => by omega⟩,
    fun er r1 hr => (h1 er (c + 1) r1).mono fun c' r' y hy => by
      have h3 := hy.2.1
      have h4 : a * r1 ≤ a * r := Nat.mul_le_mul_left _ hr
      exact ⟨by have := hy.1; omega, by omega, fun v hv => by omega⟩,
    (h0 (c + 1) r).mono fun c' r' y hy => ⟨hy.1, by have := hy.2.1; omega, fun v hv => by have := hy.2.1; omega⟩⟩

theorem due_borrowR {n : Nat} {k : Option (Except Err (Nat × Bytes)) → M α}
    (h0 : Due a L L 0 (k none)) (h1 : ∀ er, Due a L L 0 (k (some (.error er))))
    (h2 : ∀ x, Due a L L 0 (k (some (.ok x)))) : Due a (L + 1) (L + 1) 0 (.borrowR n k) := due_borrow h0 h1 h2

theorem due_readVec (h' : Host) (e : Endian) {el : Elem} {n : Nat}
    (hel : el.prim = true ∨ el.size = 0 ∨ Due a L L 0 (repeatM n el.read)) : Due a (L + 2) (L + 2) 0 (readVec h' e el n) := by
  refine due_ite (fun _ => due_fail _) fun _ => due_canRead (L := L + 1) fun o => due_ite (fun _ => due_fail _) fun _ =>
    due_ite (fun _ => due_fail _) fun _ => due_alloc ?_
  refine due_ite (fun _ => ?_) fun hp => due_ite (fun _ => due_pure _) fun hs => ?_
  · exact (Costs.flat (a := a) (cost_check (cost_readBytes _) fun _ => cost_liftVals _ _) (Nat.zero_le _)).mono
      (by omega) (by omega)
  · rcases hel with h | h | h
    · exact absurd h hp
    · exact absurd h hs
    · exact h.mono (by omega) (by omega)

theorem due_readCow (h' : Host) (e : Endian) {el : Elem} {n : Nat}
    (hel : el.prim = true ∨ el.size = 0 ∨ Due a L L 0 (repeatM n el.read)) : Due a (L + 3) (L + 3) 0 (readCow h' e el n) := by
  have hv := due_map CowVal.owned (due_readVec h' e hel)
  refine due_ite (fun _ => due_borrow (L := L + 2) hv (fun _ => due_fail _) fun x => ?_) fun _ => hv.mono (by omega) (by omega)
  exact due_ite (fun _ => due_fail _) fun _ => due_ite
    (fun _ => due_ite (fun _ => due_fail _) fun _ => due_pure _) fun _ =>
    due_ite (fun _ => due_fail _) fun _ => due_alloc (due_pure _)

theorem due_readCollection (h' : Host) (e : Endian) {el : Elem} {n : Nat} (hel : Due a L L 0 (repeatM n el.read)) :
    Due a (L + 1) (L + 1) 0 (readCollection h' e el n) :=
  due_ite (fun _ => due_ite (fun _ => due_fail _) fun _ => due_borrowR hel
    (fun _ => due_fail _) fun x => due_ite (fun _ => due_fail _) fun _ => due_pure _) fun _ => hel.mono (by omega) (by omega)

theorem due_readKV (h' : Host) (e : Endian) {ek ev : Elem} {n : Nat} (hp : Due a L L 0 (repeatM n (readPair ek ev))) :
    Due a (L + 1) (L + 1) 0 (readKV h' e ek ev n) :=
  due_ite (fun _ => due_ite (fun _ => due_fail _) fun _ => due_borrowR hp
    (fun _ => due_fail _) fun x => due_ite (fun _ => due_fail _) fun _ => due_pure _) fun _ => hp.mono (by omega) (by omega)

theorem due_convert (cv : Conv) (v : Val) : Due a L D 0 (convert cv v) := by
  unfold convert
  cases cv.apply v with
  | ok w => exact due_pure _
  | error er => exact due_fail _

/-- Slices. -/
theorem due_readSeq {T : Target} {e : Endian} (k : SeqKind) {el : Elem} (len : Option Nat)
    (h1 : k ≠ .ref → len = none → Due a L L 0 (readUntilEof T.fuel el.read))
    (h2 : k ≠ .ref → ∀ n, len = some n → el.prim = true ∨ el.size = 0 ∨ Due a L L 0 (repeatM n el.read)) :
    Due a (L + 3) (L + 3) 0 (readSeq T e k el len) := by
  cases k <;> cases len <;> unfold readSeq
  · exact due_map _ ((h1 (by simp) rfl).mono (by omega) (by omega))
  · exact due_map _ ((due_readVec _ _ (h2 (by simp) _ rfl)).mono (by omega) (by omega))
  · exact due_map _ ((h1 (by simp) rfl).mono (by omega) (by omega))
  · exact due_map _ (due_readCow _ _ (h2 (by simp) _ rfl))
  · exact due_map _ (due_check ((cost_borrowRest.flat (Nat.zero_le _)).mono (by omega) (by omega)) fun _ =>
      due_ite (fun _ => due_fail _) fun _ => due_pure _)
  · exact due_map _ (due_ite (fun _ => due_fail _) fun _ =>
      due_check (((cost_borrowBytes _).flat (Nat.zero_le _)).mono (by omega) (by omega)) fun _ => due_pure _)

end

/-- What a value pays for: `a` if it takes a byte of its own, `E` if it takes a byte at all. -/
def worth (a E : Nat) (own any : Bool) : Nat := if own then a else if any then E else 0

section
variable {a E : Nat} (hE : E ≤ a)
include hE

theorem worth_le (x y : Bool) : worth a E x y ≤ a := by
  unfold worth; cases x <;> cases y <;> simp <;> omega

omit hE in
theorem worth_or (x y x' y' : Bool) : worth a E (x || x') (y || y') ≤ worth a E x y + worth a E x' y' := by
  unfold worth; cases x <;> cases y <;> cases x' <;> cases y' <;> simp <;> omega

theorem worth_left (x y x' y' : Bool) : worth a E (x && x') (y && y') ≤ worth a E x y := by
  unfold worth; cases x <;> cases y <;> cases x' <;> cases y' <;> simp <;> omega

theorem worth_right (x y x' y' : Bool) : worth a E (x && x') (y && y') ≤ worth a E x' y' := by
  unfold worth; cases x <;> cases y <;> cases x' <;> cases y' <;> simp <;> omega

end

section
variable {α : Type} {a E : Nat}

/-- The elements of a container: none of them are read if the length is missing at the end of the input. -/
theorem due_len {h : Host} {e : Endian} (lr : LenR) {f : Option Nat → M α} {L0 Lf : Nat} (p : Bool)
    (hp : p = true → ∃ lt d, lr = .typed lt d) (hf : ∀ len, (len = none → lr.isRest = true) → Due a Lf Lf 0 (f len))
    (h0 : Due a L0 L0 0 (f (some 0))) (hL : L0 ≤ Lf) (hm : 3 + Lf ≤ a) :
    Due a (3 + bif p then L0 else Lf) (3 + Lf) (worth a E lr.prefixed lr.prefixed) (M.bind (readLenR h e lr) f) := by
  have key : ∀ (lt : LenTy) (q : M Nat), (∀ c r, q.Wc (fun c' r' x => r' ≤ r ∧ c' ≤ c + 3 ∧
      (∀ v, x = .ok v → r' + 1 ≤ r ∨ (lr.prefixed = false ∧ v = 0))) c r) → (∀ n, Due a Lf Lf 0 (f (some n))) →
      Due a (3 + bif p then L0 else Lf) (3 + Lf) (worth a E lr.prefixed lr.prefixed) (M.bind (M.map some q) f) := by
    intro lt q hq hf c r
    refine Prog.Wc.bind (Prog.Wc.bind ((hq c r).mono fun c' r' x hx => ?_))
    have h1 : a * r' ≤ a * r := Nat.mul_le_mul_left _ hx.1
    cases x with
    | error er => exact ⟨hx.1, by have := hx.2.1; omega, fun _ h => by cases h⟩
    | ok n =>
      have h2 := hx.2.1
      rcases hx.2.2 n rfl with h3 | ⟨h3, rfl⟩
      · have h4 : a * (r' + 1) ≤ a * r := Nat.mul_le_mul_left _ h3
        rw [Nat.mul_add] at h4
        refine (hf n c' r').mono fun c'' r'' y hy => ⟨Nat.le_trans hy.1 hx.1, ?_, fun v hv => ?_⟩
        · have := hy.2.1; omega
        · have h5 := hy.2.1
          have : worth a E lr.prefixed lr.prefixed ≤ a := by unfold worth; cases lr.prefixed <;> simp
          omega
      · rw [h3]
        cases p with
        | true =>
          refine (h0 c' r').mono fun c'' r'' y hy => ⟨Nat.le_trans hy.1 hx.1, ?_, fun v hv => ?_⟩
          · have := hy.2.1; simp only [cond_true]; omega
          · have := hy.2.1; simp only [worth, Bool.false_eq_true, if_false]; omega
        | false =>
          refine (hf 0 c' r').mono fun c'' r'' y hy => ⟨Nat.le_trans hy.1 hx.1, ?_, fun v hv => ?_⟩
          · have := hy.2.1; simp only [cond_false]; omega
          · have := hy.2.1; simp only [worth, Bool.false_eq_true, if_false]; omega
  cases lr with
  | typed lt d =>
    cases d with
    | false =>
      exact key lt _ (fun c r => (cost_readLen h e lt c r).mono fun c' r' x hx =>
        ⟨hx.1, by have := hx.2.1; omega, fun v hv => .inl (hx.2.2 v hv)⟩) fun n => hf _ (by simp)
    | true =>
      refine key lt _ (fun c r => ?_) fun n => hf _ (by simp)
      refine Prog.Wc.bind ((cost_readLen h e lt c r).mono fun c' r' x hx => ?_)
      have h1 := hx.2.1
      cases x with
      | ok v => exact ⟨hx.1, by omega, fun v hv => .inl (hx.2.2 _ rfl)⟩
      | error er =>
        simp only
        split
        · exact ⟨hx.1, by omega, fun v hv => .inr ⟨rfl, by cases hv; rfl⟩⟩
        · exact ⟨hx.1, by omega, fun _ h => by cases h⟩
  | fixed n =>
    have h1 : p = false := by cases p with | false => rfl | true => obtain ⟨_, _, h⟩ := hp rfl; cases h
    rw [h1]
    exact (hf (some n) (by simp)).mono (by simp) (by simp [worth, LenR.prefixed])
  | untilEof =>
    have h1 : p = false := by cases p with | false => rfl | true => obtain ⟨_, _, h⟩ := hp rfl; cases h
    rw [h1]
    exact (hf none fun _ => rfl).mono (by simp) (by simp [worth, LenR.prefixed])

end

/-! ## The constants and the conditions -/

mutual
/-- The calls for a value without the elements of its containers, as in `ownCalls`; `b` for every place at which the type contains
itself. -/
def debt (b : Nat) : Ty → Nat
  | .unit => 0
  | .ipv6 | .uuid | .refArray _ _ => 1
  | .varint64 => 3
  | .ipAddr | .duration | .systemTime => 4
  | .str _ => 6
  | .seq _ t | .set t => debt b t + 6
  | .map k v => debt b k + debt b v + 6
  | .array n t => n * debt b t + 1
  | .option t => debt b t + 2
  | .result x y => debt b x + debt b y + 2
  | .range t | .rangeInc t => debt b t + debt b t
  | .pair x y => debt b x + debt b y
  | .box t | .via _ t => debt b t
  | .struct _ fs => debtFields b fs
  | .enum _ .nil => b
  | .enum _ (.cons _ fs vs) => debtFields b fs + debtVariants b vs + 3
  | _ => 2
/-- Fields. -/
def debtFields (b : Nat) : Fields → Nat
  | .nil => 0
  | .cons _ t fs => debt b t + 6 + debtFields b fs
/-- Variants. -/
def debtVariants (b : Nat) : Variants → Nat
  | .nil => 0
  | .cons _ fs vs => debtFields b fs + debtVariants b vs
end

mutual
/-- Every value takes at least one byte, as in `eats`; `h`: the types themselves do.  `u`: what the types are in memory. -/
def takes (T : Target) (u : EnumDesc → Ty) (h p : Bool) : Ty → Bool
  | .unit => false
  | .str _ | .seq _ _ | .set _ | .map _ _ => p
  | .array n t => n != 0 && takes T u h true t && (!isPrimitive T (fill u t) || sizeOf T (fill u t) != 0)
  | .refArray n t => n != 0 && sizeOf T (fill u t) != 0
  | .range t | .rangeInc t | .box t | .via _ t => takes T u h true t
  | .pair x y => takes T u h true x || takes T u h true y
  | .struct _ fs => takesFields T u h fs
  | .enum _ .nil => h
  | .enum d (.cons _ fs vs) => !d.peek || (takesFields T u h fs && takesVariants T u h vs)
  | _ => true
/-- Some field takes at least one byte. -/
def takesFields (T : Target) (u : EnumDesc → Ty) (h : Bool) : Fields → Bool
  | .nil => false
  | .cons a t fs => (!a.skip && !a.defaultOnEof && (a.varint || !a.pre.isEmpty || takes T u h a.lenPrefixed t)) || takesFields T u h fs
/-- All variants. -/
def takesVariants (T : Target) (u : EnumDesc → Ty) (h : Bool) : Variants → Bool
  | .nil => true
  | .cons _ fs vs => takesFields T u h fs && takesVariants T u h vs
end

mutual
/-- Everything that is read in a loop takes at least one byte, as in `steady`. -/
def paced (T : Target) (u : EnumDesc → Ty) (h rest : Bool) : Ty → Bool
  | .seq .ref _ => true
  | .seq _ t => (takes T u h true t || (!rest && (isPrimitive T (fill u t) || sizeOf T (fill u t) == 0))) && paced T u h false t
  | .set t => takes T u h true t && paced T u h false t
  | .map k v => (takes T u h true k || takes T u h true v) && paced T u h false k && paced T u h false v
  | .option t => paced T u h rest t
  | .array _ t | .range t | .rangeInc t | .box t | .via _ t => paced T u h false t
  | .result x y | .pair x y => paced T u h false x && paced T u h false y
  | .struct _ fs => pacedFields T u h fs
  | .enum _ vs => pacedVariants T u h vs
  | _ => true
/-- Fields. -/
def pacedFields (T : Target) (u : EnumDesc → Ty) (h : Bool) : Fields → Bool
  | .nil => true
  | .cons a t fs => (a.skip || a.varint || paced T u h a.toEnd t) && pacedFields T u h fs
/-- Variants. -/
def pacedVariants (T : Target) (u : EnumDesc → Ty) (h : Bool) : Variants → Bool
  | .nil => true
  | .cons _ fs vs => pacedFields T u h fs && pacedVariants T u h vs
end

mutual
theorem debt_le (b : Nat) : ∀ t, debt 0 t ≤ debt b t
  | .seq _ t | .set t => by simp only [debt]; have := debt_le b t; omega
  | .option t => by simp only [debt]; have := debt_le b t; omega
  | .range t | .rangeInc t => by simp only [debt]; have := debt_le b t; omega
  | .box t | .via _ t => by simp only [debt]; exact debt_le b t
  | .array n t => by simp only [debt]; have := Nat.mul_le_mul_left n (debt_le b t); omega
  | .map x y | .result x y | .pair x y => by simp only [debt]; have := debt_le b x; have := debt_le b y; omega
  | .struct _ fs => by simp only [debt]; exact debtFields_le b fs
  | .enum _ .nil => by simp only [debt]; exact Nat.zero_le _
  | .enum _ (.cons _ fs vs) => by simp only [debt]; have := debtFields_le b fs; have := debtVariants_le b vs; omega
  | .prim _ | .usize | .bool | .char | .nonZero _ | .atomic _
  | .ipv4 | .ipv6 | .ipAddr | .duration | .systemTime | .endianness
  | .varint64 | .uuid | .str _ | .unit | .refArray _ _ => by simp only [debt]; exact Nat.le_refl _
theorem debtFields_le (b : Nat) : ∀ fs, debtFields 0 fs ≤ debtFields b fs
  | .nil => Nat.le_refl _
  | .cons _ t fs => by simp only [debtFields]; have := debt_le b t; have := debtFields_le b fs; omega
theorem debtVariants_le (b : Nat) : ∀ vs, debtVariants 0 vs ≤ debtVariants b vs
  | .nil => Nat.le_refl _
  | .cons _ fs vs => by simp only [debtVariants]; have := debtFields_le b fs; have := debtVariants_le b vs; omega
end

mutual
theorem consumes_takes (T : Target) (u : EnumDesc → Ty) (h : Bool) : ∀ (t : Ty) (p : Bool), consumes p t = true → takes T u h p t = true
  | .array n t, p, hc => by
    cases t <;> simp only [consumes, Bool.false_eq_true] at hc
    rename_i q
    simp only [takes, fill, hc, Bool.true_and, Bool.and_true, Bool.or_eq_true]
    right
    have := prim_size_pos q
    simp only [sizeOf, bne_iff_ne]
    omega
  | .range t, _, hc | .rangeInc t, _, hc | .box t, _, hc | .via _ t, _, hc => by
    simp only [consumes, takes] at hc ⊢; exact consumes_takes T u h t _ hc
  | .pair x y, _, hc => by
    simp only [consumes, takes, Bool.or_eq_true] at hc ⊢
    exact hc.imp (consumes_takes T u h x _) (consumes_takes T u h y _)
  | .struct _ fs, _, hc => by simp only [consumes, takes] at hc ⊢; exact consumes_takesFields T u h fs hc
  | .enum _ .nil, _, hc => by simp only [consumes, Bool.false_eq_true] at hc
  | .enum d (.cons _ fs vs), _, hc => by
    simp only [consumes, takes, Bool.or_eq_true, Bool.and_eq_true] at hc ⊢
    exact hc.imp id fun hc => ⟨consumes_takesFields T u h fs hc.1, consumes_takesVariants T u h vs hc.2⟩
  | .prim _, _, _ | .usize, _, _ | .bool, _, _ | .char, _, _ | .nonZero _, _, _ | .atomic _, _, _
  | .ipv4, _, _ | .ipv6, _, _ | .ipAddr, _, _ | .duration, _, _ | .systemTime, _, _ | .endianness, _, _
  | .varint64, _, _ | .uuid, _, _ | .option _, _, _ | .result _ _, _, _ => by simp only [takes]
  | .str _, _, hc | .seq _ _, _, hc | .set _, _, hc | .map _ _, _, hc => by simpa only [consumes, takes] using hc
  | .unit, _, hc | .refArray _ _, _, hc => by simp only [consumes, Bool.false_eq_true] at hc
theorem consumes_takesFields (T : Target) (u : EnumDesc → Ty) (h : Bool) : ∀ (fs : Fields), consumesFields fs = true → takesFields T u h fs = true
  | .nil, hc => by simp only [consumesFields, Bool.false_eq_true] at hc
  | .cons a t fs, hc => by
    simp only [consumesFields, takesFields, Bool.or_eq_true, Bool.and_eq_true] at hc ⊢
    exact hc.imp (fun hc => ⟨hc.1, hc.2.imp id (consumes_takes T u h t _)⟩) (consumes_takesFields T u h fs)
theorem consumes_takesVariants (T : Target) (u : EnumDesc → Ty) (h : Bool) : ∀ (vs : Variants), consumesVariants vs = true → takesVariants T u h vs = true
  | .nil, _ => rfl
  | .cons _ fs vs, hc => by
    simp only [consumesVariants, takesVariants, Bool.and_eq_true] at hc ⊢
    exact ⟨consumes_takesFields T u h fs hc.1, consumes_takesVariants T u h vs hc.2⟩
end

/-! ## All types -/

/-- The calls which are not paid: only if a byte is consumed before the types themselves are read, those for them are. -/
def unpaid (b : Nat) (p : Bool) (t : Ty) : Nat := bif late p t then debt 0 t else debt b t

theorem unpaid_le (b : Nat) (p : Bool) (t : Ty) : unpaid b p t ≤ debt b t := by
  unfold unpaid; cases late p t
  · exact Nat.le_refl _
  · exact debt_le b t

theorem le_unpaid (b : Nat) (p : Bool) (t : Ty) : debt 0 t ≤ unpaid b p t := by
  unfold unpaid; cases late p t
  · exact debt_le b t
  · exact Nat.le_refl _

/-- One thing after another. -/
theorem two_parts {a O1 D1 O2 D2 w : Nat} {l1 l2 c : Bool} (h1 : O1 ≤ D1) (h2 : O2 ≤ D2) (hc : c = true → w = a) (hD : D1 + D2 ≤ a) :
    (bif l1 then O1 else D1) ≤ (bif l1 && (c || l2) then O1 + O2 else D1 + D2) ∧
    ((bif l1 then O1 else D1) + (bif l2 then O2 else D2) ≤ (bif l1 && (c || l2) then O1 + O2 else D1 + D2) ∨
      D1 + (bif l2 then O2 else D2) ≤ (bif l1 && (c || l2) then O1 + O2 else D1 + D2) + w) := by
  cases l1 <;> cases l2 <;> cases c <;> simp at hc ⊢ <;> omega

theorem len_parts (p l : Bool) {O D : Nat} : (3 + bif p then 3 else (bif l then O else D) + 3) ≤ bif p || l then O + 6 else D + 6 := by
  cases p <;> cases l <;> simp <;> omega

theorem twice (l : Bool) (O D : Nat) : (bif l then O else D) + (bif l then O else D) = bif l then O + O else D + D := by
  cases l <;> simp

section
variable {T : Target} {e : Endian} {u : EnumDesc → Ty} {a b E m : Nat} {h : Bool} (hE : E ≤ a) (hm : m ≤ E) (h2 : 2 ≤ a)
  (H : ∀ d cx, Due a b b (worth a E false h) (decode T e (u d) cx))

omit H in
include hE in
theorem leaf_due {t : Ty} {k : Nat} {p : Bool} {cx : Cx} {x y : Bool} (hc : Costs 0 k 1 (decode T e t cx)) (h0 : debt 0 t = k) (hb : debt b t = k) :
    Due a (unpaid b p t) (debt b t) (worth a E x y) (decode T e t cx) := by
  unfold unpaid
  rw [h0, hb, Bool.cond_self]
  exact hc.due (by rw [Nat.mul_one]; exact worth_le hE _ _)

include hE hm in
omit H in
/-- Elements which take bytes pay for themselves. -/
theorem pays_itself {t : Ty} (ht : takes T u h true t = true) (hd : debt b t ≤ m) :
    debt b t ≤ worth a E (takes T u false true t) (takes T u h true t) := by
  rw [ht]; unfold worth; cases takes T u false true t <;> simp <;> omega

include hE hm h2 H

set_option linter.unusedSectionVars false

mutual
theorem fill_due : ∀ (t : Ty) (p : Bool) (cx : Cx) (rest : Bool), (cx.len.isRest = true → rest = true) →
    (p = true → ∃ lt d, cx.len = .typed lt d) → paced T u h rest t = true → debt b t ≤ m →
    Due a (unpaid b p t) (debt b t) (worth a E (takes T u false cx.len.prefixed t) (takes T u h cx.len.prefixed t))
      (decode T e (fill u t) cx)
  | .prim q, p, cx, rest, hr, _, _, _ => leaf_due hE (decode_costs (.prim q) cx rest hr rfl) rfl rfl
  | .usize, p, cx, rest, hr, _, _, _ => leaf_due hE (decode_costs .usize cx rest hr rfl) rfl rfl
  | .bool, p, cx, rest, hr, _, _, _ => leaf_due hE (decode_costs .bool cx rest hr rfl) rfl rfl
  | .char, p, cx, rest, hr, _, _, _ => leaf_due hE (decode_costs .char cx rest hr rfl) rfl rfl
  | .nonZero q, p, cx, rest, hr, _, _, _ => leaf_due hE (decode_costs (.nonZero q) cx rest hr rfl) rfl rfl
  | .atomic q, p, cx, rest, hr, _, _, _ => leaf_due hE (decode_costs (.atomic q) cx rest hr rfl) rfl rfl
  | .ipv4, p, cx, rest, hr, _, _, _ => leaf_due hE (decode_costs .ipv4 cx rest hr rfl) rfl rfl
  | .ipv6, p, cx, rest, hr, _, _, _ => leaf_due hE (decode_costs .ipv6 cx rest hr rfl) rfl rfl
  | .ipAddr, p, cx, rest, hr, _, _, _ => leaf_due hE (decode_costs .ipAddr cx rest hr rfl) rfl rfl
  | .duration, p, cx, rest, hr, _, _, _ => leaf_due hE (decode_costs .duration cx rest hr rfl) rfl rfl
  | .systemTime, p, cx, rest, hr, _, _, _ => leaf_due hE (decode_costs .systemTime cx rest hr rfl) rfl rfl
  | .endianness, p, cx, rest, hr, _, _, _ => leaf_due hE (decode_costs .endianness cx rest hr rfl) rfl rfl
  | .varint64, p, cx, rest, hr, _, _, _ => leaf_due hE (decode_costs .varint64 cx rest hr rfl) rfl rfl
  | .uuid, p, cx, rest, hr, _, _, _ => leaf_due hE (decode_costs .uuid cx rest hr rfl) rfl rfl
  | .unit, p, cx, rest, _, _, _, _ => by
    simp only [fill, decode]
    exact due_pure _
  | .str k, p, cx, rest, hr, hp, _, hd => by
    simp only [fill, decode]
    simp only [debt] at hd
    have h1 := fun len => (cost_readStr (T := T) (e := e) k len).flat h2
    refine (due_len (a := a) (E := E) cx.len false (fun h => by cases h) (fun len _ => h1 len) (h1 _) (Nat.le_refl _) (by omega)).mono ?_ ?_
    · exact le_unpaid b p (.str k)
    · simp only [takes, debt]; omega
  | .seq k t, p, cx, rest, hr, hp, hs, hd => by
    simp only [fill, decode]
    simp only [debt] at hd
    refine due_ite (fun _ => due_fail _) fun _ => ?_
    have h0 : k = .ref ∨ (takes T u h true t = true ∨ (rest = false ∧ (isPrimitive T (fill u t) = true ∨ sizeOf T (fill u t) = 0))) ∧ paced T u h false t = true := by
      cases k <;> simp_all [paced]
    have ih : k ≠ .ref → _ := fun hk => fill_due t true Cx.std false (fun h => by cases h) (fun _ => ⟨_, _, rfl⟩) (h0.resolve_left hk).2 (by omega)
    have hx : Due a 3 3 0 (readSeq T e k (elemOf T (fill u t) (decode T e (fill u t) Cx.std)) (some 0)) :=
      due_readSeq (L := 0) k _ (fun _ h => by cases h) (fun _ n hn => by cases hn; exact .inr (.inr (due_pure _)))
    refine (due_len (a := a) (E := E) (L0 := 3) (Lf := unpaid b true t + 3) cx.len p hp (fun len hl => due_readSeq k len ?_ ?_) hx ?_ ?_).mono ?_ ?_
    · intro hk hn
      rcases (h0.resolve_left hk).1 with h1 | h1
      · exact due_readUntilEof (ih hk) (pays_itself hE hm h1 (by omega)) _
      · have h3 := hr (hl hn)
        rw [h1.1] at h3; cases h3
    · intro hk n _
      rcases (h0.resolve_left hk).1 with h1 | h1
      · exact .inr (.inr (due_repeatM (ih hk) (pays_itself hE hm h1 (by omega)) n))
      · rcases h1.2 with h1 | h1
        · exact .inl h1
        · exact .inr (.inl h1)
    · omega
    · have := unpaid_le b true t; omega
    · simp only [unpaid, late, debt]
      exact len_parts _ _
    · have := unpaid_le b true t
      simp only [takes, debt]; omega
  | .set t, p, cx, rest, hr, hp, hs, hd => by
    simp only [fill, decode]
    simp only [debt] at hd
    simp only [paced, Bool.and_eq_true] at hs
    have ih := fill_due t true Cx.std false (fun h => by cases h) (fun _ => ⟨_, _, rfl⟩) hs.2 (by omega)
    have hi := pays_itself hE hm hs.1 (b := b) (by omega)
    refine (due_len (a := a) (E := E) (L0 := 3) (Lf := unpaid b true t + 3) cx.len p hp (fun len hl => ?_) ?_ ?_ ?_).mono ?_ ?_
    · cases len with
      | some n => exact due_map _ ((due_readCollection _ _ (el := elemOf T (fill u t) (decode T e (fill u t) Cx.std)) (due_repeatM ih hi n)).mono (by omega) (by omega))
      | none => exact due_map _ ((due_readUntilEof ih hi _).mono (by omega) (by omega))
    · exact due_map _ ((due_readCollection (L := 0) _ _ (due_pure _)).mono (by omega) (by omega))
    · omega
    · have := unpaid_le b true t; omega
    · simp only [unpaid, late, debt]
      exact len_parts _ _
    · have := unpaid_le b true t
      simp only [takes, debt]; omega
  | .map k v, p, cx, rest, hr, hp, hs, hd => by
    simp only [fill, decode]
    simp only [debt] at hd
    simp only [paced, Bool.and_eq_true] at hs
    have ih1 := fill_due k true Cx.std false (fun h => by cases h) (fun _ => ⟨_, _, rfl⟩) hs.1.2 (by omega)
    have ih2 := fill_due v true Cx.std false (fun h => by cases h) (fun _ => ⟨_, _, rfl⟩) hs.2 (by omega)
    have hd1 := debt_le b k
    have hd2 := debt_le b v
    have h4 := two_parts (a := a) (w := worth a E (takes T u false true k) (takes T u h true k)) (l1 := late true k) (l2 := late true v)
      (c := consumes true k) hd1 hd2 (fun hc => by rw [consumes_takes T u false k true hc]; rfl) (by omega)
    have hpair : Due a (bif late true k && (consumes true k || late true v) then debt 0 k + debt 0 v else debt b k + debt b v) (debt b k + debt b v)
        (worth a E (takes T u false true k) (takes T u h true k) + worth a E (takes T u false true v) (takes T u h true v))
        (readPair (elemOf T (fill u k) (decode T e (fill u k) Cx.std)) (elemOf T (fill u v) (decode T e (fill u v) Cx.std))) :=
      due_bind ih1 (fun x => due_map _ ih2) h4.1 h4.2
    have hi : debt b k + debt b v ≤ worth a E (takes T u false true k) (takes T u h true k) + worth a E (takes T u false true v) (takes T u h true v) := by
      have h5 := worth_or (a := a) (E := E) (takes T u false true k) (takes T u h true k) (takes T u false true v) (takes T u h true v)
      rw [hs.1.1] at h5
      refine Nat.le_trans ?_ h5
      unfold worth
      cases takes T u false true k <;> cases takes T u false true v <;> simp <;> omega
    refine (due_len (a := a) (E := E) (L0 := 3) (Lf := (bif late true k && (consumes true k || late true v) then debt 0 k + debt 0 v else debt b k + debt b v) + 3)
      cx.len p hp (fun len hl => ?_) ?_ ?_ ?_).mono ?_ ?_
    · cases len with
      | some n =>
        exact Due.mono (due_map (fun vs => Val.list (mapOf vs)) (due_readKV T.toHost e (due_repeatM hpair hi n))) (L' := (bif late true k && (consumes true k || late true v) then debt 0 k + debt 0 v else debt b k + debt b v) + 3)
          (D' := (bif late true k && (consumes true k || late true v) then debt 0 k + debt 0 v else debt b k + debt b v) + 3) (by omega) (by omega)
      | none =>
        exact Due.mono (due_map (fun vs => Val.list (mapOf vs)) (due_readUntilEof hpair hi T.fuel)) (Nat.le_add_right _ _) (Nat.le_add_right _ _)
    · exact due_map _ ((due_readKV (L := 0) _ _ (due_pure _)).mono (by omega) (by omega))
    · omega
    · cases (late true k && (consumes true k || late true v)) <;> simp only [cond_true, cond_false] <;> omega
    · simp only [unpaid, late, debt]
      exact len_parts _ _
    · simp only [takes, debt]
      cases (late true k && (consumes true k || late true v)) <;> simp only [cond_true, cond_false] <;> omega
  | .array n t, p, cx, rest, hr, hp, hs, hd => by
    simp only [fill, decode]
    simp only [debt] at hd
    simp only [paced] at hs
    refine due_ite (fun hb => ?_) fun hb => ?_
    · have hp' : isPrimitive T (fill u t) = true := by simp only [Bool.and_eq_true] at hb; exact hb.2
      refine due_check (((cost_readBytes _).due (a := a) (w := worth a E (takes T u false cx.len.prefixed (.array n t)) (takes T u h cx.len.prefixed (.array n t))) ?_).mono ?_ ?_)
        fun _ => due_map _ ((cost_liftVals (a := 0) (b := 0) _ _).flat (Nat.zero_le _))
      · simp only [takes, hp', Bool.not_true, Bool.false_or]
        cases n with
        | zero => simp [worth]
        | succ n =>
          cases hz : sizeOf T (fill u t) with
          | zero => simp [worth]
          | succ k => exact Nat.le_trans (worth_le hE _ _) (Nat.le_mul_of_pos_right a (Nat.mul_pos (by omega) (by show 0 < sizeOf T (fill u t); omega)))
      · refine Nat.le_trans ?_ (le_unpaid b p (.array n t))
        simp only [debt]; omega
      · simp only [debt]; omega
    · cases n with
      | zero =>
        refine due_map _ ((due_pure (L := 0) (D := 0) []).mono (Nat.zero_le _) ?_)
        simp [takes, worth]
      | succ n =>
        have hd' : debt b t ≤ m := by rw [Nat.succ_mul] at hd; omega
        have ih := fill_due t true Cx.std false (fun h => by cases h) (fun _ => ⟨_, _, rfl⟩) hs hd'
        refine due_map _ ((due_times ih (n + 1)).mono ?_ ?_)
        · simp only [unpaid, late, debt]; cases late true t <;> simp only [cond_true, cond_false] <;> omega
        · have h3 : worth a E (takes T u false cx.len.prefixed (.array (n + 1) t)) (takes T u h cx.len.prefixed (.array (n + 1) t)) ≤
              worth a E (takes T u false true t) (takes T u h true t) := by
            simp only [takes, Bool.and_assoc]
            exact Nat.le_trans (worth_right hE _ _ _ _) (worth_left hE _ _ _ _)
          have h4 : worth a E (takes T u false Cx.std.len.prefixed t) (takes T u h Cx.std.len.prefixed t) ≤
              (n + 1) * worth a E (takes T u false Cx.std.len.prefixed t) (takes T u h Cx.std.len.prefixed t) := Nat.le_mul_of_pos_left _ (by omega)
          have : Cx.std.len.prefixed = true := rfl
          rw [this] at h4 ⊢
          simp only [debt]
          omega
  | .refArray n t, p, cx, rest, hr, hp, hs, hd => by
    simp only [fill, decode]
    refine due_ite (fun _ => due_fail _) fun _ => due_map _ (((cost_borrowBytes _).due (a := a) ?_).mono (le_unpaid b p (.refArray n t)) (Nat.le_refl _))
    simp only [takes]
    cases n with
    | zero => simp [worth]
    | succ n =>
      cases hz : sizeOf T (fill u t) with
      | zero => simp [worth]
      | succ m => exact Nat.le_trans (worth_le hE _ _) (Nat.le_mul_of_pos_right a (Nat.mul_pos (by omega) (by omega)))
  | .option t, p, cx, rest, hr, hp, hs, hd => by
    simp only [fill, decode]
    simp only [debt] at hd
    simp only [paced] at hs
    have ih := fill_due t false (cx.opt (fill u t)) rest (fun h => hr (by
      revert h; cases fill u t <;> first | exact id | (intro h; cases h))) (fun h => by cases h) hs (by omega)
    have hd1 := debt_le b t
    have hd2 := unpaid_le b false t
    refine (due_bind (L := debt 0 t + 2) (L2 := debt b t) (D2 := debt b t) (w2 := 0) ((cost_readBool _ _).due (a := a) (w := a) (by omega)) (fun flag => due_ite (fun _ => ?_) fun _ => due_pure _) (by omega) (.inr (by omega))).mono ?_ ?_
    · exact due_map _ (ih.mono hd2 (by omega))
    · exact Nat.le_refl _
    · simp only [takes, debt, worth, if_true]; omega
  | .result x y, p, cx, rest, hr, hp, hs, hd => by
    simp only [fill, decode]
    simp only [debt] at hd
    simp only [paced, Bool.and_eq_true] at hs
    have ih1 := fill_due x true Cx.std false (fun h => by cases h) (fun _ => ⟨_, _, rfl⟩) hs.1 (by omega)
    have ih2 := fill_due y true Cx.std false (fun h => by cases h) (fun _ => ⟨_, _, rfl⟩) hs.2 (by omega)
    have hd1 := unpaid_le b true x
    have hd2 := unpaid_le b true y
    refine (due_bind (L := debt 0 x + debt 0 y + 2) (L2 := debt b x + debt b y) (D2 := debt b x + debt b y) (w2 := 0) ((cost_readBool _ _).due (a := a) (w := a) (by omega)) (fun flag => due_ite (fun _ => ?_) fun _ => ?_) (by omega) (.inr (by omega))).mono ?_ ?_
    · exact due_map _ (ih1.mono (by omega) (by omega))
    · exact due_map _ (ih2.mono (by omega) (by omega))
    · exact Nat.le_refl _
    · simp only [takes, debt, worth, if_true]; omega
  | .range t, p, cx, rest, hr, hp, hs, hd => by
    simp only [fill, decode]
    simp only [debt] at hd
    simp only [paced] at hs
    have ih := fill_due t true Cx.std false (fun h => by cases h) (fun _ => ⟨_, _, rfl⟩) hs (by omega)
    refine (due_bind (L := unpaid b p (.range t)) ih (fun _ => due_check ih fun _ => due_pure _) ?_ (.inl ?_)).mono (Nat.le_refl _) ?_
    · simp only [unpaid, late, debt]; have := twice (late true t) (debt 0 t) (debt b t); omega
    · simp only [unpaid, late, debt]; have := twice (late true t) (debt 0 t) (debt b t); omega
    · simp only [takes, debt]; have : Cx.std.len.prefixed = true := rfl; rw [this]; omega
  | .rangeInc t, p, cx, rest, hr, hp, hs, hd => by
    simp only [fill, decode]
    simp only [debt] at hd
    simp only [paced] at hs
    have ih := fill_due t true Cx.std false (fun h => by cases h) (fun _ => ⟨_, _, rfl⟩) hs (by omega)
    refine (due_bind (L := unpaid b p (.rangeInc t)) ih (fun _ => due_check ih fun _ => due_pure _) ?_ (.inl ?_)).mono (Nat.le_refl _) ?_
    · simp only [unpaid, late, debt]; have := twice (late true t) (debt 0 t) (debt b t); omega
    · simp only [unpaid, late, debt]; have := twice (late true t) (debt 0 t) (debt b t); omega
    · simp only [takes, debt]; have : Cx.std.len.prefixed = true := rfl; rw [this]; omega
  | .pair x y, p, cx, rest, hr, hp, hs, hd => by
    simp only [fill, decode]
    simp only [debt] at hd
    simp only [paced, Bool.and_eq_true] at hs
    have ih1 := fill_due x true Cx.std false (fun h => by cases h) (fun _ => ⟨_, _, rfl⟩) hs.1 (by omega)
    have ih2 := fill_due y true Cx.std false (fun h => by cases h) (fun _ => ⟨_, _, rfl⟩) hs.2 (by omega)
    have h4 := two_parts (a := a) (w := worth a E (takes T u false true x) (takes T u h true x)) (l1 := late true x) (l2 := late true y)
      (c := consumes true x) (debt_le b x) (debt_le b y) (fun hc => by rw [consumes_takes T u false x true hc]; rfl) (by omega)
    refine (due_bind ih1 (fun _ => due_check ih2 fun _ => due_pure _) h4.1 h4.2).mono (Nat.le_refl _) ?_
    have h5 := worth_or (a := a) (E := E) (takes T u false true x) (takes T u h true x) (takes T u false true y) (takes T u h true y)
    simp only [takes, debt]
    have : Cx.std.len.prefixed = true := rfl
    rw [this]; omega
  | .box t, p, cx, rest, hr, hp, hs, hd => by
    simp only [fill, decode]
    simp only [debt] at hd
    simp only [paced] at hs
    exact fill_due t true Cx.std false (fun h => by cases h) (fun _ => ⟨_, _, rfl⟩) hs hd
  | .via c t, p, cx, rest, hr, hp, hs, hd => by
    simp only [fill, decode]
    simp only [debt] at hd
    simp only [paced] at hs
    exact due_check (fill_due t true Cx.std false (fun h => by cases h) (fun _ => ⟨_, _, rfl⟩) hs hd) fun _ => due_convert _ _
  | .struct d fs, p, cx, rest, hr, hp, hs, hd => by
    simp only [fill, decode]
    simp only [debt] at hd
    simp only [paced] at hs
    exact fillFields_due fs [] hs hd
  | .enum d .nil, p, cx, rest, hr, hp, hs, hd => by
    simp only [fill]
    exact H d cx
  | .enum d (.cons tag fs vs), p, cx, rest, hr, hp, hs, hd => by
    simp only [fill, decode]
    simp only [debt] at hd
    simp only [paced] at hs
    have ih := fun tag' => fillVariants_due (.cons tag fs vs) tag' 0 hs (by simp only [debtVariants]; omega)
    have h3 : Due a 3 3 (worth a E (!d.peek) (!d.peek)) (readTag T.toHost e d) := (cost_readTag _ _ d).due (by
      cases d.peek <;> simp [worth])
    have h4 := two_parts (a := a) (O1 := 3) (D1 := 3) (w := worth a E (!d.peek) (!d.peek)) (l1 := true) (l2 := lateVariants (.cons tag fs vs))
      (c := !d.peek) (Nat.le_refl _) (debtVariants_le b (.cons tag fs vs)) (fun hc => by rw [hc]; rfl) (by simp only [debtVariants]; omega)
    refine (due_bind h3 ih h4.1 h4.2).mono ?_ ?_
    · simp only [unpaid, late, lateVariants, debt, debtVariants, Bool.true_and]
      rw [Nat.add_comm 3, Nat.add_comm 3]
      exact Nat.le_refl _
    · have h5 := worth_or (a := a) (E := E) (!d.peek) (!d.peek) (takesVariants T u false (.cons tag fs vs)) (takesVariants T u h (.cons tag fs vs))
      simp only [takes, takesVariants, debt, debtVariants] at h5 ⊢
      omega
theorem fillFields_due : ∀ (fs : Fields) (prev : List Val), pacedFields T u h fs = true → debtFields b fs ≤ m →
    Due a (bif lateFields fs then debtFields 0 fs else debtFields b fs) (debtFields b fs) (worth a E (takesFields T u false fs) (takesFields T u h fs))
      (decodeFields T e (fillFields u fs) prev)
  | .nil, prev, _, _ => by simp only [fillFields, decodeFields]; exact due_pure _
  | .cons q t fs, prev, hs, hd => by
    simp only [fillFields, decodeFields]
    simp only [pacedFields, Bool.and_eq_true] at hs
    simp only [debtFields] at hd
    have ih := fun prev => fillFields_due fs prev hs.2 (by omega)
    have hd1 := debt_le b t
    have hd2 := debtFields_le b fs
    cases hk : q.skip with
    | true =>
      rw [if_pos rfl]
      refine due_map _ ((ih prev).mono ?_ ?_)
      · simp only [lateFields, debtFields, hk, if_true]
        cases lateFields fs <;> simp only [cond_true, cond_false] <;> omega
      · simp only [takesFields, debtFields, hk, Bool.not_true, Bool.false_and, Bool.false_or]; omega
    | false =>
      rw [if_neg (by simp)]
      have h1 : Due a ((bif q.varint || late q.lenPrefixed t then debt 0 t else debt b t) + 3) (debt b t + 3)
          (worth a E (!q.defaultOnEof && (q.varint || takes T u false q.lenPrefixed t)) (!q.defaultOnEof && (q.varint || takes T u h q.lenPrefixed t)))
          (if q.varint then M.map .num (readVarint T.toHost e) else decode T e (fill u t) (q.cx T.toHost prev)) := by
        cases hv : q.varint with
        | true =>
          rw [if_pos rfl]
          refine due_map _ (((cost_readVarint _ _).due (a := a) (w := a) (by omega)).mono (by omega) ?_)
          have := worth_le hE (!q.defaultOnEof && (true || takes T u false q.lenPrefixed t)) (!q.defaultOnEof && (true || takes T u h q.lenPrefixed t))
          omega
        | false =>
          have hs1 := hs.1
          rw [hk, hv, Bool.false_or, Bool.false_or] at hs1
          rw [if_neg (by simp), Bool.false_or, Bool.false_or]
          refine (fill_due t q.lenPrefixed (q.cx T.toHost prev) q.toEnd ?_ ?_ hs1 (by omega)).mono ?_ ?_
          · unfold Attrs.cx Attrs.wcx Attrs.toEnd
            cases q.opaqueTy with
            | true => exact fun h => by cases h
            | false =>
              rcases q.len with _ | ⟨_ | _ | _⟩
              · exact fun h => by cases h
              · exact fun h => by cases h
              · exact fun h => by cases h
              · exact fun _ => rfl
          · unfold Attrs.cx Attrs.wcx Attrs.lenPrefixed
            cases q.opaqueTy with
            | true => exact fun _ => ⟨_, _, rfl⟩
            | false =>
              rcases q.len with _ | ⟨_ | _ | _⟩
              · exact fun _ => ⟨_, _, rfl⟩
              · exact fun _ => ⟨_, _, rfl⟩
              · exact fun h => by cases h
              · exact fun h => by cases h
          · unfold unpaid; omega
          · cases hd : q.defaultOnEof with
            | true => simp [worth]; omega
            | false =>
              have : (q.cx T.toHost prev).len.prefixed = q.lenPrefixed := by
                unfold Attrs.cx Attrs.wcx Attrs.lenPrefixed
                rw [hd]
                cases q.opaqueTy with
                | true => rfl
                | false => rcases q.len with _ | ⟨_ | _ | _⟩ <;> rfl
              rw [this]
              simp only [Bool.not_false, Bool.true_and, Bool.false_or]
              omega
      have h3 : Due a ((bif q.varint || !q.pre.isEmpty || late q.lenPrefixed t then debt 0 t else debt b t) + 6) (debt b t + 6)
          (worth a E (!q.defaultOnEof && (q.varint || !q.pre.isEmpty || takes T u false q.lenPrefixed t))
            (!q.defaultOnEof && (q.varint || !q.pre.isEmpty || takes T u h q.lenPrefixed t)))
          (if q.pre.isEmpty then
            (if q.varint then M.map .num (readVarint T.toHost e) else decode T e (fill u t) (q.cx T.toHost prev))
            else M.bind (readConstant T.toHost e (u8Elem T e) q.pre) fun _ =>
              (if q.varint then M.map .num (readVarint T.toHost e) else decode T e (fill u t) (q.cx T.toHost prev))) := by
        cases hp : q.pre.isEmpty with
        | true =>
          rw [if_pos rfl]
          simp only [Bool.not_true, Bool.or_false]
          exact h1.mono (by omega) (by omega)
        | false =>
          rw [if_neg (by simp)]
          have h5 : 1 ≤ q.pre.length := by cases h : q.pre <;> simp_all
          have h6 : (bif q.varint || late q.lenPrefixed t then debt 0 t else debt b t) ≤ debt b t := by
            cases (q.varint || late q.lenPrefixed t) <;> simp only [cond_true, cond_false] <;> omega
          have h7 : debt 0 t ≤ (bif q.varint || !false || late q.lenPrefixed t then debt 0 t else debt b t) := by
            cases (q.varint || !false || late q.lenPrefixed t) <;> simp only [cond_true, cond_false] <;> omega
          refine (due_bind (L := (bif q.varint || !false || late q.lenPrefixed t then debt 0 t else debt b t) + 6)
            ((cost_readConstant q.pre).due (a := a) (w := a) (Nat.le_mul_of_pos_right _ h5)) (fun _ => h1) (by omega) (.inr (by omega))).mono (Nat.le_refl _) ?_
          have := worth_le hE (!q.defaultOnEof && (q.varint || !false || takes T u false q.lenPrefixed t))
            (!q.defaultOnEof && (q.varint || !false || takes T u h q.lenPrefixed t))
          omega
      have h4 : Due a ((bif q.varint || !q.pre.isEmpty || late q.lenPrefixed t then debt 0 t else debt b t) + 6) (debt b t + 6)
          (worth a E (!q.defaultOnEof && (q.varint || !q.pre.isEmpty || takes T u false q.lenPrefixed t))
            (!q.defaultOnEof && (q.varint || !q.pre.isEmpty || takes T u h q.lenPrefixed t)))
          (if q.defaultOnEof then onEof (if q.pre.isEmpty then
            (if q.varint then M.map .num (readVarint T.toHost e) else decode T e (fill u t) (q.cx T.toHost prev))
            else M.bind (readConstant T.toHost e (u8Elem T e) q.pre) fun _ =>
              (if q.varint then M.map .num (readVarint T.toHost e) else decode T e (fill u t) (q.cx T.toHost prev))) q.dflt
            else (if q.pre.isEmpty then
            (if q.varint then M.map .num (readVarint T.toHost e) else decode T e (fill u t) (q.cx T.toHost prev))
            else M.bind (readConstant T.toHost e (u8Elem T e) q.pre) fun _ =>
              (if q.varint then M.map .num (readVarint T.toHost e) else decode T e (fill u t) (q.cx T.toHost prev)))) := by
        have h6 : (bif q.varint || !q.pre.isEmpty || late q.lenPrefixed t then debt 0 t else debt b t) ≤ debt b t := by
          cases (q.varint || !q.pre.isEmpty || late q.lenPrefixed t) <;> simp only [cond_true, cond_false] <;> omega
        cases hd : q.defaultOnEof with
        | true => exact due_onEof h3 (by omega) _
        | false => rw [hd] at h3; exact h3
      have h5 := two_parts (a := a) (O1 := debt 0 t + 6) (D1 := debt b t + 6)
        (w := worth a E (!q.defaultOnEof && (q.varint || !q.pre.isEmpty || takes T u false q.lenPrefixed t))
            (!q.defaultOnEof && (q.varint || !q.pre.isEmpty || takes T u h q.lenPrefixed t)))
        (l1 := q.varint || !q.pre.isEmpty || late q.lenPrefixed t) (l2 := lateFields fs)
        (c := !q.defaultOnEof && (q.varint || !q.pre.isEmpty || consumes q.lenPrefixed t)) (by omega) hd2 (fun hc => by
          have : (!q.defaultOnEof && (q.varint || !q.pre.isEmpty || takes T u false q.lenPrefixed t)) = true := by
            simp only [Bool.and_eq_true, Bool.or_eq_true] at hc ⊢
            exact ⟨hc.1, hc.2.imp id (consumes_takes T u false t _)⟩
          rw [this]; rfl) (by omega)
      have h6 : (bif q.varint || !q.pre.isEmpty || late q.lenPrefixed t then debt 0 t + 6 else debt b t + 6) =
          (bif q.varint || !q.pre.isEmpty || late q.lenPrefixed t then debt 0 t else debt b t) + 6 := by
        cases (q.varint || !q.pre.isEmpty || late q.lenPrefixed t) <;> rfl
      rw [h6] at h5
      refine (due_bind h4 (fun v => due_map (Val.pair v) (ih (prev ++ [v]))) h5.1 h5.2).mono ?_ ?_
      · simp only [lateFields, debtFields, hk, Bool.false_eq_true, if_false]
        exact Nat.le_refl _
      · have h7 := worth_or (a := a) (E := E) (!q.defaultOnEof && (q.varint || !q.pre.isEmpty || takes T u false q.lenPrefixed t))
            (!q.defaultOnEof && (q.varint || !q.pre.isEmpty || takes T u h q.lenPrefixed t)) (takesFields T u false fs) (takesFields T u h fs)
        simp only [takesFields, debtFields, hk, Bool.not_false, Bool.true_and]
        omega
theorem fillVariants_due : ∀ (vs : Variants) (tag i : Nat), pacedVariants T u h vs = true → debtVariants b vs ≤ m →
    Due a (bif lateVariants vs then debtVariants 0 vs else debtVariants b vs) (debtVariants b vs) (worth a E (takesVariants T u false vs) (takesVariants T u h vs))
      (decodeVariants T e (fillVariants u vs) tag i)
  | .nil, tag, i, _, _ => by simp only [fillVariants, decodeVariants]; exact due_fail _
  | .cons tag' fs vs, tag, i, hs, hd => by
    simp only [fillVariants, decodeVariants]
    simp only [pacedVariants, Bool.and_eq_true] at hs
    simp only [debtVariants] at hd
    have h3 := debtFields_le b fs
    have h4 := debtVariants_le b vs
    refine due_ite (fun _ => due_map _ ((fillFields_due fs [] hs.1 (by omega)).mono ?_ ?_)) fun _ =>
      (fillVariants_due vs tag (i + 1) hs.2 (by omega)).mono ?_ ?_
    · simp only [lateVariants, debtVariants]
      cases lateFields fs <;> cases lateVariants vs <;> simp <;> omega
    · have := worth_left hE (takesFields T u false fs) (takesFields T u h fs) (takesVariants T u false vs) (takesVariants T u h vs)
      simp only [takesVariants, debtVariants]; omega
    · simp only [lateVariants, debtVariants]
      cases lateFields fs <;> cases lateVariants vs <;> simp <;> omega
    · have := worth_right hE (takesFields T u false fs) (takesFields T u h fs) (takesVariants T u false vs) (takesVariants T u h vs)
      simp only [takesVariants, debtVariants]; omega
end
end

/-! ## All unrollings -/

section
variable {T : Target} (hB : Blind T) {u u' : EnumDesc → Ty} (hu : ∀ d, erase (u d) = erase (u' d)) (h : Bool)
include hB hu

set_option linter.unusedSectionVars false

mutual
theorem takes_shape : ∀ (t : Ty) (p : Bool), takes T u h p t = takes T u' h p t
  | .array n t, _ => by simp only [takes, takes_shape t, prim_fill hB hu t, size_fill hB hu t]
  | .refArray n t, _ => by simp only [takes, size_fill hB hu t]
  | .range t, _ | .rangeInc t, _ | .box t, _ | .via _ t, _ => by simp only [takes, takes_shape t]
  | .pair x y, _ => by simp only [takes, takes_shape x, takes_shape y]
  | .struct _ fs, _ => by simp only [takes, takesFields_shape fs]
  | .enum _ .nil, _ => by simp only [takes]
  | .enum d (.cons _ fs vs), _ => by simp only [takes, takesFields_shape fs, takesVariants_shape vs]
  | .prim _, _ | .usize, _ | .bool, _ | .char, _ | .nonZero _, _ | .atomic _, _
  | .ipv4, _ | .ipv6, _ | .ipAddr, _ | .duration, _ | .systemTime, _ | .endianness, _
  | .varint64, _ | .uuid, _ | .str _, _ | .unit, _ | .seq _ _, _ | .set _, _ | .map _ _, _ | .option _, _ | .result _ _, _ => by simp only [takes]
theorem takesFields_shape : ∀ (fs : Fields), takesFields T u h fs = takesFields T u' h fs
  | .nil => by simp only [takesFields]
  | .cons a t fs => by simp only [takesFields, takes_shape t, takesFields_shape fs]
theorem takesVariants_shape : ∀ (vs : Variants), takesVariants T u h vs = takesVariants T u' h vs
  | .nil => by simp only [takesVariants]
  | .cons _ fs vs => by simp only [takesVariants, takesFields_shape fs, takesVariants_shape vs]
end

mutual
theorem paced_shape : ∀ (t : Ty) (rest : Bool), paced T u h rest t = paced T u' h rest t
  | .seq .ref t, _ => by simp only [paced]
  | .seq .vec t, _ | .seq .cow t, _ => by simp only [paced, takes_shape hB hu h t, paced_shape t, prim_fill hB hu t, size_fill hB hu t]
  | .set t, _ => by simp only [paced, takes_shape hB hu h t, paced_shape t]
  | .map k v, _ => by simp only [paced, takes_shape hB hu h k, takes_shape hB hu h v, paced_shape k, paced_shape v]
  | .option t, _ | .array _ t, _ | .range t, _ | .rangeInc t, _ | .box t, _ | .via _ t, _ => by simp only [paced, paced_shape t]
  | .pair x y, _ | .result x y, _ => by simp only [paced, paced_shape x, paced_shape y]
  | .struct _ fs, _ => by simp only [paced, pacedFields_shape fs]
  | .enum d vs, _ => by simp only [paced, pacedVariants_shape vs]
  | .prim _, _ | .usize, _ | .bool, _ | .char, _ | .nonZero _, _ | .atomic _, _
  | .ipv4, _ | .ipv6, _ | .ipAddr, _ | .duration, _ | .systemTime, _ | .endianness, _
  | .varint64, _ | .uuid, _ | .str _, _ | .unit, _ | .refArray _ _, _ => by simp only [paced]
theorem pacedFields_shape : ∀ (fs : Fields), pacedFields T u h fs = pacedFields T u' h fs
  | .nil => by simp only [pacedFields]
  | .cons a t fs => by simp only [pacedFields, paced_shape t, pacedFields_shape fs]
theorem pacedVariants_shape : ∀ (vs : Variants), pacedVariants T u h vs = pacedVariants T u' h vs
  | .nil => by simp only [pacedVariants]
  | .cons _ fs vs => by simp only [pacedVariants, pacedFields_shape fs, pacedVariants_shape vs]
end

end

/-- What is required of recursive types.  `h`: the types themselves may be elements of containers. -/
structure Paced (T : Target) (h : Bool) (c : EnumDesc → Ty) : Prop where
  /-- The size of a type does not depend on what is behind pointers in it. -/
  blind : Blind T
  guarded : ∀ d, guarded (c d) = true
  nominal : ∀ d, nominal (c d) = true
  /-- They are read only after a byte has been consumed (C76). -/
  late : ∀ d, late true (c d) = true
  /-- Everything that is read in a loop takes at least one byte. -/
  paced : ∀ d, paced T (unroll c 0) h false (c d) = true ∧ paced T (unroll c 1) h false (c d) = true
  takes : h = true → ∀ d, takes T (unroll c 0) false true (c d) = true ∧ takes T (unroll c 1) false true (c d) = true

section
variable {T : Target} {h : Bool} {c : EnumDesc → Ty} (hK : Paced T h c)
include hK

theorem paced_unroll (n : Nat) (d : EnumDesc) : paced T (unroll c n) h false (c d) = true := by
  have key : ∀ n, Verif.paced T (unroll c (n + 1)) h false (c d) = true := by
    intro n
    induction n with
    | zero => exact (hK.paced d).2
    | succ n ih => rw [← paced_shape hK.blind (unroll_shape hK.guarded n) h]; exact ih
  cases n with
  | zero => exact (hK.paced d).1
  | succ n => exact key n

theorem takes_unroll (hh : h = true) (n : Nat) (d : EnumDesc) : takes T (unroll c n) false true (c d) = true := by
  have key : ∀ n, Verif.takes T (unroll c (n + 1)) false true (c d) = true := by
    intro n
    induction n with
    | zero => exact (hK.takes hh d).2
    | succ n ih => rw [← takes_shape hK.blind (unroll_shape hK.guarded n) false]; exact ih
  cases n with
  | zero => exact (hK.takes hh d).1
  | succ n => exact key n

/-- Reading a struct or an enum does not depend on where it is. -/
theorem decode_nominal {e : Endian} (u : EnumDesc → Ty) (d : EnumDesc) (cx cx' : Cx) : decode T e (fill u (c d)) cx = decode T e (fill u (c d)) cx' := by
  have hn := hK.nominal d
  generalize c d = t at hn ⊢
  cases t <;> simp only [Verif.nominal, Bool.false_eq_true] at hn
  · simp only [fill, decode]
  · rename_i d vs
    cases vs <;> simp only [Bool.false_eq_true] at hn
    simp only [fill, decode]

theorem due_unroll {e : Endian} {b m : Nat} (h9 : 9 ≤ b) (hbm : b ≤ m) (hb : ∀ d, debt 0 (c d) ≤ b) (hm : ∀ d, debt b (c d) ≤ m) :
    ∀ (n : Nat) (d : EnumDesc) (cx : Cx), Due (2 * m) b b (worth (2 * m) m false h) (decode T e (unroll c n d) cx)
  | 0, d, cx => by
    have h1 : Costs 0 9 1 (decode T e noType cx) := by
      have := decode_costs (T := T) (e := e) noType Cx.std false (fun h => by cases h) rfl
      simp only [noType, decode] at this ⊢
      exact this
    refine (h1.due (a := 2 * m) (w := 2 * m) (by omega)).mono h9 ?_
    have := worth_le (a := 2 * m) (E := m) (by omega) false h
    omega
  | n + 1, d, cx => by
    have ih := due_unroll (e := e) h9 hbm hb hm n
    have h1 := fill_due (E := m) (by omega) (Nat.le_refl _) (by omega) ih (c d) true Cx.std false (fun h => by cases h)
      (fun _ => ⟨_, _, rfl⟩) (paced_unroll hK n d) (hm d)
    rw [show unroll c (n + 1) d = fill (unroll c n) (c d) from rfl, decode_nominal hK _ d cx Cx.std]
    have h2 : unpaid b true (c d) ≤ b := by unfold unpaid; rw [hK.late d]; exact hb d
    cases hh : h with
    | false =>
      exact h1.flat h2
    | true =>
      refine h1.mono h2 ?_
      have h3 : takes T (unroll c n) false Cx.std.len.prefixed (c d) = true := takes_unroll hK hh n d
      rw [h3]
      have := hm d
      simp only [worth, Bool.false_eq_true, if_false, if_true]
      omega

/-- **C65**, all recursive types, with the constants `2 * m` for every byte and `b`, which depend on the declarations (`debt`), but not
on the input or on how deep the values are nested.

Full claim: for all types.  Missing: types which are read before a byte has been consumed (`C76_false_peek`), and elements which take no byte
(`C65_false_default`). -/
theorem C65_nested_partial {e : Endian} {b m : Nat} (h9 : 9 ≤ b) (hbm : b ≤ m) (hb : ∀ d, debt 0 (c d) ≤ b) (hm : ∀ d, debt b (c d) ≤ m)
    {σ : Type} {exact : Bool} {R : ReaderOps σ} {Inv : σ → Prop}
    {pend : σ → Bytes} (O : Orderly exact R Inv pend) {s : σ} (hs : Inv s) (n : Nat) (d : EnumDesc) (cx : Cx) :
    (decode T e (unroll c n d) cx).callCount R s ≤
      2 * m * ((pend s).length - (pend ((decode T e (unroll c n d) cx).run R s).2).length) + b := by
  have h1 := O.callCount (c := 0) hs (due_unroll hK (e := e) h9 hbm hb hm n d cx 0 (pend s).length)
  have h2 := h1.2.1
  rw [Nat.mul_sub]
  omega

end

/-- The conditions for one of the types. -/
def memberPaced (T : Target) (b m : Nat) (c : EnumDesc → Ty) (t : Ty) : Bool :=
  guarded t && nominal t && late true t && paced T (unroll c 0) true false t && paced T (unroll c 1) true false t &&
  takes T (unroll c 0) false true t && takes T (unroll c 1) false true t && decide (debt 0 t ≤ b) && decide (debt b t ≤ m)

/-- The conditions for groups of types. -/
theorem group_paced {T : Target} (hB : Blind T) {b m : Nat} {t : Ty} {ts : List Ty} (hh : (t :: ts).all (memberPaced T b m (group t ts)) = true) :
    Paced T true (group t ts) ∧ (∀ d, debt 0 (group t ts d) ≤ b) ∧ ∀ d, debt b (group t ts d) ≤ m := by
  have key : ∀ d, memberPaced T b m (group t ts) (group t ts d) = true := fun d => List.all_eq_true.mp hh _ (group_mem t ts d)
  simp only [memberPaced, Bool.and_eq_true, decide_eq_true_eq] at key
  exact ⟨{
    blind := hB
    guarded := fun d => (key d).1.1.1.1.1.1.1.1
    nominal := fun d => (key d).1.1.1.1.1.1.1.2
    late := fun d => (key d).1.1.1.1.1.1.2
    paced := fun d => ⟨(key d).1.1.1.1.1.2, (key d).1.1.1.1.2⟩
    takes := fun _ d => ⟨(key d).1.1.1.2, (key d).1.1.2⟩ }, fun d => (key d).1.2, fun d => (key d).2⟩

open Samples

/-- `struct Record { id: u16, #[speedy(default_on_eof)] next: Option<Box<Record>>, #[speedy(default_on_eof)] tags: Vec<u8> }`:
what is missing at the end is filled in at every level. -/
def recordT : Ty := .struct ⟨.rust, 64, 8, [56, 0, 24], false⟩ (.cons {} (.prim .u16)
  (.cons { defaultOnEof := true, dflt := .none } (.option (.box hole))
    (.cons { defaultOnEof := true, dflt := .list [] } (.seq .vec (.prim .u8)) .nil)))

/-- `struct Branch { count: u8, #[speedy(length = count)] children: Vec<Branch> }`: there is no length in front of the children. -/
def branchT : Ty := .struct ⟨.rust, 32, 8, [24, 0], false⟩ (.cons {} (.prim .u8)
  (.cons { len := some (.expr fun prev => match prev with | [.num n] => n | _ => 0) } (.seq .vec hole) .nil))

/-- Records: at most 120 calls for a byte and 30 more, from any reader, however deep they are nested.  -/
example {e : Endian} {σ : Type} {exact : Bool} {R : ReaderOps σ} {Inv : σ → Prop} {pend : σ → Bytes} (O : Orderly exact R Inv pend) {s : σ}
    (hs : Inv s) (n : Nat) : (decode x64 e (unroll (group recordT []) n self) Cx.std).callCount R s ≤
      120 * ((pend s).length - (pend ((decode x64 e (unroll (group recordT []) n self) Cx.std).run R s).2).length) + 30 :=
  have h := group_paced (b := 30) (m := 60) x64_blind (t := recordT) (ts := []) (by decide)
  C65_nested_partial h.1 (by omega) (by omega) h.2.1 h.2.2 O hs n self Cx.std

/-- Branches. -/
example {e : Endian} {σ : Type} {exact : Bool} {R : ReaderOps σ} {Inv : σ → Prop} {pend : σ → Bytes} (O : Orderly exact R Inv pend) {s : σ}
    (hs : Inv s) (n : Nat) : (decode x64 e (unroll (group branchT []) n self) Cx.std).callCount R s ≤
      80 * ((pend s).length - (pend ((decode x64 e (unroll (group branchT []) n self) Cx.std).run R s).2).length) + 20 :=
  have h := group_paced (b := 20) (m := 40) x64_blind (t := branchT) (ts := []) (by decide)
  C65_nested_partial h.1 (by omega) (by omega) h.2.1 h.2.2 O hs n self Cx.std

/-- A record in a record, which ends after its number: the rest of both is filled in after calls in vain. -/
example : (decode x64 .little (unroll (group recordT []) 4 self) Cx.std).callCount (bufferReader x64.toHost)
    (BufSt.init 64 [1, 0, 1, 2, 0]) = 13 := by rfl

end Verif
