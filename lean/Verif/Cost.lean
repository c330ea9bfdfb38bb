import Verif.Wp
import Verif.Valid

/-!
# How many calls reading makes

Reading a value is a sequence of calls of the methods of a reader.  Here they are counted, and bounded by the bytes which
are consumed.
-/

namespace Verif

/-- The number of calls of methods of the reader in a run. -/
def Prog.callCount {β σ : Type} (R : ReaderOps σ) : Prog β → σ → Nat
  | .ret _, _ => 0
  | .read n k, s => (k (R.read n s).1).callCount R (R.read n s).2 + 1
  | .peek n k, s => (k (R.peek n s).1).callCount R (R.peek n s).2 + 1
  | .skip n k, s => (k (R.skip n s).1).callCount R (R.skip n s).2 + 1
  | .canRead n k, s => (k (R.canRead n s)).callCount R s + 1
  | .borrow n k, s => (k (R.borrow n s).1).callCount R (R.borrow n s).2 + 1
  | .borrowR n k, s => (k (R.borrowR n s).1).callCount R (R.borrowR n s).2 + 1
  | .borrowEof k, s => (k (R.borrowEof s).1).callCount R (R.borrowEof s).2 + 1
  | .alloc _ _ k, s => k.callCount R s

/-- `Q` holds of the number of calls, the number of bytes left and the result, whatever a reader answers which delivers no
more bytes than it has; `c` calls have been made. -/
def Prog.Wc {β : Type} (Q : Nat → Nat → β → Prop) : Nat → Nat → Prog β → Prop
  | c, r, .ret a => Q c r a
  | c, r, .read n k => (n ≤ r → ∀ bs : Bytes, bs.length = n → (k (.ok bs)).Wc Q (c + 1) (r - n)) ∧
      (∀ er r', r' ≤ r → (k (.error er)).Wc Q (c + 1) r')
  | c, r, .peek n k => (n ≤ r → ∀ bs : Bytes, bs.length = n → (k (.ok bs)).Wc Q (c + 1) r) ∧
      (∀ er r', r' ≤ r → (k (.error er)).Wc Q (c + 1) r')
  | c, r, .skip n k => (n ≤ r → (k (.ok ())).Wc Q (c + 1) (r - n)) ∧
      (∀ er r', r' ≤ r → (k (.error er)).Wc Q (c + 1) r')
  | c, r, .canRead _ k => ∀ o, (k o).Wc Q (c + 1) r
  | c, r, .borrow n k => (n ≤ r → ∀ a (bs : Bytes), bs.length = n → (k (some (.ok (a, bs)))).Wc Q (c + 1) (r - n)) ∧
      (∀ er r', r' ≤ r → (k (some (.error er))).Wc Q (c + 1) r') ∧ (k none).Wc Q (c + 1) r
  | c, r, .borrowR n k => (n ≤ r → ∀ a (bs : Bytes), bs.length = n → (k (some (.ok (a, bs)))).Wc Q (c + 1) (r - n)) ∧
      (∀ er r', r' ≤ r → (k (some (.error er))).Wc Q (c + 1) r') ∧ (k none).Wc Q (c + 1) r
  | c, r, .borrowEof k => (∀ a (bs : Bytes), bs.length = r → (k (some (a, bs))).Wc Q (c + 1) 0) ∧
      (k none).Wc Q (c + 1) r
  | c, r, .alloc _ _ k => k.Wc Q c r

section
variable {α β : Type}

theorem Prog.Wc.mono {Q Q' : Nat → Nat → β → Prop} (hQ : ∀ c r x, Q c r x → Q' c r x) {p : Prog β} {c r : Nat}
    (h : p.Wc Q c r) : p.Wc Q' c r := by
  induction p generalizing c r with
  | ret a => exact hQ _ _ _ h
  | read n k ih => exact ⟨fun hn bs hb => ih _ (h.1 hn bs hb), fun er r' hr => ih _ (h.2 er r' hr)⟩
  | peek n k ih => exact ⟨fun hn bs hb => ih _ (h.1 hn bs hb), fun er r' hr => ih _ (h.2 er r' hr)⟩
  | skip n k ih => exact ⟨fun hn => ih _ (h.1 hn), fun er r' hr => ih _ (h.2 er r' hr)⟩
  | canRead n k ih => exact fun o => ih _ (h o)
  | borrow n k ih =>
    exact ⟨fun hn a bs hb => ih _ (h.1 hn a bs hb), fun er r' hr => ih _ (h.2.1 er r' hr), ih _ h.2.2⟩
  | borrowR n k ih =>
    exact ⟨fun hn a bs hb => ih _ (h.1 hn a bs hb), fun er r' hr => ih _ (h.2.1 er r' hr), ih _ h.2.2⟩
  | borrowEof k ih => exact ⟨fun a bs hb => ih _ (h.1 a bs hb), ih _ h.2⟩
  | alloc n m k ih => exact ih h

theorem Prog.Wc.bind {Q : Nat → Nat → β → Prop} {p : Prog α} {f : α → Prog β} {c r : Nat}
    (h : p.Wc (fun c r x => (f x).Wc Q c r) c r) : (p.bind f).Wc Q c r := by
  induction p generalizing c r with
  | ret a => exact h
  | read n k ih => exact ⟨fun hn bs hb => ih _ (h.1 hn bs hb), fun er r' hr => ih _ (h.2 er r' hr)⟩
  | peek n k ih => exact ⟨fun hn bs hb => ih _ (h.1 hn bs hb), fun er r' hr => ih _ (h.2 er r' hr)⟩
  | skip n k ih => exact ⟨fun hn => ih _ (h.1 hn), fun er r' hr => ih _ (h.2 er r' hr)⟩
  | canRead n k ih => exact fun o => ih _ (h o)
  | borrow n k ih =>
    exact ⟨fun hn a bs hb => ih _ (h.1 hn a bs hb), fun er r' hr => ih _ (h.2.1 er r' hr), ih _ h.2.2⟩
  | borrowR n k ih =>
    exact ⟨fun hn a bs hb => ih _ (h.1 hn a bs hb), fun er r' hr => ih _ (h.2.1 er r' hr), ih _ h.2.2⟩
  | borrowEof k ih => exact ⟨fun a bs hb => ih _ (h.1 a bs hb), ih _ h.2⟩
  | alloc n m k ih => exact ih h
end

/-- The logic is sound for orderly readers. -/
theorem Orderly.callCount {σ β : Type} {exact : Bool} {R : ReaderOps σ} {Inv : σ → Prop} {pend : σ → Bytes}
    (O : Orderly exact R Inv pend) {Q : Nat → Nat → β → Prop} {p : Prog β} {s : σ} {c : Nat} (hs : Inv s)
    (h : p.Wc Q c (pend s).length) :
    Q (c + p.callCount R s) (pend (p.run R s).2).length (p.run R s).1 := by
  induction p generalizing s c with
  | ret a => exact h
  | read n k ih =>
    rcases O.read n s hs with ⟨s', h1, h2, h3, h4⟩ | ⟨e, s', j, h1, h2, h3, h4⟩
    · simp only [Prog.run, Prog.callCount, h1]
      have := ih (.ok ((pend s).take n)) (c := c + 1) h3 (by
        rw [h4, List.length_drop]; exact h.1 h2 _ (by rw [List.length_take]; omega))
      rwa [Nat.add_assoc, Nat.add_comm 1] at this
    · simp only [Prog.run, Prog.callCount, h1]
      have := ih (.error e) (c := c + 1) h3 (h.2 e _ (by rw [h4, List.length_drop]; omega))
      rwa [Nat.add_assoc, Nat.add_comm 1] at this
  | peek n k ih =>
    rcases O.peek n s hs with ⟨s', h1, h2, h3, h4⟩ | ⟨e, s', j, h1, h2, h3, h4⟩
    · simp only [Prog.run, Prog.callCount, h1]
      have := ih (.ok ((pend s).take n)) (c := c + 1) h3 (by
        rw [h4]; exact h.1 h2 _ (by rw [List.length_take]; omega))
      rwa [Nat.add_assoc, Nat.add_comm 1] at this
    · simp only [Prog.run, Prog.callCount, h1]
      have := ih (.error e) (c := c + 1) h3 (h.2 e _ (by rw [h4, List.length_drop]; omega))
      rwa [Nat.add_assoc, Nat.add_comm 1] at this
  | skip n k ih =>
    rcases O.skip n s hs with ⟨s', h1, h2, h3, h4⟩ | ⟨e, s', j, h1, h2, h3, h4⟩
    · simp only [Prog.run, Prog.callCount, h1]
      have := ih (.ok ()) (c := c + 1) h3 (by rw [h4, List.length_drop]; exact h.1 h2)
      rwa [Nat.add_assoc, Nat.add_comm 1] at this
    · simp only [Prog.run, Prog.callCount, h1]
      have := ih (.error e) (c := c + 1) h3 (h.2 e _ (by rw [h4, List.length_drop]; omega))
      rwa [Nat.add_assoc, Nat.add_comm 1] at this
  | canRead n k ih =>
    simp only [Prog.run, Prog.callCount]
    have := ih (R.canRead n s) (c := c + 1) hs (h _)
    rwa [Nat.add_assoc, Nat.add_comm 1] at this
  | borrow n k ih =>
    rcases O.borrow n s hs with h1 | ⟨a, s', h1, h2, h3, h4⟩ | ⟨e, s', j, h1, h2, h3, h4⟩
    · simp only [Prog.run, Prog.callCount, h1]
      have := ih none (c := c + 1) hs h.2.2
      rwa [Nat.add_assoc, Nat.add_comm 1] at this
    · simp only [Prog.run, Prog.callCount, h1]
      have := ih (some (.ok (a, (pend s).take n))) (c := c + 1) h3 (by
        rw [h4, List.length_drop]; exact h.1 h2 _ _ (by rw [List.length_take]; omega))
      rwa [Nat.add_assoc, Nat.add_comm 1] at this
    · simp only [Prog.run, Prog.callCount, h1]
      have := ih (some (.error e)) (c := c + 1) h3 (h.2.1 e _ (by rw [h4, List.length_drop]; omega))
      rwa [Nat.add_assoc, Nat.add_comm 1] at this
  | borrowR n k ih =>
    rcases O.borrowR n s hs with h1 | ⟨a, s', h1, h2, h3, h4⟩ | ⟨e, s', j, h1, h2, h3, h4⟩
    · simp only [Prog.run, Prog.callCount, h1]
      have := ih none (c := c + 1) hs h.2.2
      rwa [Nat.add_assoc, Nat.add_comm 1] at this
    · simp only [Prog.run, Prog.callCount, h1]
      have := ih (some (.ok (a, (pend s).take n))) (c := c + 1) h3 (by
        rw [h4, List.length_drop]; exact h.1 h2 _ _ (by rw [List.length_take]; omega))
      rwa [Nat.add_assoc, Nat.add_comm 1] at this
    · simp only [Prog.run, Prog.callCount, h1]
      have := ih (some (.error e)) (c := c + 1) h3 (h.2.1 e _ (by rw [h4, List.length_drop]; omega))
      rwa [Nat.add_assoc, Nat.add_comm 1] at this
  | borrowEof k ih =>
    rcases O.borrowEof s hs with h1 | ⟨a, s', h1, h2, h3⟩
    · simp only [Prog.run, Prog.callCount, h1]
      have := ih none (c := c + 1) hs h.2
      rwa [Nat.add_assoc, Nat.add_comm 1] at this
    · simp only [Prog.run, Prog.callCount, h1]
      have := ih (some (a, pend s)) (c := c + 1) h2 (by rw [h3]; exact h.1 _ _ rfl)
      rwa [Nat.add_assoc, Nat.add_comm 1] at this
  | alloc n m k ih => exact ih hs h

/-! ## The bound -/

/-- Reading makes at most `a` calls for every byte it consumes and `b` more, and a value takes at least `g` bytes. -/
def Costs {α : Type} (a b g : Nat) (p : M α) : Prop :=
  ∀ c r, p.Wc (fun c' r' x => r' ≤ r ∧ c' + a * r' ≤ c + a * r + b ∧ (∀ v, x = .ok v → r' + g ≤ r)) c r

section
variable {α β : Type} {a b g : Nat}

theorem Costs.mono {a' b' g' : Nat} {p : M α} (h : Costs a b g p) (ha : a ≤ a') (hb : b ≤ b') (hg : g' ≤ g) :
    Costs a' b' g' p := fun c r => (h c r).mono fun c' r' x hx => by
  obtain ⟨d, rfl⟩ := Nat.exists_eq_add_of_le ha
  have h1 : d * r' ≤ d * r := Nat.mul_le_mul_left _ hx.1
  have h2 := hx.2.1
  refine ⟨hx.1, ?_, fun v hv => by have := hx.2.2 v hv; omega⟩
  rw [Nat.add_mul, Nat.add_mul]
  omega

theorem cost_pure (v : α) : Costs a b 0 (M.pure v) := fun _ _ =>
  ⟨Nat.le_refl _, by omega, fun _ _ => Nat.le_refl _⟩

theorem cost_fail (er : Err) : Costs a b g (M.fail er : M α) := fun _ _ =>
  ⟨Nat.le_refl _, by omega, fun _ h => by cases h⟩

theorem cost_bind {b' g' : Nat} {p : M α} {f : α → M β} (hp : Costs a b g p) (hf : ∀ v, Costs a b' g' (f v)) :
    Costs a (b + b') (g + g') (M.bind p f) := fun c r => by
  refine Prog.Wc.bind ((hp c r).mono fun c' r' x hx => ?_)
  cases x with
  | error er => exact ⟨hx.1, by have := hx.2.1; omega, fun _ h => by cases h⟩
  | ok v =>
    refine (hf v c' r').mono fun c'' r'' y hy => ⟨Nat.le_trans hy.1 hx.1, ?_, fun w hw => ?_⟩
    · have := hx.2.1; have := hy.2.1; omega
    · have := hx.2.2 v rfl; have := hy.2.2 w hw; omega

theorem cost_map {p : M α} (f : α → β) (hp : Costs a b g p) : Costs a b g (M.map f p) :=
  cost_bind (b' := 0) (g' := 0) hp fun _ => cost_pure _

theorem cost_ite {c : Prop} [Decidable c] {p q : M α} (hp : c → Costs a b g p) (hq : ¬ c → Costs a b g q) :
    Costs a b g (if c then p else q) := by
  split
  · exact hp ‹_›
  · exact hq ‹_›

theorem cost_onEof {p : M α} (hp : Costs a b g p) (d : α) : Costs a b 0 (onEof p d) := fun c r => by
  refine Prog.Wc.bind ((hp c r).mono fun c' r' x hx => ?_)
  cases x with
  | ok v => exact ⟨hx.1, hx.2.1, fun _ _ => hx.1⟩
  | error er =>
    simp only
    split
    · exact ⟨hx.1, hx.2.1, fun _ _ => hx.1⟩
    · exact ⟨hx.1, hx.2.1, fun _ h => by cases h⟩

theorem cost_readBytes (n : Nat) : Costs 0 1 n (readBytes n) := fun c r =>
  ⟨fun hn bs hb => ⟨by omega, by omega, fun _ _ => by omega⟩, fun er r' hr => ⟨hr, by omega, fun _ h => by cases h⟩⟩

theorem cost_peekBytes (n : Nat) : Costs 0 1 0 (peekBytes n) := fun c r =>
  ⟨fun hn bs hb => ⟨by omega, by omega, fun _ _ => by omega⟩, fun er r' hr => ⟨hr, by omega, fun _ h => by cases h⟩⟩

theorem cost_readNum (h' : Host) (e : Endian) (n : Nat) : Costs 0 2 n (readNum h' e n) := fun c r o => by
  simp only
  split
  · exact ⟨Nat.le_refl _, by omega, fun _ h => by cases h⟩
  · exact ⟨fun hn bs hb => ⟨by omega, by omega, fun _ _ => by omega⟩,
      fun er r' hr => ⟨hr, by omega, fun _ h => by cases h⟩⟩

theorem cost_peekNum (h' : Host) (e : Endian) (n : Nat) : Costs 0 2 0 (peekNum h' e n) := fun c r o => by
  simp only
  split
  · exact ⟨Nat.le_refl _, by omega, fun _ h => by cases h⟩
  · exact ⟨fun hn bs hb => ⟨by omega, by omega, fun _ _ => by omega⟩,
      fun er r' hr => ⟨hr, by omega, fun _ h => by cases h⟩⟩

theorem cost_readVarint (h' : Host) (e : Endian) : Costs 0 3 1 (readVarint h' e) :=
  cost_bind (b := 2) (b' := 1) (g := 1) (g' := 0) (cost_readNum _ _ _) fun _ =>
    cost_bind (b := 1) (b' := 0) (g := 0) (g' := 0)
      ((cost_readBytes _).mono (Nat.le_refl _) (Nat.le_refl _) (Nat.zero_le _)) fun _ => cost_pure _

theorem cost_peekVarint (h' : Host) (e : Endian) : Costs 0 3 0 (peekVarint h' e) :=
  cost_bind (b := 2) (b' := 1) (g := 0) (g' := 0) (cost_peekNum _ _ _) fun _ =>
    cost_bind (b := 1) (b' := 0) (g := 0) (g' := 0) (cost_peekBytes _) fun _ => cost_pure _

/-- A number of at least one byte: at most three calls. -/
theorem cost_num (h' : Host) (e : Endian) {n : Nat} (hn : 1 ≤ n) : Costs 0 3 1 (readNum h' e n) :=
  (cost_readNum h' e n).mono (Nat.le_refl _) (by omega) hn

/-- A check of what has been read. -/
theorem cost_check {p : M α} {f : α → M β} (hp : Costs a b g p) (hf : ∀ v, Costs a 0 0 (f v)) : Costs a b g (M.bind p f) :=
  cost_bind (b' := 0) (g' := 0) hp hf

theorem cost_readLen (h' : Host) (e : Endian) (lt : LenTy) : Costs 0 3 1 (readLen h' e lt) := by
  cases lt <;> unfold readLen
  · exact cost_check (cost_num _ _ (by omega)) fun _ => cost_ite (fun _ => cost_fail _) fun _ => cost_pure _
  · exact cost_num _ _ (by omega)
  · exact cost_num _ _ (by omega)
  · exact cost_num _ _ (by omega)
  · exact cost_check (cost_num _ _ (by omega)) fun _ => cost_ite (fun _ => cost_fail _) fun _ => cost_pure _
  · exact cost_check (cost_readVarint _ _) fun _ => cost_ite (fun _ => cost_fail _) fun _ => cost_pure _

/-- Where a prefix is read which must be there. -/
def LenR.prefixed : LenR → Bool
  | .typed _ false => true
  | _ => false

theorem cost_readLenR (h' : Host) (e : Endian) (lr : LenR) : Costs 0 3 lr.prefixed.toNat (readLenR h' e lr) := by
  cases lr with
  | typed lt d =>
    cases d with
    | false => exact cost_map _ (cost_readLen _ _ _)
    | true => exact cost_map _ (cost_onEof (cost_readLen _ _ _) _)
  | fixed n => exact cost_pure _
  | untilEof => exact cost_pure _

/-- An element of at least one byte pays for itself. -/
theorem Costs.step {p : M α} (hp : Costs a b 1 p) (c r : Nat) : p.Wc (fun c' r' x => r' ≤ r ∧
    c' + (a + b) * r' ≤ c + (a + b) * r + b ∧ (∀ v, x = .ok v → c' + (a + b) * r' ≤ c + (a + b) * r)) c r :=
  (hp c r).mono fun c' r' x hx => by
    have h1 := hx.2.1
    have h2 : b * r' ≤ b * r := Nat.mul_le_mul_left _ hx.1
    rw [Nat.add_mul, Nat.add_mul]
    refine ⟨hx.1, by omega, fun v hv => ?_⟩
    have h3 : b * (r' + 1) ≤ b * r := Nat.mul_le_mul_left _ (hx.2.2 v hv)
    rw [Nat.mul_add] at h3
    omega

/-- Any number of elements. -/
theorem cost_repeatM {p : M α} (hp : Costs a b 1 p) : ∀ n, Costs (a + b) b 0 (repeatM n p)
  | 0 => cost_pure _
  | n + 1 => fun c r => by
    refine Prog.Wc.bind ((hp.step c r).mono fun c' r' x hx => ?_)
    cases x with
    | error er => exact ⟨hx.1, hx.2.1, fun _ h => by cases h⟩
    | ok v =>
      refine (cost_map (fun vs => v :: vs) (cost_repeatM hp n) c' r').mono fun c'' r'' y hy =>
        ⟨Nat.le_trans hy.1 hx.1, ?_, fun _ _ => Nat.le_trans hy.1 hx.1⟩
      have := hx.2.2 v rfl; have := hy.2.1; omega

/-- A fixed number of elements. -/
theorem cost_times {p : M α} (hp : Costs a b g p) : ∀ n, Costs a (n * b) (n * g) (repeatM n p)
  | 0 => (cost_pure _).mono (Nat.le_refl _) (Nat.le_refl _) (by omega)
  | n + 1 => by
    unfold repeatM
    exact (cost_bind hp fun v => cost_map (fun vs => v :: vs) (cost_times hp n)).mono (Nat.le_refl _)
      (by rw [Nat.succ_mul]; omega) (by rw [Nat.succ_mul]; omega)

theorem cost_readUntilEof {p : M Val} (hp : Costs a b 1 p) : ∀ fuel, Costs (a + b) b 0 (readUntilEof fuel p)
  | 0 => cost_fail _
  | n + 1 => fun c r => by
    refine Prog.Wc.bind ((hp.step c r).mono fun c' r' x hx => ?_)
    cases x with
    | error er =>
      simp only
      split
      · exact ⟨hx.1, hx.2.1, fun _ _ => hx.1⟩
      · exact ⟨hx.1, hx.2.1, fun _ h => by cases h⟩
    | ok v =>
      refine (cost_map (fun vs => v :: vs) (cost_readUntilEof hp n) c' r').mono fun c'' r'' y hy =>
        ⟨Nat.le_trans hy.1 hx.1, ?_, fun _ _ => Nat.le_trans hy.1 hx.1⟩
      have := hx.2.2 v rfl; have := hy.2.1; omega

theorem cost_liftVals (el : Elem) (r : Except Panic (List Bytes)) : Costs a b 0 (liftVals el r) := by
  cases r with
  | error p => exact cost_fail _
  | ok ms => exact cost_pure _

theorem cost_canRead {n : Nat} {k : Option Bool → M α} (hk : ∀ o, Costs a b g (k o)) : Costs a (b + 1) g (.canRead n k) :=
  fun c r o => (hk o (c + 1) r).mono fun c' r' x hx => ⟨hx.1, by have := hx.2.1; omega, hx.2.2⟩

theorem cost_alloc {n m : Nat} {p : M α} (hp : Costs a b g p) : Costs a b g (.alloc n m p) := hp

/-- A borrowed slice whose length is in the program. -/
theorem cost_borrow {n : Nat} {k : Option (Except Err (Nat × Bytes)) → M α}
    (h0 : Costs a b g (k none)) (h1 : ∀ er, Costs a b g (k (some (.error er))))
    (h2 : ∀ x, Costs a b (g - n) (k (some (.ok x)))) : Costs a (b + 1) g (.borrow n k) := fun c r =>
  ⟨fun hn x bs hb => (h2 (x, bs) (c + 1) (r - n)).mono fun c' r' y hy => by
      have h3 := hy.2.1
      have h4 : a * (r - n) ≤ a * r := Nat.mul_le_mul_left _ (by omega)
      exact ⟨by have := hy.1; omega, by omega, fun v hv => by have := hy.2.2 v hv; omega⟩,
    fun er r1 hr => (h1 er (c + 1) r1).mono fun c' r' y hy => by
      have h3 := hy.2.1
      have h4 : a * r1 ≤ a * r := Nat.mul_le_mul_left _ hr
      exact ⟨by have := hy.1; omega, by omega, fun v hv => by have := hy.2.2 v hv; omega⟩,
    (h0 (c + 1) r).mono fun c' r' y hy => ⟨hy.1, by have := hy.2.1; omega, hy.2.2⟩⟩

/-- A borrowed slice whose length is in the program. -/
theorem cost_borrowR {n : Nat} {k : Option (Except Err (Nat × Bytes)) → M α}
    (h0 : Costs a b g (k none)) (h1 : ∀ er, Costs a b g (k (some (.error er))))
    (h2 : ∀ x, Costs a b (g - n) (k (some (.ok x)))) : Costs a (b + 1) g (.borrowR n k) := cost_borrow h0 h1 h2

theorem cost_borrowBytes (n : Nat) : Costs 0 1 n (borrowBytes n) :=
  cost_borrow (b := 0) (cost_fail _) (fun _ => cost_fail _)
    fun _ => (cost_pure _).mono (Nat.le_refl _) (Nat.le_refl _) (by omega)

theorem cost_borrowRest : Costs 0 1 0 borrowRest := fun c r =>
  ⟨fun _ bs hb => ⟨Nat.zero_le _, by omega, fun _ _ => by omega⟩, ⟨Nat.le_refl _, by omega, fun _ h => by cases h⟩⟩

/-- `read_vec` of elements which take at least one byte, are read in bulk or not at all. -/
theorem cost_readVec (h' : Host) (e : Endian) {el : Elem} (hel : Costs a b g el.read)
    (hg : g = 1 ∨ el.prim = true ∨ el.size = 0) (n : Nat) : Costs (a + b) (b + 2) 0 (readVec h' e el n) := by
  refine cost_ite (fun _ => cost_fail _) fun _ => cost_canRead (b := b + 1) fun o => cost_ite (fun _ => cost_fail _) fun _ =>
    cost_ite (fun _ => cost_fail _) fun _ => cost_alloc ?_
  refine cost_ite (fun _ => ?_) fun hp => cost_ite (fun _ => cost_pure _) fun hs => ?_
  · exact (cost_check ((cost_readBytes _).mono (Nat.zero_le _) (Nat.le_refl 1) (Nat.zero_le _)) fun _ =>
      cost_liftVals _ _).mono (Nat.le_refl (a + b)) (by omega) (Nat.le_refl _)
  · have h1 : g = 1 := by
      rcases hg with h | h | h
      · exact h
      · exact absurd h hp
      · exact absurd h hs
    subst h1
    exact (cost_repeatM hel n).mono (Nat.le_refl _) (by omega) (Nat.le_refl _)

/-- Elements in bulk. -/
theorem cost_readVec_bulk (h' : Host) (e : Endian) {el : Elem} (hp : el.prim = true) (n : Nat) :
    Costs 0 2 (n * el.size) (readVec h' e el n) := by
  refine cost_ite (fun _ => cost_fail _) fun _ => cost_canRead (b := 1) fun o => cost_ite (fun _ => cost_fail _) fun _ =>
    cost_ite (fun _ => cost_fail _) fun _ => cost_alloc ?_
  rw [if_pos hp]
  exact cost_check (cost_readBytes _) fun _ => cost_liftVals _ _

theorem cost_readCow (h' : Host) (e : Endian) {el : Elem} (hel : Costs a b g el.read)
    (hg : g = 1 ∨ el.prim = true ∨ el.size = 0) (n : Nat) : Costs (a + b) (b + 3) 0 (readCow h' e el n) := by
  have hv := cost_map CowVal.owned (cost_readVec h' e hel hg n)
  refine cost_ite (fun _ => cost_borrow (b := b + 2) hv (fun _ => cost_fail _) fun x => ?_) fun _ =>
    hv.mono (Nat.le_refl _) (by omega) (Nat.le_refl _)
  rw [Nat.zero_sub]
  exact cost_ite (fun _ => cost_fail _) fun _ => cost_ite
    (fun _ => cost_ite (fun _ => cost_fail _) fun _ => cost_pure _) fun _ =>
    cost_ite (fun _ => cost_fail _) fun _ => cost_alloc (cost_pure _)

theorem cost_readCollection (h' : Host) (e : Endian) {el : Elem} (hel : Costs a b 1 el.read) (n : Nat) :
    Costs (a + b) (b + 1) 0 (readCollection h' e el n) := by
  refine cost_ite (fun _ => cost_ite (fun _ => cost_fail _) fun _ => cost_borrowR (cost_repeatM hel n)
    (fun _ => cost_fail _) fun x => ?_) fun _ => (cost_repeatM hel n).mono (Nat.le_refl _) (by omega) (Nat.le_refl _)
  rw [Nat.zero_sub]
  exact cost_ite (fun _ => cost_fail _) fun _ => cost_pure _

theorem cost_readPair {b' g' : Nat} {ek ev : Elem} (hk : Costs a b g ek.read) (hv : Costs a b' g' ev.read) :
    Costs a (b + b') (g + g') (readPair ek ev) := cost_bind hk fun _ => cost_map _ hv

theorem cost_readKV (h' : Host) (e : Endian) {ek ev : Elem} (hp : Costs a b 1 (readPair ek ev)) (n : Nat) :
    Costs (a + b) (b + 1) 0 (readKV h' e ek ev n) := by
  refine cost_ite (fun _ => cost_ite (fun _ => cost_fail _) fun _ => cost_borrowR (cost_repeatM hp n)
    (fun _ => cost_fail _) fun x => ?_) fun _ => (cost_repeatM hp n).mono (Nat.le_refl _) (by omega) (Nat.le_refl _)
  rw [Nat.zero_sub]
  exact cost_ite (fun _ => cost_fail _) fun _ => cost_pure _

theorem cost_durationNew (x y : Nat) : Costs a b 0 (durationNew x y) :=
  cost_ite (fun _ => cost_pure _) fun _ => cost_fail _

theorem cost_readDuration (h' : Host) (e : Endian) : Costs 0 4 1 (readDuration h' e) :=
  (cost_bind (cost_readNum h' e 8) fun _ => cost_check (cost_readNum h' e 4) fun _ => cost_durationNew _ _).mono
    (Nat.le_refl _) (by omega) (by omega)

theorem cost_readIpv6 (h' : Host) (e : Endian) : Costs 0 1 1 (readIpv6 h' e) :=
  (cost_map _ (cost_readBytes 16)).mono (Nat.le_refl _) (Nat.le_refl _) (by omega)

theorem cost_readBool (h' : Host) (e : Endian) : Costs 0 2 1 (readBool h' e) := cost_map _ (cost_readNum _ _ _)

theorem cost_convert (cv : Conv) (v : Val) : Costs a b 0 (convert cv v) := by
  unfold convert
  cases cv.apply v with
  | ok w => exact cost_pure _
  | error er => exact cost_fail _

theorem cost_asStr (bs : Bytes) : Costs a b 0 (asStr bs) := cost_ite (fun _ => cost_pure _) fun _ => cost_fail _

theorem cost_readTag (h' : Host) (e : Endian) (d : EnumDesc) : Costs 0 3 (!d.peek).toNat (readTag h' e d) := by
  obtain ⟨lt, pk⟩ := d
  cases pk <;> cases lt
  case false.varint => exact cost_readVarint _ _
  case true.varint => exact cost_peekVarint _ _
  case false.u7 | false.u8 | false.u16 | false.u32 | false.u64 => exact cost_num _ _ (by simp [LenTy.minSize])
  all_goals exact (cost_peekNum _ _ _).mono (Nat.le_refl _) (by omega) (Nat.le_refl _)

theorem cost_u8 {T : Target} {e : Endian} : Costs 0 2 1 (u8Elem T e).read := cost_map _ (cost_readNum _ _ _)

theorem cost_readConstant {T : Target} {e : Endian} (cs : Bytes) :
    Costs 0 3 cs.length (readConstant T.toHost e (u8Elem T e) cs) := by
  refine cost_borrow (b := 2) ?_ (fun _ => cost_fail _) fun x => ?_
  · have h := cost_readVec_bulk T.toHost e (el := u8Elem T e) rfl cs.length
    have h1 : cs.length * (u8Elem T e).size = cs.length := Nat.mul_one _
    rw [h1] at h
    exact cost_check h fun _ => cost_ite (fun _ => cost_pure _) fun _ => cost_fail _
  · rw [Nat.sub_self]
    exact cost_ite (fun _ => cost_pure _) fun _ => cost_fail _

theorem cost_readStr {T : Target} {e : Endian} (k : StrKind) (len : Option Nat) : Costs 2 3 0 (readStr T e k len) := by
  have hv : ∀ n, Costs 2 2 0 (readVec T.toHost e (u8Elem T e) n) := fun n =>
    (cost_readVec_bulk T.toHost e (el := u8Elem T e) rfl n).mono (by omega) (Nat.le_refl _) (Nat.zero_le _)
  have hu : Costs 2 2 0 (readUntilEof T.fuel (u8Elem T e).read) := cost_readUntilEof cost_u8 _
  have lift : ∀ {α : Type} {p : M α}, Costs 2 2 0 p → Costs 2 3 0 p := fun h =>
    h.mono (Nat.le_refl _) (by omega) (Nat.le_refl _)
  cases k <;> cases len <;> unfold readStr
  · exact cost_check (lift hu) fun _ => cost_asStr _
  · exact cost_check (lift (hv _)) fun _ => cost_asStr _
  · exact cost_check (lift hu) fun _ => cost_asStr _
  · refine cost_check ?_ fun _ => cost_asStr _
    refine cost_ite (fun _ => cost_borrow (b := 2) (cost_map _ (hv _)) (fun _ => cost_fail _) fun x => ?_) fun _ =>
      lift (cost_map _ (hv _))
    rw [Nat.zero_sub]
    exact cost_ite (fun _ => cost_fail _) fun _ => cost_ite
      (fun _ => cost_ite (fun _ => cost_fail _) fun _ => cost_pure _) fun _ =>
      cost_ite (fun _ => cost_fail _) fun _ => cost_alloc (cost_pure _)
  · exact cost_check (cost_borrowRest.mono (Nat.zero_le _) (by omega) (Nat.le_refl _)) fun _ => cost_asStr _
  · exact cost_check ((cost_borrowBytes _).mono (Nat.zero_le _) (by omega) (Nat.zero_le _)) fun _ => cost_asStr _

/-- Slices: elements take at least one byte, or the number of them is known and they are read in bulk or not at all. -/
theorem cost_readSeq {T : Target} {e : Endian} (k : SeqKind) {el : Elem} (hel : Costs a b g el.read) (len : Option Nat)
    (hg : k = .ref ∨ g = 1 ∨ (len ≠ none ∧ (el.prim = true ∨ el.size = 0))) :
    Costs (a + b) (b + 3) 0 (readSeq T e k el len) := by
  have hu : k ≠ .ref → len = none → Costs (a + b) (b + 3) 0 (M.map Val.list (readUntilEof T.fuel el.read)) := by
    intro hk hl
    have h1 : g = 1 := by
      rcases hg with h | h | h
      · exact absurd h hk
      · exact h
      · exact absurd hl h.1
    subst h1
    exact cost_map _ ((cost_readUntilEof hel _).mono (Nat.le_refl _) (by omega) (Nat.le_refl _))
  have hg' : k ≠ .ref → g = 1 ∨ el.prim = true ∨ el.size = 0 := by
    intro hk
    rcases hg with h | h | h
    · exact absurd h hk
    · exact .inl h
    · exact .inr h.2
  cases k <;> cases len <;> unfold readSeq
  · exact hu (by simp) rfl
  · exact cost_map _ ((cost_readVec _ _ hel (hg' (by simp)) _).mono (Nat.le_refl _) (by omega) (Nat.le_refl _))
  · exact hu (by simp) rfl
  · exact cost_map _ (cost_readCow _ _ hel (hg' (by simp)) _)
  · exact cost_map _ (cost_check (cost_borrowRest.mono (Nat.zero_le _) (by omega) (Nat.le_refl _)) fun _ =>
      cost_ite (fun _ => cost_fail _) fun _ => cost_pure _)
  · exact cost_map _ (cost_ite (fun _ => cost_fail _) fun _ =>
      cost_check ((cost_borrowBytes _).mono (Nat.zero_le _) (by omega) (Nat.zero_le _)) fun _ => cost_pure _)

theorem cost_readArray {T : Target} {e : Endian} {inl : Bool} {el : Elem} (hel : Costs a b g el.read) (n : Nat)
    (g' : Nat) (h1 : g' ≤ n * g) (h2 : el.prim = true → g' ≤ n * el.size) :
    Costs a (n * b + 1) g' (readArray T e inl el n) := by
  refine cost_ite (fun hp => ?_) fun _ => (cost_map _ (cost_times hel n)).mono (Nat.le_refl _) (by omega) h1
  have hp' : el.prim = true := by simp only [Bool.and_eq_true] at hp; exact hp.2
  exact cost_check ((cost_readBytes _).mono (Nat.zero_le _) (by omega) (h2 hp')) fun _ => cost_map _ (cost_liftVals _ _)

end

end Verif
