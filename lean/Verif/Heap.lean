import Verif.PropsCost

/-!
# The memory of values

How many bytes a value has on the heap, and how many bytes of the input are taken for them (C86).
-/

namespace Verif

/-- Sum over a list. -/
def total {α : Type} (w : α → Nat) : List α → Nat
  | [] => 0
  | v :: vs => w v + total w vs

mutual
/-- The bytes which a value has on the heap: the bytes of strings, the elements of vectors, sets and maps (not the unused capacity,
and not what sets and maps add for themselves), the contents of boxes, and what these have on the heap. A `Cow` counts as owned;
references are not counted, nor is what conversions (`via`: compiled regular expressions) make. -/
def heap (T : Target) : Ty → Val → Nat
  | .str .owned, .bytes bs | .str .cow, .bytes bs => bs.length
  | .seq .vec t, .list vs | .seq .cow t, .list vs | .set t, .list vs => total (fun v => sizeOf T t + heap T t v) vs
  | .map k v, .list vs => total (fun
      | .pair a (.pair b .unit) => sizeOf T k + heap T k a + (sizeOf T v + heap T v b)
      | _ => 0) vs
  | .array _ t, .list vs => total (heap T t) vs
  | .option t, .some v => heap T t v
  | .result t _, .variant 1 v => heap T t v
  | .result _ er, .variant 0 v => heap T er v
  | .range t, .pair a (.pair b _) | .rangeInc t, .pair a (.pair b _) => heap T t a + heap T t b
  | .pair a b, .pair x y => heap T a x + heap T b y
  | .box t, v => sizeOf T t + heap T t v
  | .struct _ fs, v => heapFields T fs v
  | .enum _ vs, .variant i v => heapVariants T vs i v
  | _, _ => 0
/-- Fields; those with `varint` are numbers. -/
def heapFields (T : Target) : Fields → Val → Nat
  | .cons a t fs, .pair v rest => (if a.varint then 0 else heap T t v) + heapFields T fs rest
  | _, _ => 0
/-- The `i`-th variant. -/
def heapVariants (T : Target) : Variants → Nat → Val → Nat
  | .nil, _, _ => 0
  | .cons _ fs _, 0, v => heapFields T fs v
  | .cons _ _ vs, i + 1, v => heapVariants T vs i v
end

/-- An entry of a map. -/
def heapEntry (T : Target) (k v : Ty) : Val → Nat
  | .pair a (.pair b .unit) => sizeOf T k + heap T k a + (sizeOf T v + heap T v b)
  | _ => 0

mutual
/-- The bytes on the heap which a value may have whatever it is read from: boxes which are not in a container, and defaults. -/
def ownMem (T : Target) : Ty → Nat
  | .box t => sizeOf T t + ownMem T t
  | .array n t => n * ownMem T t
  | .option t => ownMem T t
  | .result a b => max (ownMem T a) (ownMem T b)
  | .range t | .rangeInc t => ownMem T t + ownMem T t
  | .pair a b => ownMem T a + ownMem T b
  | .struct _ fs => ownMemFields T fs
  | .enum _ vs => ownMemVariants T vs
  | _ => 0
/-- Fields. -/
def ownMemFields (T : Target) : Fields → Nat
  | .nil => 0
  | .cons a t fs => (if a.skip || a.defaultOnEof then heap T t a.dflt else 0) + ownMem T t + ownMemFields T fs
/-- Variants. -/
def ownMemVariants (T : Target) : Variants → Nat
  | .nil => 0
  | .cons _ fs vs => max (ownMemFields T fs) (ownMemVariants T vs)
end

mutual
/-- The bytes on the heap for every byte of the input: those for an element, for all containers around it. -/
def memPerByte (T : Target) : Ty → Nat
  | .str .ref | .seq .ref _ => 0
  | .str _ => 1
  | .seq _ t | .set t => memPerByte T t + ownMem T t + sizeOf T t
  | .map k v => max (memPerByte T k) (memPerByte T v) + (ownMem T k + ownMem T v) + (sizeOf T k + sizeOf T v)
  | .array _ t | .option t | .range t | .rangeInc t | .box t => memPerByte T t
  | .result a b | .pair a b => max (memPerByte T a) (memPerByte T b)
  | .struct _ fs => memPerByteFields T fs
  | .enum _ vs => memPerByteVariants T vs
  | _ => 0
/-- Fields. -/
def memPerByteFields (T : Target) : Fields → Nat
  | .nil => 0
  | .cons _ t fs => max (memPerByte T t) (memPerByteFields T fs)
/-- Variants. -/
def memPerByteVariants (T : Target) : Variants → Nat
  | .nil => 0
  | .cons _ fs vs => max (memPerByteFields T fs) (memPerByteVariants T vs)
end

/-! ## Sums -/

section
variable {α : Type} {w : α → Nat}

theorem total_append : ∀ (as bs : List α), total w (as ++ bs) = total w as + total w bs
  | [], bs => by simp [total]
  | a :: as, bs => by simp only [List.cons_append, total, total_append as bs]; omega

theorem total_zero (h : ∀ v, w v = 0) : ∀ vs : List α, total w vs = 0
  | [] => rfl
  | v :: vs => by simp [total, h v, total_zero h vs]

theorem total_const {c : Nat} : ∀ (vs : List α), (∀ v ∈ vs, w v = c) → total w vs = vs.length * c
  | [], _ => by simp [total]
  | v :: vs, h => by
    simp only [total, h v List.mem_cons_self, total_const vs fun v hv => h v (List.mem_cons_of_mem _ hv), List.length_cons, Nat.succ_mul]
    omega

theorem total_replicate (n : Nat) (v : α) : total w (List.replicate n v) = n * w v := by
  rw [total_const (c := w v) _ (fun x hx => by rw [(List.mem_replicate.mp hx).2]), List.length_replicate]

end

theorem setOf_total (w : Val → Nat) (vs : List Val) : total w (setOf vs) ≤ total w vs := by
  suffices h : ∀ (vs acc : List Val),
      total w (vs.foldl (fun acc v => if v ∈ acc then acc else acc ++ [v]) acc) ≤ total w acc + total w vs by
    have := h vs []
    simp only [total] at this
    unfold setOf
    omega
  intro vs
  induction vs with
  | nil => intro acc; simp [total]
  | cons v vs ih =>
    intro acc
    rw [List.foldl_cons]
    refine Nat.le_trans (ih _) ?_
    simp only [total]
    split
    · omega
    · rw [total_append]
      simp only [total]
      omega

theorem mapInsert_total {T : Target} {kt vt : Ty} (k v : Val) : ∀ acc : List Val,
    total (heapEntry T kt vt) (mapInsert k v acc) ≤ total (heapEntry T kt vt) acc + heapEntry T kt vt (.pair k v)
  | [] => by simp only [mapInsert, total]; omega
  | .pair k' v' :: rest => by
    simp only [mapInsert]
    split
    · rename_i h
      subst h
      simp only [total]
      omega
    · have := mapInsert_total (T := T) (kt := kt) (vt := vt) k v rest
      simp only [total]
      omega
  | .unit :: rest | .num _ :: rest | .bool _ :: rest | .bytes _ :: rest | .list _ :: rest | .none :: rest | .some _ :: rest
  | .variant _ _ :: rest => by
    have := mapInsert_total (T := T) (kt := kt) (vt := vt) k v rest
    simp only [mapInsert, total]
    omega

theorem mapOf_total {T : Target} {kt vt : Ty} (vs : List Val) :
    total (heapEntry T kt vt) (mapOf vs) ≤ total (heapEntry T kt vt) vs := by
  suffices h : ∀ (vs acc : List Val), total (heapEntry T kt vt) (vs.foldl mapStep acc) ≤
      total (heapEntry T kt vt) acc + total (heapEntry T kt vt) vs by
    have := h vs []
    simp only [total] at this
    unfold mapOf
    omega
  intro vs
  induction vs with
  | nil => intro acc; simp [total]
  | cons v vs ih =>
    intro acc
    rw [List.foldl_cons]
    refine Nat.le_trans (ih _) ?_
    simp only [total]
    cases v <;> simp only [mapStep] <;> first | omega | skip
    rename_i a b
    have := mapInsert_total (T := T) (kt := kt) (vt := vt) a b acc
    omega

/-! ## Values without anything on the heap -/

mutual
theorem heap_ofMem {T : Target} : ∀ (t : Ty) (m : Bytes), isPrimitive T t = true → heap T t (ofMem T t m) = 0
  | .prim _, _, _ => by simp [heap]
  | .struct d fs, m, hp => by
    have h : fieldsPrimitive T fs = true := by
      unfold isPrimitive at hp
      split at hp
      · exact hp
      · split at hp
        · cases fs with
          | nil => rfl
          | cons a t fs =>
            simp only [Bool.false_or, Bool.and_eq_true] at hp
            exact hp.1.1
        · cases hp
    simp only [ofMem, heap]
    exact heap_ofMemFields fs d.offsets m h
  | .usize, _, hp | .bool, _, hp | .char, _, hp | .nonZero _, _, hp | .atomic _, _, hp | .ipv4, _, hp | .ipv6, _, hp
  | .ipAddr, _, hp | .duration, _, hp | .systemTime, _, hp | .endianness, _, hp | .varint64, _, hp | .uuid, _, hp
  | .str _, _, hp | .seq _ _, _, hp | .set _, _, hp | .map _ _, _, hp | .array _ _, _, hp | .refArray _ _, _, hp
  | .option _, _, hp | .result _ _, _, hp | .range _, _, hp | .rangeInc _, _, hp | .unit, _, hp | .pair _ _, _, hp
  | .box _, _, hp | .via _ _, _, hp | .enum _ _, _, hp => by simp [isPrimitive] at hp
theorem heap_ofMemFields {T : Target} : ∀ (fs : Fields) (offs : List Nat) (m : Bytes), fieldsPrimitive T fs = true →
    heapFields T fs (ofMemFields T fs offs m) = 0
  | .nil, _, _, _ => by simp [heapFields]
  | .cons a t fs, [], _, _ => by simp [ofMemFields, heapFields]
  | .cons a t fs, off :: offs, m, h => by
    simp only [fieldsPrimitive, Bool.and_eq_true] at h
    simp only [ofMemFields, heapFields, heap_ofMem t _ h.1, heap_ofMemFields fs offs m h.2]
    simp
end

mutual
theorem heap_zst {T : Target} (hT : T.Ok) : ∀ (t : Ty), t.isZst = true → layoutOk T t = true → heap T t (zstVal t) = 0
  | .unit, _, _ => by simp [heap]
  | .pair a b, h, hl => by
    simp only [Ty.isZst, Bool.and_eq_true] at h
    simp only [layoutOk, Bool.and_eq_true] at hl
    simp [zstVal, heap, heap_zst hT a h.1 hl.1, heap_zst hT b h.2 hl.2]
  | .array n t, h, hl => by
    simp only [Ty.isZst, Bool.or_eq_true, beq_iff_eq] at h
    simp only [layoutOk] at hl
    simp only [zstVal, heap, total_replicate]
    rcases h with rfl | h
    · simp
    · simp [heap_zst hT t h hl]
  | .range t, h, hl => by
    simp only [Ty.isZst] at h
    simp only [layoutOk] at hl
    simp [zstVal, heap, heap_zst hT t h hl]
  | .struct d fs, h, hl => by
    simp only [Ty.isZst, beq_iff_eq] at h
    simp only [layoutOk, Bool.and_eq_true] at hl
    simp only [zstVal, heap]
    exact heap_zstFields hT fs (fun n hn => zst_sizes hl.1 h n hn) hl.2
  | .enum d (.cons tag fs vs), h, hl => by
    simp only [layoutOk, layoutOkVariants, Bool.and_eq_true] at hl
    simp only [zstVal, heap, heapVariants]
    cases vs with
    | nil =>
      simp only [Ty.isZst, Variants.isZst] at h
      exact heap_zstFields' hT fs h hl.1
    | cons _ _ _ => simp [Ty.isZst, Variants.isZst] at h
  | .enum d .nil, _, _ => by simp [zstVal, heap]
  | .prim _, h, _ | .usize, h, _ | .bool, h, _ | .char, h, _ | .nonZero _, h, _ | .atomic _, h, _
  | .ipv4, h, _ | .ipv6, h, _ | .ipAddr, h, _ | .duration, h, _ | .systemTime, h, _
  | .endianness, h, _ | .varint64, h, _ | .uuid, h, _ | .str _, h, _ | .seq _ _, h, _ | .set _, h, _
  | .map _ _, h, _ | .refArray _ _, h, _ | .option _, h, _ | .result _ _, h, _ | .rangeInc _, h, _
  | .box _, h, _ | .via _ _, h, _ => by simp [Ty.isZst] at h
theorem heap_zstFields {T : Target} (hT : T.Ok) : ∀ (fs : Fields), (∀ n ∈ fs.sizes T, n = 0) →
    layoutOkFields T fs = true → heapFields T fs (zstFields fs) = 0
  | .nil, _, _ => by simp [heapFields]
  | .cons a t fs, h, hl => by
    simp only [layoutOkFields, Bool.and_eq_true] at hl
    simp only [Fields.sizes, List.mem_cons, forall_eq_or_imp] at h
    simp [zstFields, heapFields, heap_zst hT t (sizeOf_zst hT h.1) hl.1, heap_zstFields hT fs h.2 hl.2]
theorem heap_zstFields' {T : Target} (hT : T.Ok) : ∀ (fs : Fields), fs.isZst = true →
    layoutOkFields T fs = true → heapFields T fs (zstFields fs) = 0
  | .nil, _, _ => by simp [heapFields]
  | .cons a t fs, h, hl => by
    simp only [layoutOkFields, Bool.and_eq_true] at hl
    simp only [Fields.isZst, Bool.and_eq_true] at h
    simp [zstFields, heapFields, heap_zst hT t h.1 hl.1, heap_zstFields' hT fs h.2 hl.2]
end

/-! ## The bound -/

/-- Two claims about the same program. -/
theorem Prog.Wc.and {β : Type} {Q Q' : Nat → Nat → β → Prop} {p : Prog β} {c r : Nat} (h : p.Wc Q c r) (h' : p.Wc Q' c r) :
    p.Wc (fun c r x => Q c r x ∧ Q' c r x) c r := by
  induction p generalizing c r with
  | ret a => exact ⟨h, h'⟩
  | read n k ih => exact ⟨fun hn bs hb => ih _ (h.1 hn bs hb) (h'.1 hn bs hb), fun er r' hr => ih _ (h.2 er r' hr) (h'.2 er r' hr)⟩
  | peek n k ih => exact ⟨fun hn bs hb => ih _ (h.1 hn bs hb) (h'.1 hn bs hb), fun er r' hr => ih _ (h.2 er r' hr) (h'.2 er r' hr)⟩
  | skip n k ih => exact ⟨fun hn => ih _ (h.1 hn) (h'.1 hn), fun er r' hr => ih _ (h.2 er r' hr) (h'.2 er r' hr)⟩
  | canRead n k ih => exact fun o => ih _ (h o) (h' o)
  | borrow n k ih =>
    exact ⟨fun hn a bs hb => ih _ (h.1 hn a bs hb) (h'.1 hn a bs hb), fun er r' hr => ih _ (h.2.1 er r' hr) (h'.2.1 er r' hr),
      ih _ h.2.2 h'.2.2⟩
  | borrowR n k ih =>
    exact ⟨fun hn a bs hb => ih _ (h.1 hn a bs hb) (h'.1 hn a bs hb), fun er r' hr => ih _ (h.2.1 er r' hr) (h'.2.1 er r' hr),
      ih _ h.2.2 h'.2.2⟩
  | borrowEof k ih => exact ⟨fun a bs hb => ih _ (h.1 a bs hb) (h'.1 a bs hb), ih _ h.2 h'.2⟩
  | alloc n m k ih => exact ih h h'

/-- A value weighs at most `a` for every byte which is consumed, and `b` more. -/
def Fills {α : Type} (w : α → Nat) (a b : Nat) (p : M α) : Prop :=
  ∀ c r, p.Wc (fun _ r' x => r' ≤ r ∧ ∀ v, x = .ok v → w v + a * r' ≤ a * r + b) c r

/-- A value takes at least one byte. -/
def TakesByte {α : Type} (p : M α) : Prop := ∀ c r, p.Wc (fun _ r' x => ∀ v, x = .ok v → r' + 1 ≤ r) c r

theorem Costs.takes {α : Type} {a b g : Nat} {p : M α} (h : Costs a b g p) (hg : 1 ≤ g) : TakesByte p := fun c r =>
  (h c r).mono fun _ _ _ hx v hv => by have := hx.2.2 v hv; omega

section
variable {α β : Type} {w : α → Nat} {w' : β → Nat} {a b : Nat}

theorem Fills.mono {a' b' : Nat} {p : M α} (h : Fills w a b p) (ha : a ≤ a') (hb : b ≤ b') : Fills w a' b' p := fun c r =>
  (h c r).mono fun c' r' x hx => by
    obtain ⟨d, rfl⟩ := Nat.exists_eq_add_of_le ha
    have h1 : d * r' ≤ d * r := Nat.mul_le_mul_left _ hx.1
    refine ⟨hx.1, fun v hv => ?_⟩
    have h2 := hx.2 v hv
    rw [Nat.add_mul, Nat.add_mul]
    omega

theorem fill_pure {v : α} (h : w v ≤ b) : Fills w a b (M.pure v) := fun _ _ => ⟨Nat.le_refl _, fun x hx => by cases hx; omega⟩

theorem fill_fail (er : Err) : Fills w a b (M.fail er : M α) := fun _ _ => ⟨Nat.le_refl _, fun _ h => by cases h⟩

theorem fill_bind {b' : Nat} {p : M α} {f : α → M β} (hp : Fills w a b p) (hf : ∀ v, Fills w' a (w v + b') (f v)) :
    Fills w' a (b + b') (M.bind p f) := fun c r => by
  refine Prog.Wc.bind ((hp c r).mono fun c' r' x hx => ?_)
  cases x with
  | error er => exact ⟨hx.1, fun _ h => by cases h⟩
  | ok v =>
    refine (hf v c' r').mono fun c'' r'' y hy => ⟨Nat.le_trans hy.1 hx.1, fun z hz => ?_⟩
    have := hx.2 v rfl
    have := hy.2 z hz
    omega

/-- What is done with an image of what has been read. -/
theorem fill_map {p : M α} {f : α → β} (hp : Fills w a b p) (h : ∀ v, w' (f v) ≤ w v) : Fills w' a b (M.map f p) :=
  fill_bind (b' := 0) hp fun v => fill_pure (h v)

theorem fill_ite {c : Prop} [Decidable c] {p q : M α} (hp : c → Fills w a b p) (hq : ¬ c → Fills w a b q) :
    Fills w a b (if c then p else q) := by
  split
  · exact hp ‹_›
  · exact hq ‹_›

theorem fill_onEof {p : M α} (hp : Fills w a b p) {d : α} (hd : w d ≤ b) : Fills w a b (onEof p d) := fun c r => by
  refine Prog.Wc.bind ((hp c r).mono fun c' r' x hx => ?_)
  cases x with
  | ok v => exact ⟨hx.1, fun z hz => by cases hz; exact hx.2 v rfl⟩
  | error er =>
    simp only
    split
    · refine ⟨hx.1, fun z hz => ?_⟩
      cases hz
      have : a * r' ≤ a * r := Nat.mul_le_mul_left _ hx.1
      omega
    · exact ⟨hx.1, fun _ h => by cases h⟩

/-- Values without weight. -/
theorem fill_none {g : Nat} {p : M α} {a' b' : Nat} (hp : Costs a' b' g p) (h : ∀ v, w v = 0) : Fills w a b p := fun c r =>
  (hp c r).mono fun c' r' x hx => ⟨hx.1, fun v _ => by
    have : a * r' ≤ a * r := Nat.mul_le_mul_left _ hx.1
    rw [h v]
    omega⟩

/-- What has been read does not count. -/
theorem fill_then {g : Nat} {p : M α} {a' b' : Nat} {f : α → M β} (hp : Costs a' b' g p) (hf : ∀ v, Fills w' a b (f v)) :
    Fills w' a b (M.bind p f) :=
  (fill_bind (w := fun _ => 0) (b := 0) (fill_none hp fun _ => rfl) fun v => (hf v).mono (Nat.le_refl _) (Nat.le_add_left _ _)).mono
    (Nat.le_refl _) (by omega)

/-- An element pays for itself, and for what it has in the container. -/
theorem Fills.step {p : M α} (hp : Fills w a b p) (ht : TakesByte p) (s : Nat) : Fills (fun v => s + w v) (a + b + s) 0 p := fun c r =>
  ((hp c r).and (ht c r)).mono fun c' r' x hx => by
    refine ⟨hx.1.1, fun v hv => ?_⟩
    have h1 := hx.1.2 v hv
    have h2 := Nat.mul_le_mul_left (b + s) (hx.2 v hv)
    rw [Nat.mul_add] at h2
    have h3 : (a + b + s) * r' = a * r' + (b + s) * r' := by rw [Nat.add_assoc, Nat.add_mul]
    have h4 : (a + b + s) * r = a * r + (b + s) * r := by rw [Nat.add_assoc, Nat.add_mul]
    show s + w v + _ ≤ _
    omega

theorem fill_times {p : M α} (hp : Fills w a b p) : ∀ n, Fills (total w) a (n * b) (repeatM n p)
  | 0 => fill_pure (Nat.zero_le _)
  | n + 1 => by
    unfold repeatM
    refine (fill_bind (w := w) (b' := n * b) hp fun v => ?_).mono (Nat.le_refl _) (by rw [Nat.succ_mul]; omega)
    refine (fill_bind (w := total w) (w' := total w) (b' := w v) (fill_times hp n) fun vs => fill_pure ?_).mono
      (Nat.le_refl _) (by omega)
    simp only [total]
    omega

theorem fill_repeatM {p : M α} (hp : Fills w a 0 p) (n : Nat) : Fills (total w) a 0 (repeatM n p) :=
  (fill_times hp n).mono (Nat.le_refl _) (by simp)

theorem fill_readUntilEof {w : Val → Nat} {p : M Val} (hp : Fills w a 0 p) : ∀ fuel, Fills (total w) a 0 (readUntilEof fuel p)
  | 0 => fill_fail _
  | n + 1 => fun c r => by
    refine Prog.Wc.bind ((hp c r).mono fun c' r' x hx => ?_)
    cases x with
    | error er =>
      simp only
      split
      · refine ⟨hx.1, fun z hz => ?_⟩
        cases hz
        have : a * r' ≤ a * r := Nat.mul_le_mul_left _ hx.1
        simp only [total]
        omega
      · exact ⟨hx.1, fun _ h => by cases h⟩
    | ok v =>
      refine Prog.Wc.bind ((fill_readUntilEof hp n c' r').mono fun c'' r'' y hy => ?_)
      cases y with
      | error er => exact ⟨Nat.le_trans hy.1 hx.1, fun _ h => by cases h⟩
      | ok vs =>
        refine ⟨Nat.le_trans hy.1 hx.1, fun z hz => ?_⟩
        cases hz
        have := hx.2 v rfl
        have := hy.2 vs rfl
        simp only [total]
        omega

theorem fill_canRead {n : Nat} {k : Option Bool → M α} (hk : ∀ o, Fills w a b (k o)) : Fills w a b (.canRead n k) :=
  fun c r o => hk o (c + 1) r

theorem fill_alloc {n m : Nat} {p : M α} (hp : Fills w a b p) : Fills w a b (.alloc n m p) := hp

/-- Bytes. -/
theorem fill_readBytes {n : Nat} {f : Bytes → M α} (hf : ∀ bs, bs.length = n → Fills w a (a * n + b) (f bs)) :
    Fills w a b (M.bind (readBytes n) f) := fun c r => by
  refine Prog.Wc.bind ⟨fun hn bs hb => ?_, fun er r' hr => ⟨hr, fun _ h => by cases h⟩⟩
  refine (hf bs hb (c + 1) (r - n)).mono fun c' r' x hx => ⟨by have := hx.1; omega, fun v hv => ?_⟩
  have h1 := hx.2 v hv
  have h2 : a * n + a * (r - n) = a * r := by rw [← Nat.mul_add]; congr 1; omega
  omega

/-- Borrowed bytes, or something else. -/
theorem fill_borrow {n : Nat} {k : Option (Except Err (Nat × Bytes)) → M α} (h0 : Fills w a b (k none))
    (h1 : ∀ er, Fills w a b (k (some (.error er)))) (h2 : ∀ x bs, bs.length = n → Fills w a (a * n + b) (k (some (.ok (x, bs))))) :
    Fills w a b (.borrow n k) := fun c r =>
  ⟨fun hn x bs hb => (h2 x bs hb (c + 1) (r - n)).mono fun c' r' y hy => ⟨by have := hy.1; omega, fun v hv => by
      have h3 := hy.2 v hv
      have h4 : a * n + a * (r - n) = a * r := by rw [← Nat.mul_add]; congr 1; omega
      omega⟩,
    fun er r1 hr => (h1 er (c + 1) r1).mono fun c' r' y hy => ⟨Nat.le_trans hy.1 hr, fun v hv => by
      have h3 := hy.2 v hv
      have h4 : a * r1 ≤ a * r := Nat.mul_le_mul_left _ hr
      omega⟩,
    h0 (c + 1) r⟩

theorem fill_borrowR {n : Nat} {k : Option (Except Err (Nat × Bytes)) → M α} (h0 : Fills w a b (k none))
    (h1 : ∀ er, Fills w a b (k (some (.error er)))) (h2 : ∀ x bs, bs.length = n → Fills w a (a * n + b) (k (some (.ok (x, bs))))) :
    Fills w a b (.borrowR n k) := fill_borrow h0 h1 h2

end

/-! ## Containers -/

section
variable {w : Val → Nat} {a b : Nat}

/-- Elements which are copied in bulk. -/
theorem total_ofMem {el : Elem} {s : Nat} (hm : ∀ m, w (el.ofMem m) = 0) (ms : List Bytes) :
    total (fun v => s + w v) (ms.map el.ofMem) = ms.length * s := by
  rw [total_const (c := s) _ fun v hv => ?_, List.length_map]
  obtain ⟨m, _, rfl⟩ := List.mem_map.mp hv
  rw [hm]
  rfl

theorem mapPanic_len {f : Bytes → Except Panic Bytes} : ∀ {L L' : List Bytes}, mapPanic f L = .ok L' → L'.length = L.length
  | [], _, h => by simp only [mapPanic, Except.ok.injEq] at h; subst h; rfl
  | a :: L, _, h => by
    simp only [mapPanic] at h
    split at h
    · cases h
    · split at h
      · cases h
      · rename_i hL
        cases h
        simp [mapPanic_len hL]

theorem fill_bulk (h : Host) (e : Endian) {el : Elem} {s n : Nat} (hm : ∀ m, w (el.ofMem m) = 0) {L : List Bytes} (hL : L.length = n) :
    Fills (total fun v => s + w v) a (n * s) (liftVals el (convSlice h e el L)) := by
  cases hc : convSlice h e el L with
  | error p => exact fill_fail _
  | ok ms =>
    have h1 : ms.length = n := by
      unfold convSlice at hc
      split at hc
      · rw [mapPanic_len hc, hL]
      · cases hc; exact hL
    refine fill_pure ?_
    rw [total_ofMem hm, h1]
    exact Nat.le_refl _

/-- What is known of elements which are copied in bulk or do not exist in memory. -/
structure ElemFills (w : Val → Nat) (a : Nat) (el : Elem) : Prop where
  rate : el.prim = true → el.size = 0 ∨ 1 ≤ a
  mem : el.prim = true → ∀ m, w (el.ofMem m) = 0
  zst : el.prim = false → el.size = 0 → w el.zst = 0

theorem le_scaled {a n s : Nat} (h : s = 0 ∨ 1 ≤ a) : n * s ≤ a * (n * s) + 0 := by
  rcases h with rfl | h
  · simp
  · exact Nat.le_mul_of_pos_left _ h

theorem fill_readVec (h : Host) (e : Endian) {el : Elem} (hel : ElemFills w a el)
    (hg : Fills (fun v => el.size + w v) a 0 el.read ∨ el.prim = true ∨ el.size = 0) (n : Nat) :
    Fills (total fun v => el.size + w v) a 0 (readVec h e el n) := by
  refine fill_ite (fun _ => fill_fail _) fun _ => fill_canRead fun o => fill_ite (fun _ => fill_fail _) fun _ =>
    fill_ite (fun _ => fill_fail _) fun _ => fill_alloc ?_
  refine fill_ite (fun hp => ?_) fun hp => fill_ite (fun hs => ?_) fun hs => ?_
  · exact fill_readBytes fun bs _ => (fill_bulk h e (hel.mem hp) (chunks_length _ _ _)).mono (Nat.le_refl _) (le_scaled (hel.rate hp))
  · refine fill_pure ?_
    rw [total_replicate, hs, hel.zst (by simpa using hp) hs]
    simp
  · refine fill_repeatM ?_ n
    rcases hg with h | h | h
    · exact h
    · exact absurd h hp
    · exact absurd h hs

theorem fill_readCow (h : Host) (hh : h.Ok) (e : Endian) {el : Elem} (hel : ElemFills w a el)
    (hg : Fills (fun v => el.size + w v) a 0 el.read ∨ el.prim = true ∨ el.size = 0) (n : Nat) :
    Fills (fun c => total (fun v => el.size + w v) c.vals) a 0 (readCow h e el n) := by
  have hv : Fills (fun c => total (fun v => el.size + w v) c.vals) a 0 (M.map CowVal.owned (readVec h e el n)) :=
    fill_map (fill_readVec h e hel hg n) fun _ => Nat.le_refl _
  refine fill_ite (fun hp => fill_borrow hv (fun _ => fill_fail _) fun x bs hb => ?_) fun _ => hv
  have hp : el.prim = true := by
    simp only [Bool.and_eq_true] at hp
    exact hp.1
  refine fill_ite (fun _ => fill_fail _) fun _ => fill_ite (fun _ => fill_ite (fun _ => fill_fail _) fun _ => fill_pure ?_) fun _ =>
    fill_ite (fun _ => fill_fail _) fun hi => fill_alloc (fill_pure ?_)
  · simp only [CowVal.vals]
    rw [total_ofMem (hel.mem hp), chunks_length, ← hb]
    refine Nat.le_trans (Nat.div_mul_le_self _ _) ?_
    rcases hel.rate hp with hs | hs
    · rw [hb]
      unfold wmul
      rw [hs]
      simp
    · exact Nat.le_trans (Nat.le_mul_of_pos_left _ hs) (Nat.le_add_right _ _)
  · simp only [CowVal.vals]
    rw [total_ofMem (hel.mem hp), chunks_length]
    have h1 : n * el.size ≤ h.isizeMax := by omega
    have h2 : wmul h n el.size = n * el.size := by
      unfold wmul
      refine Nat.mod_eq_of_lt ?_
      have := hh.isize
      omega
    rw [h2]
    exact le_scaled (hel.rate hp)

theorem fill_readCollection (h : Host) (e : Endian) {el : Elem} (hel : ElemFills w a el)
    (hg : Fills (fun v => el.size + w v) a 0 el.read) (n : Nat) :
    Fills (total fun v => el.size + w v) a 0 (readCollection h e el n) := by
  refine fill_ite (fun hp => fill_ite (fun _ => fill_fail _) fun _ => fill_borrowR (fill_repeatM hg n)
    (fun _ => fill_fail _) fun x bs hb => fill_ite (fun _ => fill_fail _) fun _ => fill_pure ?_) fun _ => fill_repeatM hg n
  simp only [Bool.and_eq_true] at hp
  rw [total_ofMem (hel.mem hp.1), chunks_length]
  exact le_scaled (hel.rate hp.1)

end

/-! ## All types -/

theorem total_le {α : Type} {w w' : α → Nat} (h : ∀ v, w v ≤ w' v) : ∀ vs, total w vs ≤ total w' vs
  | [] => Nat.le_refl _
  | v :: vs => by
    have := h v
    have := total_le h vs
    simp only [total]
    omega

/-- What an entry of a map has on the heap itself. -/
def entryOwn (T : Target) (k v : Ty) : Val → Nat
  | .pair a (.pair b .unit) => heap T k a + heap T v b
  | _ => 0

theorem heapEntry_le (T : Target) (k v : Ty) (x : Val) : heapEntry T k v x ≤ sizeOf T k + sizeOf T v + entryOwn T k v x := by
  unfold heapEntry entryOwn
  split <;> omega

theorem heap_map (T : Target) (k v : Ty) (vs : List Val) : heap T (.map k v) (.list vs) = total (heapEntry T k v) vs := by
  simp only [heap]
  rfl

theorem fill_len {h : Host} {e : Endian} (lr : LenR) {α : Type} {w : α → Nat} {a b : Nat} {f : Option Nat → M α}
    (hf : ∀ len, (len = none → lr.isRest = true) → Fills w a b (f len)) : Fills w a b (M.bind (readLenR h e lr) f) := by
  have hz : ∀ {p : M Nat} {a' b' g : Nat}, Costs a' b' g p → Fills w a b (M.bind (M.map some p) f) := fun hp c r => by
    refine Prog.Wc.bind (Prog.Wc.bind ((hp c r).mono fun c' r' x hx => ?_))
    cases x with
    | error er => exact ⟨hx.1, fun _ h => by cases h⟩
    | ok n =>
      refine (hf (some n) (by simp) c' r').mono fun c'' r'' y hy => ⟨Nat.le_trans hy.1 hx.1, fun v hv => ?_⟩
      have h1 := hy.2 v hv
      have h2 : a * r' ≤ a * r := Nat.mul_le_mul_left _ hx.1
      omega
  cases lr with
  | typed lt d =>
    cases d with
    | false => exact hz (cost_readLen _ _ _)
    | true => exact hz (cost_onEof (cost_readLen _ _ _) _)
  | fixed n => exact hf (some n) (by simp)
  | untilEof => exact hf none fun _ => rfl

theorem fill_asStr {k : StrKind} {T : Target} {a b : Nat} {bs : Bytes} (h : k = .ref ∨ bs.length ≤ b) :
    Fills (heap T (.str k)) a b (asStr bs) := by
  refine fill_ite (fun _ => fill_pure ?_) fun _ => fill_fail _
  rcases h with rfl | h
  · simp [heap]
  · cases k <;> simp [heap] <;> exact h

theorem total_one (vs : List Val) : total (fun _ => 1 + 0) vs = vs.length := by
  rw [total_const (c := 1) _ fun _ _ => rfl, Nat.mul_one]

theorem toBytes_len (vs : List Val) : (toBytes vs).length = vs.length := by simp [toBytes]

theorem u8_fills (T : Target) (e : Endian) {a : Nat} (ha : 1 ≤ a) : ElemFills (fun _ => 0) a (u8Elem T e) where
  rate := fun _ => .inr ha
  mem := fun _ _ => rfl
  zst := fun _ _ => rfl

theorem u8_read (T : Target) (e : Endian) {a : Nat} (ha : 1 ≤ a) : Fills (fun _ => 1 + 0) a 0 (u8Elem T e).read :=
  ((fill_none (w := fun _ => 0) (a := 0) (b := 0) (cost_map _ (cost_readNum _ _ 1)) fun _ => rfl).step
    ((cost_map _ (cost_readNum _ _ 1)).takes (Nat.le_refl _)) 1).mono ha (Nat.le_refl _)

theorem fill_readStr {T : Target} (hT : T.Ok) {e : Endian} (k : StrKind) {a : Nat} (ha : k = .ref ∨ 1 ≤ a) (len : Option Nat) :
    Fills (heap T (.str k)) a 0 (readStr T e k len) := by
  have hz : (u8Elem T e).size = 1 := rfl
  cases k with
  | owned =>
    have ha : 1 ≤ a := ha.resolve_left (by decide)
    cases len with
    | some n =>
      exact fill_bind (b' := 0) (fill_readVec T.toHost e (u8_fills T e ha) (.inr (.inl rfl)) n) fun vs => fill_asStr (.inr (by
        rw [toBytes_len, hz, total_one]; exact Nat.le_refl _))
    | none =>
      exact fill_bind (b' := 0) (fill_readUntilEof (u8_read T e ha) _) fun vs => fill_asStr (.inr (by
        rw [toBytes_len, total_one]; exact Nat.le_refl _))
  | cow =>
    have ha : 1 ≤ a := ha.resolve_left (by decide)
    cases len with
    | some n =>
      exact fill_bind (b' := 0) (fill_readCow T.toHost hT.toOk e (u8_fills T e ha) (.inr (.inl rfl)) n) fun c => fill_asStr (.inr (by
        rw [toBytes_len, hz, total_one]; exact Nat.le_refl _))
    | none =>
      exact fill_bind (b' := 0) (fill_readUntilEof (u8_read T e ha) _) fun vs => fill_asStr (.inr (by
        rw [toBytes_len, total_one]; exact Nat.le_refl _))
  | ref =>
    cases len with
    | some n => exact fill_then (cost_borrowBytes _) fun _ => fill_asStr (.inl rfl)
    | none => exact fill_then cost_borrowRest fun _ => fill_asStr (.inl rfl)

/-- An element with its place in the container. -/
abbrev inPlace (T : Target) (t : Ty) (v : Val) : Nat := sizeOf T t + heap T t v

theorem fill_readSeq {T : Target} (hT : T.Ok) {e : Endian} {t : Ty} {k : SeqKind} (hk : k ≠ .ref) {rd : M Val} {a : Nat}
    (hel : ElemFills (heap T t) a (elemOf T t rd)) (len : Option Nat)
    (hg : Fills (inPlace T t) a 0 rd ∨ (len ≠ none ∧ (isPrimitive T t = true ∨ sizeOf T t = 0))) :
    Fills (heap T (.seq k t)) a 0 (readSeq T e k (elemOf T t rd) len) := by
  have hv : ∀ vs, heap T (.seq k t) (.list vs) = total (fun v => sizeOf T t + heap T t v) vs := fun vs => by
    cases k with
    | ref => exact absurd rfl hk
    | vec => simp only [heap]
    | cow => simp only [heap]
  cases len with
  | none =>
    have ht : Fills (inPlace T t) a 0 rd := hg.elim id fun h => absurd rfl h.1
    have h1 := fill_map (w' := heap T (.seq k t)) (f := Val.list) (fill_readUntilEof ht T.fuel)
      fun vs => Nat.le_of_eq (hv vs)
    cases k with
    | ref => exact absurd rfl hk
    | vec => exact h1
    | cow => exact h1
  | some n =>
    have hg' : Fills (fun v => (elemOf T t rd).size + heap T t v) a 0 (elemOf T t rd).read ∨ (elemOf T t rd).prim = true ∨
        (elemOf T t rd).size = 0 := hg.imp id fun h => h.2
    cases k with
    | ref => exact absurd rfl hk
    | vec => exact fill_map (fill_readVec T.toHost e hel hg' n) fun vs => Nat.le_of_eq (hv vs)
    | cow => exact fill_map (fill_readCow T.toHost hT.toOk e hel hg' n) fun vs => Nat.le_of_eq (hv _)

theorem fill_readKV {T : Target} {e : Endian} {k v : Ty} {rk rv : M Val} {a : Nat} (ha : sizeOf T k + sizeOf T v = 0 ∨ 1 ≤ a)
    (hp : Fills (fun x => sizeOf T k + sizeOf T v + entryOwn T k v x) a 0 (readPair (elemOf T k rk) (elemOf T v rv))) (n : Nat) :
    Fills (total fun x => sizeOf T k + sizeOf T v + entryOwn T k v x) a 0
      (readKV T.toHost e (elemOf T k rk) (elemOf T v rv) n) := by
  have hr := fill_repeatM hp n
  refine fill_ite (fun h => fill_ite (fun _ => fill_fail _) fun _ => fill_borrowR hr (fun _ => fill_fail _) fun x bs _ =>
    fill_ite (fun _ => fill_fail _) fun _ => fill_pure ?_) fun _ => hr
  simp only [Bool.and_eq_true] at h
  rw [total_const (c := sizeOf T k + sizeOf T v) _ fun x hx => ?_, List.length_map, chunks_length]
  · exact le_scaled ha
  · obtain ⟨m, _, rfl⟩ := List.mem_map.mp hx
    simp only [ofMemPair, entryOwn, elemOf]
    rw [heap_ofMem k _ h.1.1, heap_ofMem v _ h.1.2]
    rfl

theorem fill_readArray {T : Target} {e : Endian} {t : Ty} {rd : M Val} {a b : Nat} (inl : Bool) (hr : Fills (heap T t) a b rd) (n : Nat) :
    Fills (heap T (.array n t)) a (n * b) (readArray T e inl (elemOf T t rd) n) := by
  have hv : ∀ vs, heap T (.array n t) (.list vs) ≤ total (heap T t) vs := fun vs => Nat.le_of_eq (by simp only [heap])
  refine fill_ite (fun h => fill_then (cost_readBytes _) fun bs => ?_) fun _ => fill_map (fill_times hr n) hv
  simp only [Bool.and_eq_true] at h
  refine fill_map (w := total (heap T t)) ?_ hv
  have h1 := fill_bulk (w := heap T t) (a := a) (s := 0) (el := elemOf T t rd) T.toHost e (fun m => heap_ofMem t m h.2)
    (chunks_length (elemOf T t rd).size n bs)
  simp only [Nat.zero_add, Nat.mul_zero] at h1
  exact h1.mono (Nat.le_refl _) (Nat.zero_le _)

theorem elem_fills {T : Target} (hT : T.Ok) {t : Ty} (hl : layoutOk T t = true) (rd : M Val) {a : Nat}
    (ha : sizeOf T t = 0 ∨ 1 ≤ a) : ElemFills (heap T t) a (elemOf T t rd) where
  rate := fun _ => ha
  mem := fun hp m => heap_ofMem t m hp
  zst := fun _ hs => heap_zst hT t (sizeOf_zst hT hs) hl

theorem steady_fills {T : Target} {e : Endian} {t : Ty} {rest : Bool} {len : Option Nat} {a b : Nat}
    (h1 : (eats T true t || (!rest && (isPrimitive T t || sizeOf T t == 0))) = true) (hs : steady T false t = true)
    (hn : len = none → rest = true) (hf : Fills (heap T t) a b (decode T e t Cx.std)) :
    Fills (inPlace T t) (a + b + sizeOf T t) 0 (decode T e t Cx.std) ∨ (len ≠ none ∧ (isPrimitive T t = true ∨ sizeOf T t = 0)) := by
  cases he : eats T true t with
  | true =>
    exact .inl (hf.step ((decode_costs t Cx.std false (fun h => by cases h) hs).takes
      (by rw [show eats T Cx.std.len.prefixed t = true from he]; exact Nat.le_refl _)) _)
  | false =>
    rw [he] at h1
    simp only [Bool.false_or, Bool.and_eq_true, Bool.or_eq_true, Bool.not_eq_true', beq_iff_eq] at h1
    refine .inr ⟨fun h => ?_, h1.2⟩
    have h2 := hn h
    rw [h1.1] at h2
    cases h2

mutual
theorem decode_fills {T : Target} (hT : T.Ok) {e : Endian} : ∀ (t : Ty) (cx : Cx) (rest : Bool), (cx.len.isRest = true → rest = true) →
    steady T rest t = true → layoutOk T t = true → Fills (heap T t) (memPerByte T t) (ownMem T t) (decode T e t cx)
  | .prim _, cx, rest, hr, hs, _ | .usize, cx, rest, hr, hs, _ | .bool, cx, rest, hr, hs, _ | .char, cx, rest, hr, hs, _
  | .nonZero _, cx, rest, hr, hs, _ | .atomic _, cx, rest, hr, hs, _ | .ipv4, cx, rest, hr, hs, _ | .ipv6, cx, rest, hr, hs, _
  | .ipAddr, cx, rest, hr, hs, _ | .duration, cx, rest, hr, hs, _ | .systemTime, cx, rest, hr, hs, _
  | .endianness, cx, rest, hr, hs, _ | .varint64, cx, rest, hr, hs, _ | .uuid, cx, rest, hr, hs, _ | .unit, cx, rest, hr, hs, _
  | .refArray _ _, cx, rest, hr, hs, _ | .via _ _, cx, rest, hr, hs, _ | .seq .ref _, cx, rest, hr, hs, _ =>
    fill_none (decode_costs _ cx rest hr hs) fun _ => by simp [heap]
  | .str k, cx, _, _, _, _ => by
    unfold decode
    exact fill_len cx.len fun _ _ => fill_readStr hT k (by cases k <;> simp [memPerByte]) _
  | .seq .vec t, cx, rest, hr, hs, hl => by
    unfold decode
    simp only [layoutOk] at hl
    simp only [steady, Bool.and_eq_true] at hs
    refine fill_ite (fun _ => fill_fail _) fun _ => fill_len cx.len fun len hn => ?_
    exact fill_readSeq hT (by decide) (elem_fills hT hl _ (by simp only [memPerByte]; omega)) len
      (steady_fills hs.1 hs.2 (fun h => hr (hn h)) (decode_fills hT t Cx.std false (fun h => by cases h) hs.2 hl))
  | .seq .cow t, cx, rest, hr, hs, hl => by
    unfold decode
    simp only [layoutOk] at hl
    simp only [steady, Bool.and_eq_true] at hs
    refine fill_ite (fun _ => fill_fail _) fun _ => fill_len cx.len fun len hn => ?_
    exact fill_readSeq hT (by decide) (elem_fills hT hl _ (by simp only [memPerByte]; omega)) len
      (steady_fills hs.1 hs.2 (fun h => hr (hn h)) (decode_fills hT t Cx.std false (fun h => by cases h) hs.2 hl))
  | .set t, cx, rest, hr, hs, hl => by
    unfold decode
    simp only [layoutOk] at hl
    simp only [steady, Bool.and_eq_true] at hs
    have ih := (decode_fills (e := e) hT t Cx.std false (fun h => by cases h) hs.2 hl).step
      ((decode_costs t Cx.std false (fun h => by cases h) hs.2).takes
        (by rw [show eats T Cx.std.len.prefixed t = true from hs.1]; exact Nat.le_refl _)) (sizeOf T t)
    have hv : ∀ vs, heap T (.set t) (.list (setOf vs)) ≤ total (fun v => sizeOf T t + heap T t v) vs := fun vs => by
      simp only [heap]
      exact setOf_total _ _
    refine fill_len cx.len fun len hn => ?_
    cases len with
    | some n =>
      exact fill_map (fill_readCollection T.toHost e (el := elemOf T t (decode T e t Cx.std))
        (elem_fills hT hl _ (by omega)) ih n) hv
    | none => exact fill_map (fill_readUntilEof ih _) hv
  | .map k v, cx, rest, hr, hs, hl => by
    unfold decode
    simp only [layoutOk, Bool.and_eq_true] at hl
    simp only [steady, Bool.and_eq_true] at hs
    have ih1 := decode_fills (e := e) hT k Cx.std false (fun h => by cases h) hs.1.2 hl.1
    have ih2 := decode_fills (e := e) hT v Cx.std false (fun h => by cases h) hs.2 hl.2
    have hp : Fills (entryOwn T k v) (max (memPerByte T k) (memPerByte T v)) (ownMem T k + ownMem T v)
        (readPair (elemOf T k (decode T e k Cx.std)) (elemOf T v (decode T e v Cx.std))) := by
      refine fill_bind (ih1.mono (Nat.le_max_left _ _) (Nat.le_refl _)) fun x => ?_
      refine (fill_bind (b' := heap T k x) (ih2.mono (Nat.le_max_right _ _) (Nat.le_refl _)) fun y => fill_pure ?_).mono (Nat.le_refl _)
        (by omega)
      simp only [entryOwn]
      omega
    have ht : TakesByte (readPair (elemOf T k (decode T e k Cx.std)) (elemOf T v (decode T e v Cx.std))) := by
      have c1 := decode_costs (e := e) k Cx.std false (fun h => by cases h) hs.1.2
      have c2 := decode_costs (e := e) v Cx.std false (fun h => by cases h) hs.2
      refine (cost_readPair (ek := elemOf T k (decode T e k Cx.std)) (ev := elemOf T v (decode T e v Cx.std))
        (c1.mono (Nat.le_max_left _ _) (Nat.le_refl _) (Nat.le_refl _))
        (c2.mono (Nat.le_max_right _ _) (Nat.le_refl _) (Nat.le_refl _))).takes ?_
      have h1 := hs.1.1
      show 1 ≤ (eats T true k).toNat + (eats T true v).toNat
      cases h2 : eats T true k <;> cases h3 : eats T true v <;> simp_all
    have hv : ∀ vs, heap T (.map k v) (.list (mapOf vs)) ≤ total (fun x => sizeOf T k + sizeOf T v + entryOwn T k v x) vs :=
      fun vs => by
        rw [heap_map]
        exact Nat.le_trans (mapOf_total vs) (total_le (heapEntry_le T k v) vs)
    refine fill_len cx.len fun len hn => ?_
    cases len with
    | some n => exact fill_map (fill_readKV (by omega) (hp.step ht _) n) hv
    | none => exact fill_map (fill_readUntilEof (hp.step ht _) _) hv
  | .array n t, cx, rest, hr, hs, hl => by
    unfold decode
    simp only [layoutOk] at hl
    simp only [steady] at hs
    exact fill_readArray cx.inl (decode_fills hT t Cx.std false (fun h => by cases h) hs hl) n
  | .option t, cx, rest, hr, hs, hl => by
    unfold decode
    simp only [layoutOk] at hl
    simp only [steady] at hs
    have ih := decode_fills (e := e) hT t (cx.opt t) rest (fun h => hr (by cases t <;> first | exact h | cases h)) hs hl
    refine fill_then (cost_readBool _ _) fun _ => fill_ite (fun _ => fill_map ih fun v => ?_) fun _ => fill_pure ?_
    · simp [heap]
    · simp [heap]
  | .result t er, cx, rest, hr, hs, hl => by
    unfold decode
    simp only [layoutOk, Bool.and_eq_true] at hl
    simp only [steady, Bool.and_eq_true] at hs
    have ih1 := decode_fills (e := e) hT t Cx.std false (fun h => by cases h) hs.1 hl.1
    have ih2 := decode_fills (e := e) hT er Cx.std false (fun h => by cases h) hs.2 hl.2
    refine fill_then (cost_readBool _ _) fun _ => fill_ite (fun _ => fill_map (ih1.mono (Nat.le_max_left _ _) (Nat.le_max_left _ _))
      fun v => ?_) fun _ => fill_map (ih2.mono (Nat.le_max_right _ _) (Nat.le_max_right _ _)) fun v => ?_
    · simp [heap]
    · simp [heap]
  | .range t, cx, rest, hr, hs, hl => by
    unfold decode
    simp only [layoutOk] at hl
    simp only [steady] at hs
    have ih := decode_fills (e := e) hT t Cx.std false (fun h => by cases h) hs hl
    refine fill_bind ih fun x => (fill_bind (b' := heap T t x) ih fun y => fill_pure ?_).mono (Nat.le_refl _) (by omega)
    simp only [heap]
    omega
  | .rangeInc t, cx, rest, hr, hs, hl => by
    unfold decode
    simp only [layoutOk] at hl
    simp only [steady] at hs
    have ih := decode_fills (e := e) hT t Cx.std false (fun h => by cases h) hs hl
    refine fill_bind ih fun x => (fill_bind (b' := heap T t x) ih fun y => fill_pure ?_).mono (Nat.le_refl _) (by omega)
    simp only [heap]
    omega
  | .pair a b, cx, rest, hr, hs, hl => by
    unfold decode
    simp only [layoutOk, Bool.and_eq_true] at hl
    simp only [steady, Bool.and_eq_true] at hs
    have ih1 := decode_fills (e := e) hT a Cx.std false (fun h => by cases h) hs.1 hl.1
    have ih2 := decode_fills (e := e) hT b Cx.std false (fun h => by cases h) hs.2 hl.2
    refine fill_bind (ih1.mono (Nat.le_max_left _ _) (Nat.le_refl _)) fun x => (fill_bind (b' := heap T a x)
      (ih2.mono (Nat.le_max_right _ _) (Nat.le_refl _)) fun y => fill_pure ?_).mono (Nat.le_refl _) (by omega)
    simp only [heap]
    omega
  | .box t, cx, rest, hr, hs, hl => by
    unfold decode
    simp only [layoutOk] at hl
    simp only [steady] at hs
    have ih := decode_fills (e := e) hT t Cx.std false (fun h => by cases h) hs hl
    refine fun c r => (ih c r).mono fun c' r' x hx => ⟨hx.1, fun v hv => ?_⟩
    have h1 := hx.2 v hv
    have h2 : heap T (.box t) v = sizeOf T t + heap T t v := by simp only [heap]
    show heap T (.box t) v + memPerByte T t * r' ≤ memPerByte T t * r + (sizeOf T t + ownMem T t)
    omega
  | .struct d fs, cx, rest, hr, hs, hl => by
    unfold decode
    simp only [layoutOk, Bool.and_eq_true] at hl
    simp only [steady] at hs
    have h : heap T (.struct d fs) = heapFields T fs := by funext v; simp only [heap]
    rw [h]
    exact decodeFields_fills hT fs [] hs hl.2
  | .enum d vs, cx, rest, hr, hs, hl => by
    unfold decode
    simp only [layoutOk] at hl
    simp only [steady] at hs
    refine fill_then (cost_readTag _ _ d) fun tag => decodeVariants_fills hT vs tag 0 hs hl fun i v => ?_
    simp only [heap, Nat.zero_add]
    exact Nat.le_refl _
theorem decodeFields_fills {T : Target} (hT : T.Ok) {e : Endian} : ∀ (fs : Fields) (prev : List Val), steadyFields T fs = true →
    layoutOkFields T fs = true → Fills (heapFields T fs) (memPerByteFields T fs) (ownMemFields T fs) (decodeFields T e fs prev)
  | .nil, _, _, _ => by
    unfold decodeFields
    exact fill_pure (by simp [heapFields])
  | .cons a t fs, prev, hs, hl => by
    unfold decodeFields
    simp only [steadyFields, Bool.and_eq_true] at hs
    simp only [layoutOkFields, Bool.and_eq_true] at hl
    have ih := fun prev => (decodeFields_fills (e := e) hT fs prev hs.2 hl.2).mono (Nat.le_max_right (memPerByte T t) _) (Nat.le_refl _)
    have hw : ∀ v vs, heapFields T (.cons a t fs) (.pair v vs) ≤ heap T t v + heapFields T fs vs := fun v vs => by
      simp only [heapFields]
      split <;> omega
    cases hk : a.skip with
    | true =>
      rw [if_pos rfl]
      refine (fill_bind (b' := heap T t a.dflt) (ih prev) fun vs => fill_pure ?_).mono (Nat.le_refl _) ?_
      · have := hw a.dflt vs
        omega
      · simp only [ownMemFields, hk, Bool.true_or, if_true]
        omega
    | false =>
      rw [if_neg (by simp)]
      have h1 : Fills (fun v => if a.varint then 0 else heap T t v) (memPerByteFields T (.cons a t fs)) (ownMem T t)
          (if a.varint then M.map .num (readVarint T.toHost e) else decode T e t (a.cx T.toHost prev)) := by
        cases hv : a.varint with
        | true => exact fill_none (cost_map _ (cost_readVarint _ _)) fun _ => rfl
        | false =>
          have hs1 := hs.1
          rw [hk, hv, Bool.false_or, Bool.false_or] at hs1
          rw [if_neg (by simp)]
          refine (decode_fills hT t (a.cx T.toHost prev) a.toEnd ?_ hs1 hl.1).mono (Nat.le_max_left _ _) (Nat.le_refl _)
          unfold Attrs.cx Attrs.wcx Attrs.toEnd
          cases a.opaqueTy with
          | true => exact fun h => by cases h
          | false =>
            rcases a.len with _ | ⟨_ | _ | _⟩
            · exact fun h => by cases h
            · exact fun h => by cases h
            · exact fun h => by cases h
            · exact fun _ => rfl
      have h2 := fill_ite (c := a.pre.isEmpty = true) (fun _ => h1) fun _ => fill_then (cost_readConstant (T := T) (e := e) a.pre) fun _ => h1
      have h3 := fill_ite (c := a.defaultOnEof = true) (b := (if a.skip || a.defaultOnEof then heap T t a.dflt else 0) + ownMem T t)
        (fun h => fill_onEof (h2.mono (Nat.le_refl _) (Nat.le_add_left _ _)) (d := a.dflt) (by
          simp only [h, Bool.or_true, if_true]
          split <;> omega)) fun _ => h2.mono (Nat.le_refl _) (Nat.le_add_left _ _)
      refine fill_bind h3 fun v => (fill_bind (b' := if a.varint then 0 else heap T t v) (ih (prev ++ [v])) fun vs => fill_pure ?_).mono
        (Nat.le_refl _) (by omega)
      simp only [heapFields]
      omega
theorem decodeVariants_fills {T : Target} (hT : T.Ok) {e : Endian} {w : Val → Nat} : ∀ (vs : Variants) (tag i : Nat),
    steadyVariants T vs = true → layoutOkVariants T vs = true → (∀ k v, w (.variant (i + k) v) ≤ heapVariants T vs k v) →
    Fills w (memPerByteVariants T vs) (ownMemVariants T vs) (decodeVariants T e vs tag i)
  | .nil, _, _, _, _, _ => by unfold decodeVariants; exact fill_fail _
  | .cons tag' fs vs, tag, i, hs, hl, hw => by
    unfold decodeVariants
    simp only [steadyVariants, Bool.and_eq_true] at hs
    simp only [layoutOkVariants, Bool.and_eq_true] at hl
    refine fill_ite (fun _ => fill_map ((decodeFields_fills hT fs [] hs.1 hl.1).mono (Nat.le_max_left _ _) (Nat.le_max_left _ _))
      fun v => ?_) fun _ => (decodeVariants_fills hT vs tag (i + 1) hs.2 hl.2 fun k v => ?_).mono (Nat.le_max_right _ _)
        (Nat.le_max_right _ _)
    · have := hw 0 v
      simp only [heapVariants, Nat.add_zero] at this
      exact this
    · have := hw (k + 1) v
      simp only [heapVariants] at this
      rw [Nat.add_assoc, Nat.add_comm 1 k]
      exact this
end

end Verif
