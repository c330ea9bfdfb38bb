import Verif.PropsBulk
import Verif.Samples

/-!
# Which references a value holds

`read_from_stream_unbuffered` and its relatives return a `T: Readable<'a>` for any lifetime `'a` the caller likes, so that a
reference to the buffer of the stream reader would dangle. Readers which answer `None` to `read_bytes_borrowed` and
`read_bytes_borrowed_until_eof` (src/reader.rs:98-111) never make any: `lent t v` says that a value contains a reference.
-/

namespace Verif

set_option linter.unusedSectionVars false

mutual
/-- The value `v` of type `t` contains a reference (`&str`, `&[T]`, `&[T; N]`) of one of the types `bad` which is not the default of
a field. Values made by conversions (`via`: chrono, regex, glam) are owned. -/
def holds (bad : Ty → Bool) : Ty → Val → Prop
  | .str .ref, .bytes _ => bad (.str .ref) = true
  | .seq .ref t, .list _ => bad (.seq .ref t) = true
  | .refArray n t, .list _ => bad (.refArray n t) = true
  | .seq .vec t, .list vs | .seq .cow t, .list vs | .set t, .list vs | .array _ t, .list vs => ∃ v ∈ vs, holds bad t v
  | .map k v, .list vs => ∃ a b, Val.pair a (.pair b .unit) ∈ vs ∧ (holds bad k a ∨ holds bad v b)
  | .option t, .some v => holds bad t v
  | .result t _, .variant 1 v => holds bad t v
  | .result _ er, .variant 0 v => holds bad er v
  | .range t, .pair a (.pair b _) | .rangeInc t, .pair a (.pair b _) => holds bad t a ∨ holds bad t b
  | .pair a b, .pair x y => holds bad a x ∨ holds bad b y
  | .box t, v => holds bad t v
  | .struct _ fs, v => holdsFields bad fs v
  | .enum _ vs, .variant i v => holdsVariants bad vs i v
  | _, _ => False
/-- Fields. -/
def holdsFields (bad : Ty → Bool) : Fields → Val → Prop
  | .cons a t fs, .pair v rest => (holds bad t v ∧ ¬ ((a.skip = true ∨ a.defaultOnEof = true) ∧ v = a.dflt)) ∨ holdsFields bad fs rest
  | _, _ => False
/-- The `i`-th variant. -/
def holdsVariants (bad : Ty → Bool) : Variants → Nat → Val → Prop
  | .nil, _, _ => False
  | .cons _ fs _, 0, v => holdsFields bad fs v
  | .cons _ _ vs, i + 1, v => holdsVariants bad vs i v
end

/-- The value `v` of type `t` contains a reference which is not the default of a field. -/
abbrev lent : Ty → Val → Prop := holds fun _ => true

section
variable {bad : Ty → Bool}

mutual
theorem noRefs_unlent : ∀ (t : Ty) (v : Val), noRefs t = true → ¬ holds bad t v
  | .seq .vec t, v, h => by
    simp only [noRefs, Bool.and_eq_true] at h
    cases v <;> simp only [holds, not_false_eq_true]
    rintro ⟨x, _, hx⟩; exact noRefs_unlent t x h.2 hx
  | .seq .cow t, v, h => by
    simp only [noRefs, Bool.and_eq_true] at h
    cases v <;> simp only [holds, not_false_eq_true]
    rintro ⟨x, _, hx⟩; exact noRefs_unlent t x h.2 hx
  | .seq .ref t, v, h => by simp [noRefs] at h
  | .str .ref, v, h => by simp [noRefs] at h
  | .refArray _ _, v, h => by simp [noRefs] at h
  | .set t, v, h => by
    simp only [noRefs] at h
    cases v <;> simp only [holds, not_false_eq_true]
    rintro ⟨x, _, hx⟩; exact noRefs_unlent t x h hx
  | .array _ t, v, h => by
    simp only [noRefs] at h
    cases v <;> simp only [holds, not_false_eq_true]
    rintro ⟨x, _, hx⟩; exact noRefs_unlent t x h hx
  | .map k w, v, h => by
    simp only [noRefs, Bool.and_eq_true] at h
    cases v <;> simp only [holds, not_false_eq_true]
    rintro ⟨a, b, _, hx | hx⟩
    · exact noRefs_unlent k a h.1 hx
    · exact noRefs_unlent w b h.2 hx
  | .option t, v, h => by
    simp only [noRefs] at h
    cases v <;> simp only [holds, not_false_eq_true]
    exact noRefs_unlent t _ h
  | .result a b, .variant 0 x, h => by
    simp only [noRefs, Bool.and_eq_true] at h
    simp only [holds]; exact noRefs_unlent b x h.2
  | .result a b, .variant 1 x, h => by
    simp only [noRefs, Bool.and_eq_true] at h
    simp only [holds]; exact noRefs_unlent a x h.1
  | .result a b, .variant (n + 2) x, _ => by simp [holds]
  | .result _ _, .unit, _ | .result _ _, .num _, _ | .result _ _, .bool _, _ | .result _ _, .bytes _, _ | .result _ _, .list _, _
  | .result _ _, .pair _ _, _ | .result _ _, .none, _ | .result _ _, .some _, _ => by simp [holds]
  | .range t, .pair a (.pair b _), h => by
    simp only [noRefs] at h
    simp only [holds]
    rintro (hx | hx) <;> exact noRefs_unlent t _ h hx
  | .rangeInc t, .pair a (.pair b _), h => by
    simp only [noRefs] at h
    simp only [holds]
    rintro (hx | hx) <;> exact noRefs_unlent t _ h hx
  | .range _, .unit, _ | .range _, .num _, _ | .range _, .bool _, _ | .range _, .bytes _, _ | .range _, .list _, _
  | .range _, .none, _ | .range _, .some _, _ | .range _, .variant _ _, _
  | .range _, .pair _ .unit, _ | .range _, .pair _ (.num _), _ | .range _, .pair _ (.bool _), _ | .range _, .pair _ (.bytes _), _
  | .range _, .pair _ (.list _), _ | .range _, .pair _ .none, _ | .range _, .pair _ (.some _), _ | .range _, .pair _ (.variant _ _), _
  | .rangeInc _, .unit, _ | .rangeInc _, .num _, _ | .rangeInc _, .bool _, _ | .rangeInc _, .bytes _, _ | .rangeInc _, .list _, _
  | .rangeInc _, .none, _ | .rangeInc _, .some _, _ | .rangeInc _, .variant _ _, _
  | .rangeInc _, .pair _ .unit, _ | .rangeInc _, .pair _ (.num _), _ | .rangeInc _, .pair _ (.bool _), _
  | .rangeInc _, .pair _ (.bytes _), _ | .rangeInc _, .pair _ (.list _), _ | .rangeInc _, .pair _ .none, _
  | .rangeInc _, .pair _ (.some _), _ | .rangeInc _, .pair _ (.variant _ _), _ => by simp [holds]
  | .pair a b, v, h => by
    simp only [noRefs, Bool.and_eq_true] at h
    cases v <;> simp only [holds, not_false_eq_true]
    rintro (hx | hx)
    · exact noRefs_unlent a _ h.1 hx
    · exact noRefs_unlent b _ h.2 hx
  | .box t, v, h => by
    simp only [noRefs] at h
    simp only [holds]; exact noRefs_unlent t v h
  | .struct _ fs, v, h => by
    simp only [noRefs] at h
    simp only [holds]; exact noRefs_unlentFields fs v h
  | .enum _ vs, v, h => by
    simp only [noRefs] at h
    cases v <;> simp only [holds, not_false_eq_true]
    exact noRefs_unlentVariants vs _ _ h
  | .str .owned, v, _ | .str .cow, v, _ | .prim _, v, _ | .usize, v, _ | .bool, v, _ | .char, v, _ | .nonZero _, v, _ | .atomic _, v, _ | .ipv4, v, _
  | .ipv6, v, _ | .ipAddr, v, _ | .duration, v, _ | .systemTime, v, _ | .endianness, v, _ | .varint64, v, _ | .uuid, v, _
  | .unit, v, _ | .via _ _, v, _ => by simp [holds]
theorem noRefs_unlentFields : ∀ (fs : Fields) (v : Val), noRefsFields fs = true → ¬ holdsFields bad fs v
  | .nil, v, _ => by simp [holdsFields]
  | .cons a t fs, v, h => by
    simp only [noRefsFields, Bool.and_eq_true] at h
    cases v <;> simp only [holdsFields, not_false_eq_true]
    rintro (hx | hx)
    · exact noRefs_unlent t _ h.1 hx.1
    · exact noRefs_unlentFields fs _ h.2 hx
theorem noRefs_unlentVariants : ∀ (vs : Variants) (i : Nat) (v : Val), noRefsVariants vs = true → ¬ holdsVariants bad vs i v
  | .nil, _, v, _ => by simp [holdsVariants]
  | .cons _ fs vs, 0, v, h => by
    simp only [noRefsVariants, Bool.and_eq_true] at h
    simp only [holdsVariants]; exact noRefs_unlentFields fs v h.1
  | .cons _ fs vs, i + 1, v, h => by
    simp only [noRefsVariants, Bool.and_eq_true] at h
    simp only [holdsVariants]; exact noRefs_unlentVariants vs i v h.2
end

mutual
theorem zst_unlent : ∀ (t : Ty), ¬ holds bad t (zstVal t)
  | .array n t => by
    simp only [zstVal, holds]
    rintro ⟨v, hv, hl⟩
    rw [List.mem_replicate] at hv
    rw [hv.2] at hl
    exact zst_unlent t hl
  | .range t => by
    simp only [zstVal, holds]
    rintro (h | h) <;> exact zst_unlent t h
  | .pair a b => by
    simp only [zstVal, holds]
    rintro (h | h)
    · exact zst_unlent a h
    · exact zst_unlent b h
  | .struct _ fs => by simp only [zstVal, holds]; exact zst_unlentFields fs
  | .enum _ (.cons _ fs _) => by simp only [zstVal, holds, holdsVariants]; exact zst_unlentFields fs
  | .enum _ .nil | .seq .vec _ | .seq .cow _ | .seq .ref _ | .str .ref | .refArray _ _ | .set _ | .map _ _ | .option _ | .result _ _
  | .rangeInc _ | .via _ _ | .str .owned | .str .cow | .prim _ | .usize | .bool | .char | .nonZero _ | .atomic _ | .ipv4
  | .ipv6 | .ipAddr | .duration | .systemTime | .endianness | .varint64 | .uuid | .unit => by simp [zstVal, holds]
  | .box t => by
    simp only [zstVal, holds]
    exact unit_unlent t
theorem zst_unlentFields : ∀ (fs : Fields), ¬ holdsFields bad fs (zstFields fs)
  | .nil => by simp [holdsFields]
  | .cons a t fs => by
    simp only [zstFields, holdsFields]
    rintro (h | h)
    · exact zst_unlent t h.1
    · exact zst_unlentFields fs h
theorem unit_unlent : ∀ (t : Ty), ¬ holds bad t .unit
  | .box t => by simp only [holds]; exact unit_unlent t
  | .struct _ .nil => by simp [holds, holdsFields]
  | .struct _ (.cons _ _ _) => by simp [holds, holdsFields]
  | .array _ _ | .range _ | .pair _ _
  | .enum _ _ | .seq .vec _ | .seq .cow _ | .seq .ref _ | .str .ref | .refArray _ _ | .set _ | .map _ _ | .option _ | .result _ _
  | .rangeInc _ | .via _ _ | .str .owned | .str .cow | .prim _ | .usize | .bool | .char | .nonZero _ | .atomic _ | .ipv4
  | .ipv6 | .ipAddr | .duration | .systemTime | .endianness | .varint64 | .uuid | .unit => by simp [holds]
end

theorem num_unlent (n : Nat) : ∀ (t : Ty), ¬ holds bad t (.num n)
  | .box t => by simp only [holds]; exact num_unlent n t
  | .struct _ .nil => by simp [holds, holdsFields]
  | .struct _ (.cons _ _ _) => by simp [holds, holdsFields]
  | .array _ _ | .range _ | .pair _ _
  | .enum _ _ | .seq .vec _ | .seq .cow _ | .seq .ref _ | .str .ref | .refArray _ _ | .set _ | .map _ _ | .option _ | .result _ _
  | .rangeInc _ | .via _ _ | .str .owned | .str .cow | .prim _ | .usize | .bool | .char | .nonZero _ | .atomic _ | .ipv4
  | .ipv6 | .ipAddr | .duration | .systemTime | .endianness | .varint64 | .uuid | .unit => by simp [holds]

end

/-! ## What programs can return -/

/-- `Q` holds of the result whatever is answered; if not `lends`, calls for borrowed bytes are answered with `None`. -/
def Prog.Unlent {β : Type} (lends : Bool) (Q : β → Prop) : Prog β → Prop
  | .ret a => Q a
  | .read _ k => ∀ r, (k r).Unlent lends Q
  | .peek _ k => ∀ r, (k r).Unlent lends Q
  | .skip _ k => ∀ r, (k r).Unlent lends Q
  | .canRead _ k => ∀ r, (k r).Unlent lends Q
  | .borrow _ k => ∀ r, (lends = false → r = none) → (k r).Unlent lends Q
  | .borrowR _ k => ∀ r, (k r).Unlent lends Q
  | .borrowEof k => ∀ r, (lends = false → r = none) → (k r).Unlent lends Q
  | .alloc _ _ k => k.Unlent lends Q

/-- A reader with the default methods `read_bytes_borrowed` and `read_bytes_borrowed_until_eof` — src/reader.rs:98-101, 108-111. -/
def Lendless {σ : Type} (R : ReaderOps σ) : Prop := (∀ n s, (R.borrow n s).1 = none) ∧ ∀ s, (R.borrowEof s).1 = none

theorem streamReader_lendless (grow : Nat → Nat) : Lendless (streamReader grow) := ⟨fun _ _ => rfl, fun _ => rfl⟩
theorem copyingReader_lendless (h : Host) : Lendless (copyingReader h) := ⟨fun _ _ => rfl, fun _ => rfl⟩

section
variable {α β : Type} {lends : Bool}

theorem Prog.Unlent.run {σ : Type} {R : ReaderOps σ} (hR : lends = false → Lendless R) {Q : β → Prop} {p : Prog β}
    {s : σ} (h : p.Unlent lends Q) :
    Q (p.run R s).1 := by
  induction p generalizing s with
  | ret a => exact h
  | read n k ih => exact ih _ (h _)
  | peek n k ih => exact ih _ (h _)
  | skip n k ih => exact ih _ (h _)
  | canRead n k ih => exact ih _ (h _)
  | borrow n k ih => exact ih _ (h _ fun hl => (hR hl).1 n s)
  | borrowR n k ih => exact ih _ (h _)
  | borrowEof k ih => exact ih _ (h _ fun hl => (hR hl).2 s)
  | alloc n m k ih => exact ih h

theorem Prog.Unlent.bind {P : α → Prop} {Q : β → Prop} {p : Prog α} {f : α → Prog β} (h : p.Unlent lends P) (hf : ∀ a, P a → (f a).Unlent lends Q) :
    (p.bind f).Unlent lends Q := by
  induction p with
  | ret a => exact hf _ h
  | read n k ih => exact fun r => ih r (h r)
  | peek n k ih => exact fun r => ih r (h r)
  | skip n k ih => exact fun r => ih r (h r)
  | canRead n k ih => exact fun r => ih r (h r)
  | borrow n k ih => exact fun r hr => ih r (h r hr)
  | borrowR n k ih => exact fun r => ih r (h r)
  | borrowEof k ih => exact fun r hr => ih r (h r hr)
  | alloc n m k ih => exact ih h

theorem Prog.Unlent.all {Q : β → Prop} (h : ∀ b, Q b) (p : Prog β) : p.Unlent lends Q := by
  induction p with
  | ret a => exact h _
  | read n k ih => exact fun r => ih r
  | peek n k ih => exact fun r => ih r
  | skip n k ih => exact fun r => ih r
  | canRead n k ih => exact fun r => ih r
  | borrow n k ih => exact fun r _ => ih r
  | borrowR n k ih => exact fun r => ih r
  | borrowEof k ih => exact fun r _ => ih r
  | alloc n m k ih => exact ih

/-- What is read satisfies `V`; if not `lends`, by a reader which does not lend. -/
def Yield (lends : Bool) (V : α → Prop) (p : M α) : Prop := p.Unlent lends fun r => ∀ v, r = .ok v → V v

variable {U : α → Prop} {V : β → Prop}

theorem yield_pure {v : β} (h : V v) : Yield lends V (M.pure v) := by
  intro w hw; cases hw; exact h
theorem yield_fail (er : Err) : Yield lends V (M.fail er : M β) := by
  intro w hw; cases hw
theorem yield_all (h : ∀ v, V v) (p : M β) : Yield lends V p := Prog.Unlent.all (fun _ v _ => h v) p
theorem yield_bind {p : M α} {f : α → M β} (hp : Yield lends U p) (hf : ∀ a, U a → Yield lends V (f a)) : Yield lends V (M.bind p f) := by
  refine Prog.Unlent.bind hp fun r hr => ?_
  cases r with
  | ok a => exact hf a (hr a rfl)
  | error er => exact fun w hw => by cases hw
/-- When nothing is known of the first result. -/
theorem yield_then {p : M α} {f : α → M β} (hf : ∀ a, Yield lends V (f a)) : Yield lends V (M.bind p f) :=
  yield_bind (U := fun _ => True) (yield_all (fun _ => trivial) p) fun a _ => hf a
theorem yield_map {p : M α} {f : α → β} (hp : Yield lends U p) (hf : ∀ a, U a → V (f a)) : Yield lends V (M.map f p) :=
  yield_bind hp fun a ha => yield_pure (hf a ha)
theorem yield_ite {c : Prop} [Decidable c] {p q : M β} (hp : c → Yield lends V p) (hq : ¬ c → Yield lends V q) : Yield lends V (if c then p else q) := by
  split
  · exact hp ‹_›
  · exact hq ‹_›
theorem yield_onEof {p : M β} {d : β} (hp : Yield lends V p) (hd : V d) : Yield lends V (onEof p d) := by
  refine Prog.Unlent.bind hp fun r hr => ?_
  cases r with
  | ok a => exact fun w hw => by cases hw; exact hr a rfl
  | error er => exact yield_ite (fun _ => yield_pure hd) fun _ => yield_fail _
theorem Prog.Unlent.mono {P Q : β → Prop} {p : Prog β} (h : p.Unlent lends P) (hf : ∀ a, P a → Q a) : p.Unlent lends Q := by
  induction p with
  | ret a => exact hf _ h
  | read n k ih => exact fun r => ih r (h r)
  | peek n k ih => exact fun r => ih r (h r)
  | skip n k ih => exact fun r => ih r (h r)
  | canRead n k ih => exact fun r => ih r (h r)
  | borrow n k ih => exact fun r hr => ih r (h r hr)
  | borrowR n k ih => exact fun r => ih r (h r)
  | borrowEof k ih => exact fun r hr => ih r (h r hr)
  | alloc n m k ih => exact ih h
theorem yield_mono {V' : β → Prop} {p : M β} (hp : Yield lends V p) (h : ∀ v, V v → V' v) : Yield lends V' p :=
  Prog.Unlent.mono hp fun _ hr v hv => h v (hr v hv)
end

/-! ## Containers -/

section
variable {lends : Bool} {V : Val → Prop} {h : Host} {e : Endian} {el : Elem} {n : Nat}

theorem yield_repeat {p : M Val} (hp : Yield lends V p) : ∀ n, Yield lends (fun vs : List Val => ∀ v ∈ vs, V v) (repeatM n p)
  | 0 => yield_pure (by simp)
  | n + 1 => yield_bind hp fun v hv => yield_bind (yield_repeat hp n) fun vs hvs => yield_pure (by simpa using ⟨hv, hvs⟩)

theorem yield_untilEof {p : M Val} (hp : Yield lends V p) : ∀ n, Yield lends (fun vs : List Val => ∀ v ∈ vs, V v) (readUntilEof n p)
  | 0 => yield_fail _
  | n + 1 => by
    refine Prog.Unlent.bind hp fun r hr => ?_
    cases r with
    | ok v => exact yield_bind (yield_untilEof hp n) fun vs hvs => yield_pure (by simpa using ⟨hr v rfl, hvs⟩)
    | error er => exact yield_ite (fun _ => yield_pure (by simp)) fun _ => yield_fail _

theorem yield_lift {r : Except Panic (List Bytes)} (hm : ∀ b, V (el.ofMem b)) :
    Yield lends (fun vs : List Val => ∀ v ∈ vs, V v) (liftVals el r) := by
  cases r with
  | error p => exact yield_fail _
  | ok ms =>
    refine yield_pure ?_
    intro v hv
    obtain ⟨b, _, rfl⟩ := List.mem_map.1 hv
    exact hm b

theorem yield_vec (hr : Yield lends V el.read) (hm : el.prim = true → ∀ b, V (el.ofMem b)) (hz : V el.zst) :
    Yield lends (fun vs : List Val => ∀ v ∈ vs, V v) (readVec h e el n) := by
  refine yield_ite (fun _ => yield_fail _) fun _ => ?_
  intro r
  refine yield_ite (fun _ => yield_fail _) fun _ => yield_ite (fun _ => yield_fail _) fun _ => ?_
  refine yield_ite (fun hp => yield_then fun mem => yield_lift (hm hp)) fun _ => yield_ite (fun _ => yield_pure ?_) fun _ => yield_repeat hr n
  intro v hv
  rw [(List.mem_replicate.1 hv).2]; exact hz

theorem yield_cow (hr : Yield lends V el.read) (hm : el.prim = true → ∀ b, V (el.ofMem b)) (hz : V el.zst) :
    Yield lends (fun c : CowVal => (lends = false → ∃ vs, c = .owned vs) ∧ ∀ v ∈ c.vals, V v) (readCow h e el n) := by
  have h1 : Yield lends (fun c : CowVal => (lends = false → ∃ vs, c = .owned vs) ∧ ∀ v ∈ c.vals, V v) (M.map .owned (readVec h e el n)) :=
    yield_map (yield_vec hr hm hz) fun vs hvs => ⟨fun _ => ⟨vs, rfl⟩, hvs⟩
  refine yield_ite (fun hp => ?_) fun _ => h1
  rw [Bool.and_eq_true] at hp
  have hv : ∀ l : List Bytes, ∀ v ∈ l.map el.ofMem, V v := by
    intro l v hv
    obtain ⟨b, _, rfl⟩ := List.mem_map.1 hv
    exact hm hp.1 b
  intro r hr
  match r with
  | none => exact h1
  | some (.error er) => exact yield_fail _
  | some (.ok (_, bs)) =>
    have hl : ¬ lends = false := fun hl => by cases hr hl
    refine yield_ite (fun _ => yield_fail _) fun _ => yield_ite
      (fun _ => yield_ite (fun _ => yield_fail _) fun _ => yield_pure ⟨fun h => (hl h).elim, hv _⟩)
      fun _ => yield_ite (fun _ => yield_fail _) fun _ => ?_
    exact yield_pure (lends := lends) (v := CowVal.owned _) ⟨fun h => (hl h).elim, hv _⟩

theorem yield_collection (hr : Yield lends V el.read) (hm : el.prim = true → ∀ b, V (el.ofMem b)) :
    Yield lends (fun vs : List Val => ∀ v ∈ vs, V v) (readCollection h e el n) := by
  refine yield_ite (fun hp => yield_ite (fun _ => yield_fail _) fun _ => ?_) fun _ => yield_repeat hr n
  rw [Bool.and_eq_true] at hp
  intro r
  match r with
  | none => exact yield_repeat hr n
  | some (.error er) => exact yield_fail _
  | some (.ok (_, bs)) =>
    refine yield_ite (fun _ => yield_fail _) fun _ => yield_pure ?_
    intro v hv
    obtain ⟨b, _, rfl⟩ := List.mem_map.1 hv
    exact hm hp.1 b

variable {W : Val → Prop} {ev : Elem}

theorem yield_pair (hr : Yield lends V el.read) (hr' : Yield lends W ev.read) :
    Yield lends (fun x => ∃ a b, x = Val.pair a b ∧ ∃ c, b = .pair c .unit ∧ V a ∧ W c) (readPair el ev) :=
  yield_bind hr fun a ha => yield_bind hr' fun b hb => yield_pure ⟨a, _, rfl, b, rfl, ha, hb⟩

theorem yield_kv (hr : Yield lends V el.read) (hm : el.prim = true → ∀ b, V (el.ofMem b))
    (hr' : Yield lends W ev.read) (hm' : ev.prim = true → ∀ b, W (ev.ofMem b)) :
    Yield lends (fun vs : List Val => ∀ x ∈ vs, ∃ a b, x = Val.pair a b ∧ ∃ c, b = .pair c .unit ∧ V a ∧ W c) (readKV h e el ev n) := by
  refine yield_ite (fun hp => yield_ite (fun _ => yield_fail _) fun _ => ?_) fun _ => yield_repeat (yield_pair hr hr') n
  rw [Bool.and_eq_true, Bool.and_eq_true] at hp
  intro r
  match r with
  | none => exact yield_repeat (yield_pair hr hr') n
  | some (.error er) => exact yield_fail _
  | some (.ok (_, bs)) =>
    refine yield_ite (fun _ => yield_fail _) fun _ => yield_pure ?_
    intro v hv
    obtain ⟨b, _, rfl⟩ := List.mem_map.1 hv
    exact ⟨_, _, rfl, _, rfl, hm hp.1.1 _, hm' hp.1.2 _⟩

theorem yield_array {T : Target} {inl : Bool} (hr : Yield lends V el.read) (hm : el.prim = true → ∀ b, V (el.ofMem b)) :
    Yield lends (fun x => ∃ vs : List Val, x = .list vs ∧ ∀ v ∈ vs, V v) (readArray T e inl el n) := by
  refine yield_ite (fun hp => ?_) fun _ => yield_map (yield_repeat hr n) fun vs hvs => ⟨vs, rfl, hvs⟩
  rw [Bool.and_eq_true] at hp
  exact yield_then fun mem => yield_map (yield_lift (hm hp.2)) fun vs hvs => ⟨vs, rfl, hvs⟩

theorem yield_borrowBytes {α : Type} {Q : α → Prop} {f : Nat × Bytes → M α} : Yield false Q (M.bind (borrowBytes n) f) := by
  refine yield_bind (U := fun _ => False) (fun r hr => ?_) fun _ h => h.elim
  cases hr rfl; exact yield_fail _

theorem yield_borrowRest {α : Type} {Q : α → Prop} {f : Nat × Bytes → M α} : Yield false Q (M.bind borrowRest f) := by
  refine yield_bind (U := fun _ => False) (fun r hr => ?_) fun _ h => h.elim
  cases hr rfl; exact yield_fail _

end

/-! ## All types -/

section
variable {lends : Bool} {bad : Ty → Bool} {T : Target} {e : Endian}

theorem prim_unlent {t : Ty} (hp : isPrimitive T t = true) (v : Val) : ¬ holds bad t v := noRefs_unlent t v (prim_noRefs t hp)

/-- References themselves, of the types `bad`, are never read. -/
def Refused (lends : Bool) (bad : Ty → Bool) (T : Target) (e : Endian) : Prop :=
  ∀ (t : Ty) (cx : Cx), t = .str .ref ∨ (∃ u, t = .seq .ref u) ∨ (∃ n u, t = .refArray n u) → bad t = true →
    Yield lends (fun _ => False) (decode T e t cx)

theorem Refused.leaf (hb : Refused lends bad T e) {t : Ty} {cx : Cx}
    (ht : t = .str .ref ∨ (∃ u, t = .seq .ref u) ∨ ∃ n u, t = .refArray n u) :
    Yield lends (fun v => ¬ holds bad t v) (decode T e t cx) := by
  cases h : bad t with
  | true => exact yield_mono (hb t cx ht h) fun _ h => h.elim
  | false =>
    refine yield_all (fun v => ?_) _
    rcases ht with rfl | ⟨u, rfl⟩ | ⟨n, u, rfl⟩ <;> cases v <;> simp [holds, h]

variable (hb : Refused lends bad T e)
include hb

mutual
/-- What is read holds no references of types which are refused. -/
theorem decode_unlent : ∀ (t : Ty) (cx : Cx), Yield lends (fun v => ¬ holds bad t v) (decode T e t cx)
  | .str .ref, cx => hb.leaf (.inl rfl)
  | .seq .ref t, cx => hb.leaf (.inr (.inl ⟨t, rfl⟩))
  | .seq .vec t, cx => by
    unfold decode
    refine yield_ite (fun _ => yield_fail _) fun _ => yield_then fun len => ?_
    have ih := decode_unlent t Cx.std
    cases len with
    | none =>
      refine yield_map (yield_untilEof ih _) fun vs hvs => ?_
      simp only [holds]; rintro ⟨v, hv, hl⟩; exact hvs v hv hl
    | some n =>
      refine yield_map (yield_vec (V := fun v => ¬ holds bad t v) ih (fun hp b => prim_unlent hp _) (zst_unlent t)) fun vs hvs => ?_
      simp only [holds]; rintro ⟨v, hv, hl⟩; exact hvs v hv hl
  | .seq .cow t, cx => by
    unfold decode
    refine yield_ite (fun _ => yield_fail _) fun _ => yield_then fun len => ?_
    have ih := decode_unlent t Cx.std
    cases len with
    | none =>
      refine yield_map (yield_untilEof ih _) fun vs hvs => ?_
      simp only [holds]; rintro ⟨v, hv, hl⟩; exact hvs v hv hl
    | some n =>
      refine yield_map (yield_cow (V := fun v => ¬ holds bad t v) ih (fun hp b => prim_unlent hp _) (zst_unlent t)) fun vs hvs => ?_
      simp only [holds]; rintro ⟨v, hv, hl⟩; exact hvs.2 v hv hl
  | .set t, cx => by
    unfold decode
    refine yield_then fun len => ?_
    have ih := decode_unlent t Cx.std
    cases len with
    | none =>
      refine yield_map (yield_untilEof ih _) fun vs hvs => ?_
      simp only [holds]; rintro ⟨v, hv, hl⟩; exact hvs v ((setOf_spec vs).2 v hv) hl
    | some n =>
      refine yield_map (yield_collection (V := fun v => ¬ holds bad t v) ih (fun hp b => prim_unlent hp _)) fun vs hvs => ?_
      simp only [holds]; rintro ⟨v, hv, hl⟩; exact hvs v ((setOf_spec vs).2 v hv) hl
  | .map k w, cx => by
    unfold decode
    refine yield_then fun len => ?_
    have ihk := decode_unlent k Cx.std
    have ihw := decode_unlent w Cx.std
    have hmap : ∀ vs : List Val, (∀ x ∈ vs, ∃ a b, x = Val.pair a b ∧ ∃ c, b = .pair c .unit ∧ ¬ holds bad k a ∧ ¬ holds bad w c) →
        ¬ holds bad (.map k w) (.list (mapOf vs)) := by
      intro vs hvs
      simp only [holds]
      rintro ⟨a, b, hab, hl⟩
      obtain ⟨a', b', hx, c, rfl, h1, h2⟩ := (mapOf_spec (P := fun a b => ∃ c, b = .pair c .unit ∧ ¬ holds bad k a ∧ ¬ holds bad w c) hvs).2 _ hab
      simp only [Val.pair.injEq, and_true] at hx
      obtain ⟨rfl, rfl⟩ := hx
      exact hl.elim h1 h2
    cases len with
    | none =>
      exact yield_map (yield_untilEof (yield_pair (el := elemOf T k (decode T e k Cx.std)) (ev := elemOf T w (decode T e w Cx.std)) ihk ihw) _)
        fun vs hvs => hmap vs hvs
    | some n =>
      exact yield_map (yield_kv (V := fun v => ¬ holds bad k v) (W := fun v => ¬ holds bad w v) ihk (fun hp b => prim_unlent hp _) ihw
        (fun hp b => prim_unlent hp _)) fun vs hvs => hmap vs hvs
  | .array n t, cx => by
    unfold decode
    refine yield_mono (yield_array (V := fun v => ¬ holds bad t v) (decode_unlent t Cx.std) (fun hp b => prim_unlent hp _)) ?_
    rintro _ ⟨vs, rfl, hvs⟩
    simp only [holds]; rintro ⟨v, hv, hl⟩; exact hvs v hv hl
  | .refArray n t, cx => hb.leaf (.inr (.inr ⟨n, t, rfl⟩))
  | .option t, cx => by
    unfold decode
    refine yield_then fun flag => yield_ite (fun _ => yield_map (decode_unlent t _) fun v hv => ?_) fun _ => yield_pure ?_
    · simpa only [holds] using hv
    · simp [holds]
  | .result a b, cx => by
    unfold decode
    refine yield_then fun flag => yield_ite (fun _ => yield_map (decode_unlent a _) fun v hv => ?_)
      fun _ => yield_map (decode_unlent b _) fun v hv => ?_
    · simpa only [holds] using hv
    · simpa only [holds] using hv
  | .range t, cx => by
    unfold decode
    refine yield_bind (decode_unlent t _) fun a ha => yield_bind (decode_unlent t _) fun b hb => yield_pure ?_
    simp only [holds]; exact fun h => h.elim ha hb
  | .rangeInc t, cx => by
    unfold decode
    refine yield_bind (decode_unlent t _) fun a ha => yield_bind (decode_unlent t _) fun b hb => yield_pure ?_
    simp only [holds]; exact fun h => h.elim ha hb
  | .pair a b, cx => by
    unfold decode
    refine yield_bind (decode_unlent a _) fun x hx => yield_bind (decode_unlent b _) fun y hy => yield_pure ?_
    simp only [holds]; exact fun h => h.elim hx hy
  | .box t, cx => by
    unfold decode
    exact yield_mono (decode_unlent t _) fun v hv => by simpa only [holds] using hv
  | .struct _ fs, cx => by
    unfold decode
    exact yield_mono (decodeFields_unlent fs []) fun v hv => by simpa only [holds] using hv
  | .enum d vs, cx => by
    unfold decode
    refine yield_then fun tag => yield_mono (decodeVariants_unlent vs tag 0) ?_
    rintro _ ⟨i, v, rfl, hv⟩
    simpa only [holds, Nat.zero_add] using hv
  | .str .owned, _ | .str .cow, _ | .prim _, _ | .usize, _ | .bool, _ | .char, _ | .nonZero _, _ | .atomic _, _ | .ipv4, _
  | .ipv6, _ | .ipAddr, _ | .duration, _ | .systemTime, _ | .endianness, _ | .varint64, _ | .uuid, _
  | .unit, _ | .via _ _, _ => yield_all (fun v => by simp [holds]) _
theorem decodeFields_unlent : ∀ (fs : Fields) (prev : List Val), Yield lends (fun v => ¬ holdsFields bad fs v) (decodeFields T e fs prev)
  | .nil, _ => by unfold decodeFields; exact yield_pure (by simp [holdsFields])
  | .cons a t fs, prev => by
    unfold decodeFields
    refine yield_ite (fun hs => yield_map (decodeFields_unlent fs prev) fun v hv => ?_) fun hs => ?_
    · simp [holdsFields, hs, hv]
    · have hb : Yield lends (fun v => ¬ holds bad t v)
          (if a.varint then M.map .num (readVarint T.toHost e) else decode T e t (a.cx T.toHost prev)) :=
        yield_ite (fun _ => yield_map (U := fun _ => True) (yield_all (fun _ => trivial) _) fun n _ => num_unlent n t)
          fun _ => decode_unlent t _
      have hc : Yield lends (fun v => ¬ holds bad t v) (if a.pre.isEmpty then
            if a.varint then M.map .num (readVarint T.toHost e) else decode T e t (a.cx T.toHost prev)
          else M.bind (readConstant T.toHost e (u8Elem T e) a.pre) fun _ =>
            if a.varint then M.map .num (readVarint T.toHost e) else decode T e t (a.cx T.toHost prev)) :=
        yield_ite (fun _ => hb) fun _ => yield_then fun _ => hb
      refine yield_bind (U := fun v => ¬ holds bad t v ∨ (a.defaultOnEof = true ∧ v = a.dflt))
        (yield_ite (fun hd => yield_onEof (yield_mono hc fun v hv => .inl hv) (.inr ⟨hd, rfl⟩)) fun _ => yield_mono hc fun v hv => .inl hv)
        fun v hv => yield_map (decodeFields_unlent fs (prev ++ [v])) fun w hw => ?_
      simp only [holdsFields]
      rintro (h | h)
      · rcases hv with hv | hv
        · exact hv h.1
        · exact h.2 ⟨.inr hv.1, hv.2⟩
      · exact hw h
theorem decodeVariants_unlent : ∀ (vs : Variants) (tag j : Nat),
    Yield lends (fun v => ∃ i w, v = .variant (j + i) w ∧ ¬ holdsVariants bad vs i w) (decodeVariants T e vs tag j)
  | .nil, _, _ => by unfold decodeVariants; exact yield_fail _
  | .cons tag' fs vs, tag, j => by
    unfold decodeVariants
    refine yield_ite (fun _ => yield_map (decodeFields_unlent fs []) fun v hv => ⟨0, v, rfl, by simpa only [holdsVariants] using hv⟩) fun _ => ?_
    refine yield_mono (decodeVariants_unlent vs tag (j + 1)) ?_
    rintro _ ⟨i, w, rfl, hw⟩
    exact ⟨i + 1, w, by rw [Nat.add_right_comm]; rfl, by simpa only [holdsVariants] using hw⟩
end
end

end Verif
