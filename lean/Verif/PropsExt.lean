import Verif.PropsTime
import Verif.PropsSafe
import Verif.PropsMaps

/-!
# Types of other crates, and conversions written by hand (C49, C50)

* `chrono::DateTime<Utc>` (src/ext_chrono.rs), `regex::Regex` (src/ext_regex.rs), `glam::BVec2/3/4` (src/ext_glam.rs): below.
* `glam`'s vectors, quaternions and matrices are read and written as tuples of numbers (src/ext_glam.rs:11-77, 124-208).
* `SmallVec<[T; N]>` is read and written as `Vec<T>` (src/ext_smallvec.rs).
* `IndexSet<T>` is read and written as `HashSet<T>`, `IndexMap<K, V>` as `HashMap<Box<K>, V>`: entries one at a time
  (src/ext_indexmap.rs).

Being types of the model, all other properties hold for them and for the types they are part of.
-/

namespace Verif

open Samples

/-- `chrono::DateTime<Utc>` — src/ext_chrono.rs.  Values are `pair (num seconds) (num nanoseconds)`, seconds being the bits of
an `i64`. -/
def dateTime (ok : Nat → Nat → Bool) : Ty := .via (.dateTime ok) (.pair (.prim .i64) (.prim .u32))

/-- `regex::Regex` — src/ext_regex.rs.  Values are the strings. -/
def regex (ok : Bytes → Bool) : Ty := .via (.regex ok) (.str .cow)

/-- `glam::BVec2`, `BVec3`, `BVec4` for `n` = 2, 3, 4 — src/ext_glam.rs:79-122.  Values are the masks: bit `i` is the `i`th
component. -/
def bvec (n : Nat) : Ty := .via (.mask n) (.prim .u8)

/-- `IndexMap<K, V>` — src/ext_indexmap.rs:19-36, 53-75. -/
def indexMap (k v : Ty) : Ty := .map (.box k) v

/-- A type whose `Readable` implementation reads a `t` and rejects what does not satisfy `p`. -/
def checked (p : Val → Bool) (msg : Nat) (t : Ty) : Ty :=
  .via (.user fun v => if p v then .ok v else .error msg) t

section
variable {T : Target} {e : Endian} {σ : Type} {R : ReaderOps σ} {Inv : σ → Prop} {pend : σ → Bytes}

/-- **C50**: reading a type with a conversion, from whatever reader in whatever state, is reading the representation and
converting it; an error of the conversion is returned as it is, with the reader after the representation. -/
theorem C50_convert {c : Conv} {t : Ty} {cx : Cx} (R : ReaderOps σ) (s : σ) :
    (decode T e (.via c t) cx).run R s = match (decode T e t Cx.std).run R s with
      | (.ok u, s') => (c.apply u, s')
      | (.error er, s') => (.error er, s') := by
  simp only [decode]
  unfold M.bind
  rw [Prog.run_bind]
  generalize (decode T e t Cx.std).run R s = r
  obtain ⟨r, s'⟩ := r
  cases r with
  | error er => rfl
  | ok u =>
    show (convert c u).run R s' = _
    unfold convert
    cases h : c.apply u <;> simp only [h] <;> rfl

/-- **C49**: reading a `DateTime<Utc>` from any reader. -/
theorem dateTime_read (L : Lawful R Inv pend) {ok : Nat → Nat → Bool} {x : σ} (hx : Inv x) {s n : Nat} (hs : s < 2 ^ 64)
    (hn : n < 2 ^ 32) {rest : Bytes} (hp : pend x = e.bytes 8 s ++ e.bytes 4 n ++ rest) {cx : Cx} :
    ∃ x', (decode T e (dateTime ok) cx).run R x =
      (if ok s n then .ok (.pair (.num s) (.num n)) else .error (.panic .unwrapNone), x') ∧ Inv x' ∧ pend x' = rest := by
  rw [dateTime, C50_convert]
  have h : Refines R Inv pend (pend x).length (decode T e (.pair (.prim .i64) (.prim .u32)) Cx.std)
      (parse T e (.pair (.prim .i64) (.prim .u32)) Cx.std) := by
    simp only [decode, parse]
    exact refines_bind (refines_map _ (refines_readNum L _ _ _)) fun _ =>
      refines_bind (refines_map _ (refines_readNum L _ _ _)) fun _ => refines_pure _
  have h := h x hx (Nat.le_refl _)
  have a := (codes_num (tl := false) (st := false) (e := e) (n := 8) (v := s) (by omega)).1 (e.bytes 4 n ++ rest) (by simp)
  have b := (codes_num (tl := false) (st := false) (e := e) (n := 4) (v := n) (by omega)).1 rest (by simp)
  have hq : parse T e (.pair (.prim .i64) (.prim .u32)) Cx.std (pend x) = .ok (.pair (.num s) (.num n)) rest := by
    rw [hp, List.append_assoc]
    simp only [parse, Prim.size]
    rw [P.bind_ok (P.map_ok a), P.bind_ok (P.map_ok b)]
    rfl
  rw [hq] at h
  generalize (decode T e (.pair (.prim .i64) (.prim .u32)) Cx.std).run R x = r at h ⊢
  obtain ⟨r, x'⟩ := r
  obtain ⟨h1, h2, h3, _⟩ := h
  simp only at h1
  subst h1
  exact ⟨x', rfl, h2, h3⟩

/-- **C49**: every `DateTime<Utc>` is written, in 12 bytes, and every reader reads it back, whatever follows. -/
theorem C49_date_time (hT : T.Ok) {ok : Nat → Nat → Bool} {s n : Nat} (hs : s < 2 ^ 64) (hn : n < 2 ^ 32) (ho : ok s n = true)
    (junk : Nat → UInt8) : ∃ bs, writeToVec T e (dateTime ok) (.pair (.num s) (.num n)) junk = .ok bs ∧
    bs.length = 12 ∧ ∀ {σ : Type} {R : ReaderOps σ} {Inv : σ → Prop} {pend : σ → Bytes}, Lawful R Inv pend → ∀ x, Inv x →
      ∀ rest, pend x = bs ++ rest → ∃ x', (decode T e (dateTime ok) Cx.std).run R x = (.ok (.pair (.num s) (.num n)), x') ∧
        pend x' = rest := by
  have hi : 12 ≤ T.isizeMax := by have := hT.lower; have := hT.isize; omega
  refine ⟨e.bytes 8 s ++ e.bytes 4 n, vec_ok hT (by simp [layoutOk, dateTime]) (by simp [declOk, dateTime])
    (by simp [sliceOk, dateTime]) (by simp [hasTy, dateTime, hs, hn, Prim.size, Conv.apply, ho])
    (by simp [wire, dateTime, cat, Fmt.code, Prim.size]) (by simpa using hi), by simp, fun L x hx rest hp => ?_⟩
  obtain ⟨x', h1, _, h2⟩ := dateTime_read (T := T) (cx := Cx.std) (ok := ok) L hx hs hn hp
  rw [if_pos ho] at h1
  exact ⟨x', h1, h2⟩

/-- **C49 / C32 is false for `DateTime<Utc>`**: reading panics, with every reader, if the seconds or nanoseconds are not those
of a date which chrono can represent. -/
theorem C49_date_time_panics (L : Lawful R Inv pend) {ok : Nat → Nat → Bool} {x : σ} (hx : Inv x) {s n : Nat} (hs : s < 2 ^ 64)
    (hn : n < 2 ^ 32) (ho : ok s n = false) {rest : Bytes} (hp : pend x = e.bytes 8 s ++ e.bytes 4 n ++ rest) :
    ((decode T e (dateTime ok) Cx.std).run R x).1 = .error (.panic .unwrapNone) := by
  obtain ⟨x', h1, _⟩ := dateTime_read (T := T) (cx := Cx.std) (ok := ok) L hx hs hn hp
  rw [h1, ho]
  rfl

/-- **C49**: every byte is read as a `BVec`, of which only the lowest bits count. -/
theorem C49_bvec_read (L : Lawful R Inv pend) {x : σ} (hx : Inv x) {b : UInt8} {rest : Bytes} (hp : pend x = b :: rest)
    (n : Nat) {cx : Cx} :
    ∃ x', (decode T e (bvec n) cx).run R x = (.ok (.num (b.toNat % 2 ^ n)), x') ∧ Inv x' ∧ pend x' = rest := by
  rw [bvec, C50_convert]
  have h : Refines R Inv pend (pend x).length (decode T e (.prim .u8) Cx.std) (parse T e (.prim .u8) Cx.std) := by
    simp only [decode, parse]
    exact refines_map _ (refines_readNum L _ _ _)
  have h := h x hx (Nat.le_refl _)
  have hq : parse T e (.prim .u8) Cx.std (pend x) = .ok (.num b.toNat) rest := by
    have hb : e.bytes 1 b.toNat = [b] := by cases e <;> simp [Endian.bytes, leBytes]
    have a := (codes_num (tl := false) (st := false) (e := e) (n := 1) (v := b.toNat) b.toNat_lt).1 rest (by simp)
    rw [hb] at a
    rw [hp]
    simp only [parse, Prim.size]
    exact P.map_ok a
  rw [hq] at h
  generalize (decode T e (.prim .u8) Cx.std).run R x = r at h ⊢
  obtain ⟨r, x'⟩ := r
  obtain ⟨h1, h2, h3, _⟩ := h
  simp only at h1
  subst h1
  exact ⟨x', rfl, h2, h3⟩

/-- **C49**: a mask of `n ≤ 8` bits is written as one byte (and so is read back, by `C49_bvec_read`). -/
theorem C49_bvec_write (hT : T.Ok) {n m : Nat} (hn : n ≤ 8) (hm : m < 2 ^ n) (junk : Nat → UInt8) :
    writeToVec T e (bvec n) (.num m) junk = .ok [UInt8.ofNat m] := by
  have hi : 1 ≤ T.isizeMax := by have := hT.lower; have := hT.isize; omega
  have h8 : m < 256 := Nat.lt_of_lt_of_le hm (Nat.pow_le_pow_right (by decide) hn)
  exact vec_ok hT (by simp [layoutOk, bvec]) (by simp [declOk, bvec])
    (by simp [sliceOk, bvec]) (by simp [hasTy, bvec, h8, Prim.size, Conv.apply, Nat.mod_eq_of_lt hm])
    (by simp only [wire, bvec, Fmt.code, Prim.size]; cases e <;> simp [Endian.bytes, leBytes]) (by simpa using hi)

/-- **C49**: what `Regex::new` does not accept is not returned: the error is a custom one, and not an end of the input, with
any reader. -/
theorem C49_regex_rejected {ok : Bytes → Bool} {x x' : σ} {bs : Bytes} {cx : Cx}
    (h : (decode T e (.str .cow) Cx.std).run R x = (.ok (.bytes bs), x')) (ho : ok bs = false) :
    (decode T e (regex ok) cx).run R x = (.error (.custom 0), x') ∧ (Err.custom 0).isEof = false := by
  refine ⟨?_, rfl⟩
  rw [regex, C50_convert, h]
  simp [Conv.apply, ho]

end

section
variable {T : Target} (hT : T.Ok) {e : Endian}
include hT

/-- **C49**: every regular expression is written, as the string it was made from, and read back. -/
theorem C49_regex {ok : Bytes → Bool} {str : Bytes} (hu : utf8Valid str = true) (hmem : str.length ≤ T.isizeMax)
    (ho : ok str = true) {junk : Nat → UInt8}
    {bs : Bytes} (hw : writeToVec T e (regex ok) (.bytes str) junk = .ok bs) {base : Nat} (hm : InMem T base bs) :
    bs = e.bytes 4 str.length ++ str ∧ readFromBuffer T e (regex ok) base bs = .ok (.bytes str) := by
  have hv : hasTy T (regex ok) (.bytes str) := by simp [hasTy, regex, hu, hmem, Conv.apply, ho]
  have hr : regular T e (regex ok) = true := by simp [regular, regex]
  refine ⟨?_, C01_round_trip_partial hT (by simp [layoutOk, regex]) (by simp [declOk, regex]) hr hv (by simp [canon, regex]) hw
    (by simp [ends, regex]) hm⟩
  obtain ⟨h, _⟩ := vec_inv hT (by simp [layoutOk, regex]) (by simp [declOk, regex]) (regular_slice _ hr) hv hw
  simp only [wire, regex] at h
  obtain ⟨x, y, h1, h2, rfl⟩ := cat_eq_ok h
  simp only [wireLen, LenR.std] at h1
  split at h1 <;> simp only [Except.ok.injEq, reduceCtorEq] at h1 h2
  subst h1
  subst h2
  rfl

/-- **C49**: what was an `IndexMap` is read back with its entries in the same order. -/
theorem C49_index_map_partial {k v : Ty} (hl : layoutOk T (indexMap k v) = true) (hd : declOk (indexMap k v) = true)
    (hr : regular T e (indexMap k v) = true) (he : ends true false (indexMap k v) = true) {es : List Val}
    (hv : hasTy T (indexMap k v) (.list es)) (hc : canon (Fmt.code T.toHost e) (indexMap k v) (.list es)) {junk : Nat → UInt8}
    {bs : Bytes} (hw : writeToVec T e (indexMap k v) (.list es) junk = .ok bs) {base : Nat} (hm : InMem T base bs) :
    readFromBuffer T e (indexMap k v) base bs = .ok (.list es) :=
  C01_round_trip_partial hT hl hd hr hv hc hw he hm

end

/-! ## Whatever the reader -/

/-- Whatever is returned, by whatever reader in whatever state, is in `V`. -/
def Outs {α : Type} (V : α → Prop) (p : M α) : Prop :=
  ∀ (σ : Type) (R : ReaderOps σ) (s : σ) (a : α) (s' : σ), p.run R s = (.ok a, s') → V a

section
variable {α β : Type} {V : α → Prop} {W : β → Prop}

theorem outs_pure {a : α} (h : V a) : Outs V (M.pure a) := by
  intro σ R s b s' hr
  simp only [M.pure, Prog.run, Prod.mk.injEq, Except.ok.injEq] at hr
  exact hr.1 ▸ h

theorem outs_fail (er : Err) : Outs V (M.fail er : M α) := by
  intro σ R s b s' hr
  simp [M.fail, Prog.run] at hr

theorem outs_bind {p : M α} {f : α → M β} (hp : Outs V p) (hf : ∀ a, V a → Outs W (f a)) : Outs W (M.bind p f) := by
  intro σ R s b s' hr
  unfold M.bind at hr
  rw [Prog.run_bind] at hr
  generalize h : p.run R s = r at hr
  obtain ⟨r, s1⟩ := r
  cases r with
  | error er => simp [Prog.run] at hr
  | ok a => exact hf a (hp _ R s a s1 h) _ R s1 b s' hr

theorem outs_any (p : M α) : Outs (fun _ => True) p := fun _ _ _ _ _ _ => trivial

theorem outs_ite {c : Prop} [Decidable c] {p q : M α} (hp : c → Outs V p) (hq : ¬ c → Outs V q) :
    Outs V (if c then p else q) := by
  split
  · exact hp ‹_›
  · exact hq ‹_›

theorem outs_repeatM {p : M α} (hp : Outs V p) : ∀ n, Outs (fun vs => ∀ v ∈ vs, V v) (repeatM n p)
  | 0 => outs_pure (by simp)
  | n + 1 => outs_bind hp fun a ha => outs_bind (outs_repeatM hp n) fun as has => outs_pure (by
      intro v hv
      rcases List.mem_cons.mp hv with rfl | hv
      · exact ha
      · exact has v hv)

theorem outs_readUntilEof {V : Val → Prop} {p : M Val} (hp : Outs V p) :
    ∀ fuel, Outs (fun vs => ∀ v ∈ vs, V v) (readUntilEof fuel p)
  | 0 => outs_fail _
  | n + 1 => by
    intro σ R s b s' hr
    rw [readUntilEof, Prog.run_bind] at hr
    generalize h : p.run R s = r at hr
    obtain ⟨r, s1⟩ := r
    cases r with
    | error er =>
      simp only at hr
      split at hr
      · exact outs_pure (V := fun vs : List Val => ∀ v ∈ vs, V v) (by simp) _ R s1 b s' hr
      · exact outs_fail (V := fun vs : List Val => ∀ v ∈ vs, V v) er _ R s1 b s' hr
    | ok a =>
      refine outs_bind (W := fun vs => ∀ v ∈ vs, V v) (outs_readUntilEof hp n) (fun as has => outs_pure ?_) _ R s1 b s' hr
      intro v hv
      rcases List.mem_cons.mp hv with rfl | hv
      · exact hp _ R s _ s1 h
      · exact has v hv

theorem outs_readVec {h : Host} {e : Endian} {V : Val → Prop} {el : Elem} (hp : el.prim = false) (hz : el.size ≠ 0)
    (hr : Outs V el.read) (n : Nat) : Outs (fun vs => ∀ v ∈ vs, V v) (readVec h e el n) := by
  refine outs_ite (fun _ => outs_fail _) fun _ => ?_
  intro σ R s b s' hrun
  rw [run_canRead] at hrun
  generalize R.canRead _ s = r at hrun
  refine outs_ite (V := fun vs : List Val => ∀ v ∈ vs, V v) (fun _ => outs_fail _) (fun _ => outs_ite (fun _ => outs_fail _)
    fun _ => ?_) _ R s b s' hrun
  intro σ R s b s' hrun
  rw [run_alloc, if_neg (by simp [hp]), if_neg hz] at hrun
  exact outs_repeatM hr n _ R s b s' hrun

end

/-- **C50**: whatever reader is used, whatever it answers and however the length is given: all elements of a `Vec` of a
checked type pass the check. -/
theorem C50_checked {T : Target} (hT : T.Ok) {e : Endian} {t : Ty} {p : Val → Bool} {msg : Nat} {cx : Cx} {σ : Type}
    {R : ReaderOps σ} {s s' : σ} {v : Val}
    (h : (decode T e (.seq .vec (checked p msg t)) cx).run R s = (.ok v, s')) :
    ∃ vs, v = .list vs ∧ ∀ v ∈ vs, p v = true := by
  have hz : sizeOf T (checked p msg t) ≠ 0 := by
    have := hT.opaque_pos (checked p msg t)
    simp only [checked] at this ⊢
    simp only [sizeOf, Ty.isZst]
    simp; omega
  have hc : Outs (fun v => p v = true) (decode T e (checked p msg t) Cx.std) := by
    intro σ R s v s' hr
    rw [checked, C50_convert] at hr
    split at hr <;> simp only [Prod.mk.injEq, reduceCtorEq, false_and] at hr
    rename_i u _ _
    have := hr.1
    simp only [Conv.apply] at this
    by_cases hp : p u
    · simp only [hp, if_true, Except.ok.injEq] at this
      exact this ▸ hp
    · simp [hp] at this
  have key : Outs (fun v => ∃ vs, v = .list vs ∧ ∀ v ∈ vs, p v = true) (decode T e (.seq .vec (checked p msg t)) cx) := by
    simp only [decode]
    refine outs_ite (fun _ => outs_fail _) fun _ => outs_bind (outs_any _) fun len _ => ?_
    cases len with
    | none => exact outs_bind (outs_readUntilEof hc _) fun vs hvs => outs_pure ⟨vs, rfl, hvs⟩
    | some n =>
      exact outs_bind (outs_readVec (el := elemOf T (checked p msg t) _) (by simp [elemOf, checked, isPrimitive]) hz hc n)
        fun vs hvs => outs_pure ⟨vs, rfl, hvs⟩
  exact key _ R s v s' h

/-- **C50**: the errors of conversions are not taken for an end of the input, so they are not hidden by `default_on_eof` or
`length = ..` (`C23_not_masked`). -/
theorem C50_not_eof {c : Conv} {v : Val} {er : Err} (h : c.apply v = .error er) : er.isEof = false := by
  unfold Conv.apply at h
  split at h
  · split at h <;> simp only [Except.error.injEq, reduceCtorEq] at h
    subst h; rfl
  · split at h <;> simp only [Except.error.injEq, reduceCtorEq] at h
    subst h; rfl
  · cases h
  · split at h <;> simp only [Except.error.injEq, reduceCtorEq] at h
    subst h; rfl
  · simp only [Except.error.injEq] at h
    subst h; rfl

/-! ## Examples -/

/-- What chrono accepts, roughly: years up to 9999, no leap seconds. -/
def someDates (s n : Nat) : Bool := decide (s < 253402300800) && decide (n < 1000000000)

/-- All strings which do not begin with `*`. -/
def someRegexes (bs : Bytes) : Bool := bs.head? != some 42

example := C49_date_time (T := x64) (e := .little) x64_ok (ok := someDates) (s := 1700000000) (n := 5) (by decide) (by decide)
  (by decide) fun _ => 0

example : ((decode x64 .little (dateTime someDates) Cx.std).run (bufferReader Host.x64)
    (BufSt.init 4096 [255, 255, 255, 255, 255, 255, 255, 127, 0, 0, 0, 0])).1 = .error (.panic .unwrapNone) :=
  C49_date_time_panics (T := x64) (bufferReader_lawful Host.x64) (ok := someDates) (s := 2 ^ 63 - 1) (n := 0) (rest := [])
    (BufSt.init_inv (by decide)) (by decide) (by decide) (by decide) (by decide)

example : ∃ x', (decode x64 .little (bvec 3) Cx.std).run (bufferReader Host.x64) (BufSt.init 4096 [253, 7]) =
    (.ok (.num 5), x') ∧ x'.Inv Host.x64 ∧ x'.pend = [7] :=
  C49_bvec_read (T := x64) (b := 253) (rest := [7]) (bufferReader_lawful Host.x64) (BufSt.init_inv (by decide)) (by decide) 3

example := C49_bvec_write x64_ok (e := .big) (n := 4) (m := 9) (by decide) (by decide) fun _ => 0

example : writeToVec x64 .big (regex someRegexes) (.bytes [97, 43]) (fun _ => 0) = .ok [0, 0, 0, 2, 97, 43] ∧
    readFromBuffer x64 .big (regex someRegexes) 4096 [0, 0, 0, 2, 97, 43] = .ok (.bytes [97, 43]) ∧
    readFromBuffer x64 .big (regex someRegexes) 4096 [0, 0, 0, 1, 42] = .error (.custom 0) := by
  decide

/-- An `IndexMap<u8, u16>`: the order is kept. -/
example : writeToVec x64 .little (indexMap (.prim .u8) (.prim .u16))
      (.list [.pair (.num 7) (.pair (.num 1) .unit), .pair (.num 3) (.pair (.num 2) .unit)]) (fun _ => 0) =
        .ok [2, 0, 0, 0, 7, 1, 0, 3, 2, 0] ∧
    readFromBuffer x64 .little (indexMap (.prim .u8) (.prim .u16)) 4096 [2, 0, 0, 0, 7, 1, 0, 3, 2, 0] =
      .ok (.list [.pair (.num 7) (.pair (.num 1) .unit), .pair (.num 3) (.pair (.num 2) .unit)]) ∧
    regular x64 .little (indexMap (.prim .u8) (.prim .u16)) = true ∧ ends true false (indexMap (.prim .u8) (.prim .u16)) = true := by
  decide

/-- A `Vec` of even numbers: three of them, and an odd one. -/
example : readFromBuffer x64 .little (.seq .vec (checked (fun | .num n => n % 2 == 0 | _ => false) 7 (.prim .u8))) 4096
      [3, 0, 0, 0, 2, 4, 6] = .ok (.list [.num 2, .num 4, .num 6]) ∧
    readFromBuffer x64 .little (.seq .vec (checked (fun | .num n => n % 2 == 0 | _ => false) 7 (.prim .u8))) 4096
      [3, 0, 0, 0, 2, 5, 6] = .error (.custom 7) := by
  decide

example : (Conv.user fun | Val.num n => if n % 2 == 0 then .ok (.num n) else .error 7 | _ => .error 8).apply (.num 5) =
    .error (.custom 7) := rfl

/-! ## Cases -/

section Cases
open Samples

example : readFromBuffer x64 .little (indexMap (.prim .u8) (.prim .u16)) 4096 [2, 0, 0, 0, 7, 1, 0, 3, 2, 0] =
    .ok (.list [.pair (.num 7) (.pair (.num 1) .unit), .pair (.num 3) (.pair (.num 2) .unit)]) :=
  C49_index_map_partial x64_ok (junk := fun _ => 0) (by decide) (by decide) (by decide) (by decide)
    (by
      refine ⟨?_, by decide, by decide, by decide⟩
      intro kv h
      simp only [List.mem_cons, List.not_mem_nil, or_false] at h
      rcases h with rfl | rfl <;> exact ⟨_, _, rfl, by simp [hasTy, Prim.size], by simp [hasTy, Prim.size]⟩) (by simp [indexMap, canon]) (by decide)
    ⟨by decide, by decide, by decide⟩

example : readFromBuffer x64 .big (regex someRegexes) 4096 [0, 0, 0, 2, 97, 43] = .ok (.bytes [97, 43]) :=
  (C49_regex x64_ok (e := .big) (ok := someRegexes) (str := [97, 43]) (by decide) (by decide) (by decide) (junk := fun _ => 0)
    (by decide) ⟨by decide, by decide, by decide⟩).2

example := C49_regex_rejected (T := x64) (e := .big) (R := bufferReader Host.x64) (ok := someRegexes) (bs := [42]) (cx := Cx.std)
  (x := BufSt.init 4096 [0, 0, 0, 1, 42]) (Prod.ext rfl rfl) (by decide)

example : ∃ vs, Val.list [.num 2, .num 4, .num 6] = .list vs ∧
    ∀ v ∈ vs, (fun | Val.num n => n % 2 == 0 | _ => false) v = true :=
  C50_checked x64_ok (e := .little) (t := .prim .u8) (msg := 7) (cx := Cx.std) (R := bufferReader Host.x64)
    (s := BufSt.init 4096 [3, 0, 0, 0, 2, 4, 6]) (Prod.ext rfl rfl)

example : (Err.custom 7).isEof = false :=
  C50_not_eof (c := .user fun | Val.num n => if n % 2 == 0 then .ok (.num n) else .error 7 | _ => .error 8) (v := .num 5) rfl

end Cases

end Verif
