import Verif.Basic

/-!
# The circular buffer of the stream reader — src/circular_buffer.rs
-/

namespace Verif

/-- `core::ops::Range<usize>`. -/
structure Rng where
  start : Nat
  stop : Nat
  deriving DecidableEq, Repr

/-- `Range::len`. -/
def Rng.len (r : Rng) : Nat := r.stop - r.start

/-- `struct CircularBuffer` — src/circular_buffer.rs:9-13.  `buffer` is the
whole allocation, so `capacity()` (lines 243-245) is its length. -/
structure CBuf where
  buffer : Bytes
  position : Nat
  length : Nat
  deriving Repr

/-- `capacity` — src/circular_buffer.rs:243-245. -/
def CBuf.capacity (c : CBuf) : Nat := c.buffer.length

/-- `occupied` — src/circular_buffer.rs:15-29. -/
def occupied (position length capacity : Nat) : Rng × Option Rng :=
  if position + length ≤ capacity then
    (⟨position, position + length⟩, none)
  else
    let a : Rng := ⟨position, capacity⟩
    let b : Rng := ⟨0, length - a.len⟩
    (a, some b)

/-- `empty` — src/circular_buffer.rs:31-73. -/
def emptyRange (position length capacity max : Nat) : Rng × Option Rng :=
  if position = 0 then
    let a : Rng := ⟨length, capacity⟩
    (if max < a.len then ⟨a.start, a.start + max⟩ else a, none)
  else if position + length ≥ capacity then
    let right := capacity - position
    let left := length - right
    let a : Rng := ⟨left, capacity - right⟩
    (if max < a.len then ⟨a.start, a.start + max⟩ else a, none)
  else
    let a : Rng := ⟨position + length, capacity⟩
    let b : Rng := ⟨0, position⟩
    if max ≤ a.len then
      (⟨a.start, a.start + max⟩, none)
    else
      let max := max - a.len
      (a, some (if max ≤ b.len then ⟨b.start, b.start + max⟩ else b))

/-- Slicing `&bs[r]`: panics unless `r.start ≤ r.stop ≤ bs.len()`. -/
def sliceOf (bs : Bytes) (r : Rng) : Except Panic Bytes :=
  if r.start ≤ r.stop ∧ r.stop ≤ bs.length then .ok ((bs.drop r.start).take r.len)
  else .error .sliceIndex

/-- Overwriting the part of `bs` which starts at `i` by `d`
(`copy_from_slice` or an `io::Read` filling a sub-slice). -/
def overwrite (bs : Bytes) (i : Nat) (d : Bytes) : Bytes :=
  bs.take i ++ d ++ bs.drop (i + d.length)

/-- `with_capacity` — src/circular_buffer.rs:217-231 (contents: zeros in place
of uninitialised memory). -/
def CBuf.withCapacity (capacity : Nat) : CBuf := ⟨List.replicate capacity 0, 0, 0⟩

/-- `as_slices` — src/circular_buffer.rs:299-304. -/
def CBuf.asSlices (c : CBuf) : Except Panic (Bytes × Option Bytes) := do
  let (a, b) := occupied c.position c.length c.capacity
  let sa ← sliceOf c.buffer a
  match b with
  | none => .ok (sa, none)
  | some b =>
    let sb ← sliceOf c.buffer b
    .ok (sa, some sb)

/-- `reserve` — src/circular_buffer.rs:252-287 (`is_exact = false`).  The
capacity obtained from `Vec::reserve(n)` is `grow n`. -/
def CBuf.reserve (grow : Nat → Nat) (c : CBuf) (size : Nat) : Except Panic CBuf :=
  let newCapacity := c.length + size
  if c.capacity ≥ newCapacity then .ok c
  else do
    let newBuffer : Bytes := List.replicate (grow newCapacity) 0
    let (a, b) := occupied c.position c.length c.capacity
    let sa ← sliceOf c.buffer a
    let newBuffer := overwrite newBuffer 0 sa
    match b with
    | none => .ok ⟨newBuffer, 0, c.length⟩
    | some b =>
      let sb ← sliceOf c.buffer b
      .ok ⟨overwrite newBuffer a.len sb, 0, c.length⟩

/-- `try_append_with` — src/circular_buffer.rs:289-297.  The callback gets the
length of the slice it may fill and returns the bytes it stored there
(on failure the slice is taken to be untouched; it is outside the occupied
part in any case). -/
def CBuf.tryAppendWith {σ ε : Type} (grow : Nat → Nat) (c : CBuf) (size : Nat)
    (callback : Nat → σ → Except ε Bytes × σ) (s : σ) :
    Except Panic (Except ε Nat × CBuf × σ) := do
  let c ← c.reserve grow size
  let (range, _) := emptyRange c.position c.length c.capacity size
  let _ ← sliceOf c.buffer range
  match callback range.len s with
  | (.error e, s) => .ok (.error e, c, s)
  | (.ok d, s) =>
    .ok (.ok d.length, ⟨overwrite c.buffer range.start d, c.position, c.length + d.length⟩, s)

/-- `as_slices_of_length` — src/circular_buffer.rs:306-315. -/
def CBuf.asSlicesOfLength (c : CBuf) (length : Nat) : Except Panic (Bytes × Option Bytes) :=
  if length ≤ c.length then do
    let (a, b) ← c.asSlices
    if length ≤ a.length then .ok (a.take length, none)
    else .ok (a, b.map (fun b => b.take (length - a.length)))
  else .error .assertFailed

/-- Copying two slices to an output buffer of `n` bytes:
`output[..a.len()].copy_from_slice(a); output[a.len()..].copy_from_slice(b)`
— src/circular_buffer.rs:379-383, src/readable.rs:379-384.  `copy_from_slice`
panics if lengths differ; without second slice the first must fill the output
(else the rest would stay uninitialised, which is reported as a panic here). -/
def copyOut (n : Nat) (a : Bytes) (b : Option Bytes) : Except Panic Bytes :=
  match b with
  | none => if a.length = n then .ok a else .error .sliceIndex
  | some b => if a.length + b.length = n then .ok (a ++ b) else .error .sliceIndex

/-- `consume` — src/circular_buffer.rs:343-352. -/
def CBuf.consume (c : CBuf) (length : Nat) : Except Panic CBuf :=
  if length ≤ c.length then
    if c.capacity = 0 then .error .divByZero
    else
      let position := (c.position + length) % c.capacity
      let newLength := c.length - length
      .ok ⟨c.buffer, if newLength = 0 then 0 else position, newLength⟩
  else .error .assertFailed

/-- `consume_into_slow` — src/circular_buffer.rs:371-386. -/
def CBuf.consumeIntoSlow (c : CBuf) (n : Nat) : Except Panic (Bytes × CBuf) :=
  if n = 0 then .ok ([], c)
  else if n ≤ c.length then do
    let (a, b) ← c.asSlicesOfLength n
    let out ← copyOut n a b
    let c ← c.consume n
    .ok (out, c)
  else .error .assertFailed

/-- `consume_into` a buffer of `n` bytes — src/circular_buffer.rs:354-369;
returns the bytes stored. -/
def CBuf.consumeInto (c : CBuf) (n : Nat) : Except Panic (Bytes × CBuf) :=
  let length := min c.length n
  if c.position + length < c.capacity then do
    let out ← sliceOf c.buffer ⟨c.position, c.position + length⟩
    let newLength := c.length - length
    .ok (out, ⟨c.buffer, if newLength = 0 then 0 else c.position + length, newLength⟩)
  else c.consumeIntoSlow n

/-- `extend_from_slice` (test helper) — src/circular_buffer.rs:330-341. -/
def CBuf.extendFromSlice (grow : Nat → Nat) (c : CBuf) (d : Bytes) : Except Panic CBuf := do
  let c ← c.reserve grow d.length
  let (r1, r2) := emptyRange c.position c.length c.capacity d.length
  let _ ← sliceOf c.buffer r1
  let b1 := overwrite c.buffer r1.start (d.take r1.len)
  match r2 with
  | none =>
    if r1.len = d.length then .ok ⟨b1, c.position, c.length + d.length⟩
    else .error .sliceIndex
  | some r2 =>
    let _ ← sliceOf c.buffer r2
    if r2.len = d.length - r1.len then
      .ok ⟨overwrite b1 r2.start (d.drop r1.len), c.position, c.length + d.length⟩
    else .error .sliceIndex

/-! ## Refinement to a queue -/

/-- The queue represented by a circular buffer: the byte at queue position `i`
is stored at `(position + i) mod capacity`. -/
def CBuf.content (c : CBuf) : Bytes :=
  (List.range c.length).map (fun i => c.buffer.getD ((c.position + i) % c.capacity) 0)

/-- The invariant of circular buffers. -/
structure CBuf.Inv (c : CBuf) : Prop where
  len_le : c.length ≤ c.capacity
  pos_zero : c.length = 0 → c.position = 0
  pos_lt : c.position < c.capacity ∨ c.position = 0

@[simp] theorem CBuf.content_length (c : CBuf) : c.content.length = c.length := by
  simp [CBuf.content]

theorem overwrite_length {bs d : Bytes} {i : Nat} (h : i + d.length ≤ bs.length) :
    (overwrite bs i d).length = bs.length := by
  simp [overwrite]; omega

theorem overwrite_getD {bs d : Bytes} {i : Nat} (h : i + d.length ≤ bs.length) (j : Nat) :
    (overwrite bs i d).getD j 0 =
      if i ≤ j ∧ j < i + d.length then d.getD (j - i) 0 else bs.getD j 0 := by
  simp only [overwrite, List.getD_eq_getElem?_getD, List.getElem?_append, List.length_append,
    List.length_take, List.getElem?_take, List.getElem?_drop]
  by_cases h1 : j < i
  · have : ¬ (i ≤ j) := by omega
    have h2 : j < min i bs.length := by omega
    have h4 : j < min i bs.length + d.length := by omega
    simp [h1, this, h2, h4]
  · by_cases h2 : j < i + d.length
    · have e1 : j < min i bs.length + d.length := by omega
      have e2 : ¬ (j < min i bs.length) := by omega
      have e3 : j - min i bs.length = j - i := by omega
      have e4 : i ≤ j ∧ j < i + d.length := by omega
      simp only [e1, e2, e3, e4, if_true, if_false, and_self]
    · have e1 : ¬ (j < min i bs.length + d.length) := by omega
      have e4 : ¬ (i ≤ j ∧ j < i + d.length) := by omega
      have e3 : i + d.length + (j - (min i bs.length + d.length)) = j := by omega
      simp only [e1, e4, e3, if_false]

theorem list_ext_getD {a b : Bytes} (hl : a.length = b.length)
    (h : ∀ i, i < a.length → a.getD i 0 = b.getD i 0) : a = b := by
  apply List.ext_getElem hl
  intro i h1 h2
  have := h i h1
  simpa [List.getD_eq_getElem?_getD, List.getElem?_eq_getElem h1, List.getElem?_eq_getElem h2] using this

theorem CBuf.content_getD {c : CBuf} {i : Nat} (h : i < c.length) :
    c.content.getD i 0 = c.buffer.getD ((c.position + i) % c.capacity) 0 := by
  simp [CBuf.content, List.getD_eq_getElem?_getD, h]

theorem mod_wrap {p i cap : Nat} (hp : p < cap) (hi : i ≤ cap) :
    (p + i) % cap = if p + i < cap then p + i else p + i - cap := by
  split
  · exact Nat.mod_eq_of_lt ‹_›
  · rw [Nat.mod_eq_sub_mod (by omega), Nat.mod_eq_of_lt (by omega)]

theorem take_drop_getD {bs : Bytes} {s n j : Nat} (h : j < n) :
    ((bs.drop s).take n).getD j 0 = bs.getD (s + j) 0 := by
  simp [List.getD_eq_getElem?_getD, h]

theorem append_getD (a b : Bytes) (i : Nat) :
    (a ++ b).getD i 0 = if i < a.length then a.getD i 0 else b.getD (i - a.length) 0 := by
  simp only [List.getD_eq_getElem?_getD, List.getElem?_append]
  split <;> rfl

theorem take_getD {a : Bytes} {n i : Nat} (h : i < n) : (a.take n).getD i 0 = a.getD i 0 := by
  simp [List.getD_eq_getElem?_getD, h]

theorem drop_getD {a : Bytes} {n i : Nat} : (a.drop n).getD i 0 = a.getD (n + i) 0 := by
  simp [List.getD_eq_getElem?_getD]

theorem CBuf.withCapacity_inv (n : Nat) : (CBuf.withCapacity n).Inv :=
  ⟨by simp [CBuf.withCapacity], by simp [CBuf.withCapacity], by simp [CBuf.withCapacity]⟩

theorem CBuf.withCapacity_content (n : Nat) : (CBuf.withCapacity n).content = [] := by
  simp [CBuf.withCapacity, CBuf.content]

/-- The two slices, put together, are the queue. -/
theorem CBuf.asSlices_ok {c : CBuf} (hc : c.Inv) :
    ∃ a b, c.asSlices = .ok (a, b) ∧ a ++ b.getD [] = c.content ∧
      (b = none → a.length = c.length) := by
  obtain ⟨h1, h2, h3⟩ := hc
  unfold CBuf.asSlices occupied
  unfold CBuf.capacity at *
  by_cases h : c.position + c.length ≤ c.buffer.length
  · simp only [h, if_true, sliceOf]
    have hr : c.position ≤ c.position + c.length ∧ c.position + c.length ≤ c.buffer.length := by omega
    simp only [hr, and_self, if_true]
    refine ⟨_, _, rfl, ?_, ?_⟩
    · apply list_ext_getD
      · simp [Rng.len]; omega
      · intro i hi
        simp [Rng.len] at hi
        rw [CBuf.content_getD (by omega)]
        simp only [Option.getD_none, List.append_nil, Rng.len]
        rw [take_drop_getD (by omega)]
        congr 1
        unfold CBuf.capacity
        rw [Nat.mod_eq_of_lt (by omega)]
    · intro _; simp [Rng.len]; omega
  · simp only [h, if_false, sliceOf]
    have hp : c.position < c.buffer.length := by omega
    have hr : c.position ≤ c.buffer.length ∧ c.buffer.length ≤ c.buffer.length := by omega
    have hr2 : 0 ≤ c.length - Rng.len ⟨c.position, c.buffer.length⟩ ∧
       c.length - Rng.len ⟨c.position, c.buffer.length⟩ ≤ c.buffer.length := by simp [Rng.len]; omega
    simp only [hr, hr2, and_self, if_true]
    refine ⟨_, _, rfl, ?_, by simp⟩
    apply list_ext_getD
    · simp [Rng.len]; omega
    · intro i hi
      simp [Rng.len] at hi
      rw [CBuf.content_getD (by omega)]
      simp only [Option.getD_some, Rng.len]
      rw [append_getD]
      unfold CBuf.capacity
      rw [mod_wrap hp (by omega)]
      simp only [List.length_take, List.length_drop]
      split
      · rw [take_drop_getD (by omega), if_pos (by omega)]
      · rw [take_drop_getD (by omega), if_neg (by omega)]
        congr 1; omega

theorem CBuf.asSlicesOfLength_ok {c : CBuf} (hc : c.Inv) {n : Nat} (hn : n ≤ c.length) :
    ∃ a b, c.asSlicesOfLength n = .ok (a, b) ∧ copyOut n a b = .ok (c.content.take n) := by
  obtain ⟨a, b, h1, h2, h3⟩ := CBuf.asSlices_ok hc
  unfold CBuf.asSlicesOfLength
  simp only [hn, if_true, h1]
  have hlen : a.length + (b.getD []).length = c.length := by
    have := congrArg List.length h2
    simpa using this
  by_cases h : n ≤ a.length
  · refine ⟨a.take n, none, by simp [h, bind, Except.bind], ?_⟩
    have : n - a.length = 0 := by omega
    simp [copyOut, ← h2, h, List.take_append, this]
  · cases b with
    | none => have := h3 rfl; omega
    | some b =>
      refine ⟨a, some (b.take (n - a.length)), by simp [h, bind, Except.bind], ?_⟩
      have h4 : a.length + (n - a.length) = n := by omega
      have h5 : a.take n = a := List.take_of_length_le (by omega)
      simp only [Option.getD_some] at hlen h2
      have h6 : a.length + (b.take (n - a.length)).length = n := by simp; omega
      simp [copyOut, h6, ← h2, List.take_append, h5]
      omega

theorem CBuf.consume_ok {c : CBuf} (hc : c.Inv) {n : Nat} (hn : n ≤ c.length) (hcap : c.capacity ≠ 0) :
    ∃ c', c.consume n = .ok c' ∧ c'.Inv ∧ c'.content = c.content.drop n := by
  obtain ⟨h1, h2, h3⟩ := hc
  unfold CBuf.consume
  simp only [hn, if_true, hcap, if_false]
  refine ⟨_, rfl, ⟨?_, ?_, ?_⟩, ?_⟩
  · simp [CBuf.capacity] at *; omega
  · simp; intro h h'; exact absurd h' (by omega)
  · simp only [CBuf.capacity]
    split
    · right; rfl
    · left; exact Nat.mod_lt _ (by unfold CBuf.capacity at hcap; omega)
  · apply list_ext_getD
    · simp
    · intro i hi
      simp at hi
      rw [CBuf.content_getD (by simpa using hi), drop_getD, CBuf.content_getD (by omega)]
      simp only [CBuf.capacity]
      rw [if_neg (by omega), Nat.mod_add_mod, Nat.add_assoc]

/-- Consuming takes bytes from the front of the queue. -/
theorem CBuf.consumeInto_ok {c : CBuf} (hc : c.Inv) {n : Nat} (hn : n ≤ c.length) :
    ∃ c', c.consumeInto n = .ok (c.content.take n, c') ∧ c'.Inv ∧ c'.content = c.content.drop n ∧
      c'.capacity = c.capacity := by
  unfold CBuf.consumeInto
  rw [Nat.min_eq_right hn]
  by_cases h : c.position + n < c.capacity
  · simp only [h, if_true, sliceOf]
    have hr : c.position ≤ c.position + n ∧ c.position + n ≤ c.buffer.length := by
      unfold CBuf.capacity at h; omega
    simp only [hr, and_self, if_true]
    obtain ⟨h1, h2, h3⟩ := hc
    refine ⟨⟨c.buffer, if c.length - n = 0 then 0 else c.position + n, c.length - n⟩, ?_, ⟨?_, ?_, ?_⟩, ?_, rfl⟩
    · simp only [bind, Except.bind]
      congr 2
      apply list_ext_getD
      · simp [Rng.len]; unfold CBuf.capacity at h; omega
      · intro i hi
        simp [Rng.len] at hi
        simp only [Rng.len]
        rw [take_drop_getD (by omega), take_getD (by omega), CBuf.content_getD (by omega),
          Nat.mod_eq_of_lt (by omega)]
    · simp [CBuf.capacity] at *; omega
    · simp; intro h h'; exact absurd h' (by omega)
    · simp only [CBuf.capacity]
      split
      · right; rfl
      · left; exact h
    · apply list_ext_getD
      · simp
      · intro i hi
        simp at hi
        rw [CBuf.content_getD (by simpa using hi), drop_getD, CBuf.content_getD (by omega)]
        simp only [CBuf.capacity]
        rw [if_neg (by omega), Nat.add_assoc]
  · simp only [h, if_false, CBuf.consumeIntoSlow]
    by_cases hz : n = 0
    · subst hz
      exact ⟨c, by simp, hc, by simp, rfl⟩
    · simp only [hz, if_false, hn, if_true]
      obtain ⟨a, b, h1, h2⟩ := CBuf.asSlicesOfLength_ok hc hn
      have hcap : c.capacity ≠ 0 := by have := hc.len_le; omega
      obtain ⟨c', h3, h4, h5⟩ := CBuf.consume_ok hc hn hcap
      refine ⟨c', by simp [h1, h2, h3, bind, Except.bind], h4, h5, ?_⟩
      unfold CBuf.consume at h3
      simp only [hn, if_true, hcap, if_false] at h3
      injection h3 with h3
      subst h3
      rfl

/-- Reserving keeps the queue and makes room. -/
theorem CBuf.reserve_ok {grow : Nat → Nat} (hg : ∀ n, n ≤ grow n) {c : CBuf} (hc : c.Inv) (size : Nat) :
    ∃ c', c.reserve grow size = .ok c' ∧ c'.Inv ∧ c'.content = c.content ∧
      c.length + size ≤ c'.capacity ∧ c'.length = c.length ∧ (c.length + size ≤ c.capacity → c' = c) := by
  unfold CBuf.reserve
  by_cases h : c.capacity ≥ c.length + size
  · simp only [h, if_true]
    exact ⟨c, rfl, hc, rfl, by omega, rfl, fun _ => rfl⟩
  · simp only [h, if_false]
    have h0 := hg (c.length + size)
    obtain ⟨a, b, h1, h2, h3⟩ := CBuf.asSlices_ok hc
    have hlen : a.length + (b.getD []).length = c.length := by
      have := congrArg List.length h2
      simpa using this
    unfold CBuf.asSlices at h1
    generalize hocc : occupied c.position c.length c.capacity = ab at h1
    obtain ⟨ra, rb⟩ := ab
    simp only [bind, Except.bind] at h1 ⊢
    cases hsa : sliceOf c.buffer ra with
    | error e => rw [hsa] at h1; simp at h1
    | ok sa =>
      rw [hsa] at h1
      simp only at h1 ⊢
      have hra : sa.length = ra.len := by
        unfold sliceOf at hsa
        split at hsa
        · injection hsa with hsa
          subst hsa
          simp [Rng.len]; omega
        · exact absurd hsa (by simp)
      cases rb with
      | none =>
        simp only [Except.ok.injEq, Prod.mk.injEq] at h1
        obtain ⟨rfl, rfl⟩ := h1
        simp only [Option.getD_none, List.append_nil, List.length_nil, Nat.add_zero] at h2 hlen
        have hl : (overwrite (List.replicate (grow (c.length + size)) 0) 0 sa).length = grow (c.length + size) := by
          rw [overwrite_length] <;> simp; omega
        refine ⟨_, rfl, ⟨?_, ?_, ?_⟩, ?_, ?_, rfl, fun hh => hh.elim⟩
        · simp only [CBuf.capacity, hl]; omega
        · simp
        · simp
        · apply list_ext_getD
          · simp
          · intro i hi
            simp at hi
            rw [CBuf.content_getD (by simpa using hi), ← h2]
            simp only [CBuf.capacity, Nat.zero_add]
            rw [Nat.mod_eq_of_lt (by rw [hl]; omega), overwrite_getD (by simp; omega), if_pos (by omega), Nat.sub_zero]
        · simp only [CBuf.capacity, hl]; omega
      | some rb =>
        cases hsb : sliceOf c.buffer rb with
        | error e => simp [hsb] at h1
        | ok sb =>
          simp only [hsb, Except.ok.injEq, Prod.mk.injEq] at h1 ⊢
          obtain ⟨rfl, rfl⟩ := h1
          simp only [Option.getD_some] at h2 hlen
          have hl1 : (overwrite (List.replicate (grow (c.length + size)) 0) 0 sa).length = grow (c.length + size) := by
            rw [overwrite_length] <;> simp; omega
          have hl : (overwrite (overwrite (List.replicate (grow (c.length + size)) 0) 0 sa) ra.len sb).length
              = grow (c.length + size) := by
            rw [overwrite_length, hl1]; rw [hl1]; omega
          refine ⟨_, rfl, ⟨?_, ?_, ?_⟩, ?_, ?_, rfl, fun hh => hh.elim⟩
          · simp only [CBuf.capacity, hl]; omega
          · simp
          · simp
          · apply list_ext_getD
            · simp
            · intro i hi
              simp at hi
              rw [CBuf.content_getD (by simpa using hi), ← h2, append_getD]
              simp only [CBuf.capacity, hl, Nat.zero_add]
              rw [Nat.mod_eq_of_lt (by omega), overwrite_getD (by rw [hl1]; omega)]
              by_cases hi2 : i < sa.length
              · rw [if_neg (by omega), overwrite_getD (by simp; omega), if_pos (by omega), if_pos hi2, Nat.sub_zero]
              · rw [if_pos (by omega), if_neg hi2, hra]
          · simp only [CBuf.capacity, hl]; omega

/-- The range offered for new bytes. -/
theorem emptyRange_spec {c : CBuf} (hc : c.Inv) (size : Nat) (hs : c.length + size ≤ c.capacity) :
    let r := (emptyRange c.position c.length c.capacity size).1
    r.start ≤ r.stop ∧ r.stop ≤ c.capacity ∧ r.len ≤ size ∧
    (c.length < c.capacity → r.start = (c.position + c.length) % c.capacity) ∧
    (0 < size → 0 < r.len) := by
  obtain ⟨h1, h2, h3⟩ := hc
  unfold emptyRange
  by_cases hp : c.position = 0
  · simp only [hp, if_true]
    split
    · simp only [Rng.len] at *
      refine ⟨by omega, by omega, by omega, ?_, by omega⟩
      intro h; rw [Nat.zero_add, Nat.mod_eq_of_lt (by omega)]
    · simp only [Rng.len] at *
      refine ⟨by omega, by omega, by omega, ?_, by omega⟩
      intro h; rw [Nat.zero_add, Nat.mod_eq_of_lt (by omega)]
  · have hp' : c.position < c.capacity := by omega
    simp only [hp, if_false]
    by_cases hq : c.position + c.length ≥ c.capacity
    · simp only [hq, if_true]
      split
      · simp only [Rng.len] at *
        refine ⟨by omega, by omega, by omega, ?_, by omega⟩
        intro h; rw [mod_wrap hp' (by omega), if_neg (by omega)]; omega
      · simp only [Rng.len] at *
        refine ⟨by omega, by omega, by omega, ?_, by omega⟩
        intro h; rw [mod_wrap hp' (by omega), if_neg (by omega)]; omega
    · simp only [hq, if_false]
      split
      · simp only [Rng.len] at *
        refine ⟨by omega, by omega, by omega, ?_, by omega⟩
        intro h; rw [Nat.mod_eq_of_lt (by omega)]
      · simp only [Rng.len] at *
        refine ⟨by omega, by omega, by omega, ?_, by omega⟩
        intro h; rw [Nat.mod_eq_of_lt (by omega)]

/-- Storing bytes in the offered range appends them to the queue. -/
theorem CBuf.append_content {c : CBuf} (hc : c.Inv) {d : Bytes} {start : Nat}
    (hd : start + d.length ≤ c.capacity) (hl : c.length + d.length ≤ c.capacity)
    (hs : c.length < c.capacity → start = (c.position + c.length) % c.capacity) :
    let c' : CBuf := ⟨overwrite c.buffer start d, c.position, c.length + d.length⟩
    (d ≠ [] ∨ c.length + d.length = c.length) → c'.Inv ∧ c'.content = c.content ++ d ∧ c'.capacity = c.capacity := by
  intro c' _
  obtain ⟨h1, h2, h3⟩ := hc
  have hcap : c'.capacity = c.capacity := by
    simp only [c', CBuf.capacity]; exact overwrite_length hd
  refine ⟨⟨by rw [hcap]; exact hl, ?_, ?_⟩, ?_, hcap⟩
  · intro h; exact h2 (by simp only [c'] at h; omega)
  · rw [hcap]; exact h3
  · apply list_ext_getD
    · simp [c']
    · intro i hi
      simp [c'] at hi
      rw [CBuf.content_getD (by simpa [c'] using hi), hcap, append_getD]
      simp only [c', CBuf.content_length]
      rw [overwrite_getD hd]
      by_cases hp : c.position < c.capacity
      · by_cases hi2 : i < c.length
        · rw [if_pos hi2, CBuf.content_getD hi2]
          rw [if_neg]
          by_cases hlt : c.length < c.capacity
          · rw [hs hlt]
            have e1 := mod_wrap hp (Nat.le_of_lt hlt)
            have e2 := mod_wrap hp (i := i) (by omega)
            rw [e1, e2]
            have hs' := hs hlt
            rw [e1] at hs'
            split <;> split at hs' <;> split <;> omega
          · omega
        · rw [if_neg hi2]
          have hlt : c.length < c.capacity := by omega
          have hs' := hs hlt
          have e1 := mod_wrap hp (Nat.le_of_lt hlt)
          have e2 := mod_wrap hp (i := i) (by omega)
          rw [e1] at hs'
          rw [e2]
          split
          · split at hs'
            · rw [if_pos (by omega)]; congr 1; omega
            · omega
          · split at hs'
            · omega
            · rw [if_pos (by omega)]; congr 1; omega
      · have hp0 : c.position = 0 := by omega
        have hc0 : c.capacity = 0 := by omega
        omega

/-- `try_append_with`: it offers between 1 and `size` bytes of room, and
whatever the callback stores is appended to the queue. -/
theorem CBuf.tryAppendWith_ok {σ ε : Type} {grow : Nat → Nat} (hg : ∀ n, n ≤ grow n) {c : CBuf} (hc : c.Inv)
    {size : Nat} (hsize : 0 < size) (cb : Nat → σ → Except ε Bytes × σ)
    (hcb : ∀ n s d s', cb n s = (.ok d, s') → d.length ≤ n) (s : σ) :
    ∃ (n : Nat), 0 < n ∧ n ≤ size ∧
      match cb n s with
      | (.error e, s') => ∃ c', c.tryAppendWith grow size cb s = .ok (.error e, c', s') ∧
          c'.Inv ∧ c'.content = c.content ∧ c.capacity ≤ c'.capacity ∧
          (c.length + size ≤ c.capacity → c'.capacity = c.capacity)
      | (.ok d, s') => ∃ c', c.tryAppendWith grow size cb s = .ok (.ok d.length, c', s') ∧
          c'.Inv ∧ c'.content = c.content ++ d ∧ c.capacity ≤ c'.capacity ∧
          (c.length + size ≤ c.capacity → c'.capacity = c.capacity) := by
  obtain ⟨c1, e1, i1, q1, r1, l1, k1⟩ := CBuf.reserve_ok hg hc size
  have hcapmono : c.capacity ≤ c1.capacity := by
    by_cases hh : c.length + size ≤ c.capacity
    · rw [k1 hh]; exact Nat.le_refl _
    · omega
  have hr := emptyRange_spec i1 size (by omega)
  unfold CBuf.tryAppendWith
  simp only [e1, bind, Except.bind]
  generalize hre : emptyRange c1.position c1.length c1.capacity size = re at hr ⊢
  obtain ⟨r, r2⟩ := re
  simp only at hr
  obtain ⟨hr1, hr2, hr3, hr4, hr5⟩ := hr
  have hsl : ∃ x, sliceOf c1.buffer r = .ok x := by
    unfold sliceOf
    rw [if_pos ⟨hr1, by unfold CBuf.capacity at hr2; omega⟩]
    exact ⟨_, rfl⟩
  obtain ⟨x, hx⟩ := hsl
  refine ⟨r.len, hr5 hsize, hr3, ?_⟩
  simp only [hx]
  rcases hcbr : cb r.len s with ⟨res, s'⟩
  cases res with
  | error e =>
    exact ⟨c1, rfl, i1, q1, hcapmono, fun hh => by rw [k1 hh]⟩
  | ok d =>
    have hdl := hcb _ _ _ _ hcbr
    have happ := CBuf.append_content (d := d) (start := r.start) i1 (by unfold Rng.len at hdl; omega) (by omega) hr4
    have hcases : d ≠ [] ∨ c1.length + d.length = c1.length := by
      cases d <;> simp
    obtain ⟨a1, a2, a3⟩ := happ hcases
    exact ⟨_, rfl, a1, by rw [a2, q1], by rw [a3]; exact hcapmono, fun hh => by rw [a3, k1 hh]⟩

/-- The two ranges offered for new bytes: the first one has room for all of them, or it extends to the end of the memory and the
second one, at its beginning, has room for the rest. -/
theorem emptyRange_pair {c : CBuf} (hc : c.Inv) (size : Nat) (hs : c.length + size ≤ c.capacity) :
    match emptyRange c.position c.length c.capacity size with
    | (r, none) => r.len = size
    | (r, some r2) => r.stop = c.capacity ∧ r.start = c.position + c.length ∧ r2.start = 0 ∧ r2.stop = size - r.len ∧ r2.stop ≤ c.capacity := by
  obtain ⟨h1, h2, h3⟩ := hc
  unfold emptyRange
  by_cases hp : c.position = 0
  · simp only [hp, if_true]
    split <;> simp only [Rng.len] at * <;> omega
  · simp only [hp, if_false]
    by_cases hw : c.position + c.length ≥ c.capacity
    · simp only [hw, if_true]
      split <;> simp only [Rng.len] at * <;> omega
    · simp only [hw, if_false]
      by_cases hm : size ≤ Rng.len ⟨c.position + c.length, c.capacity⟩
      · simp only [hm, if_true]
        simp only [Rng.len] at *; omega
      · simp only [hm, if_false]
        refine ⟨trivial, trivial, ?_, ?_, ?_⟩ <;> split <;> simp only [Rng.len] at * <;> omega

/-- `extend_from_slice` appends all bytes. -/
theorem CBuf.extendFromSlice_ok {grow : Nat → Nat} (hg : ∀ n, n ≤ grow n) {c : CBuf} (hc : c.Inv) (d : Bytes) :
    ∃ c', c.extendFromSlice grow d = .ok c' ∧ c'.Inv ∧ c'.content = c.content ++ d := by
  obtain ⟨c1, e1, i1, q1, r1, l1, k1⟩ := CBuf.reserve_ok hg hc d.length
  have hr := emptyRange_spec i1 d.length (by omega)
  have hp := emptyRange_pair i1 d.length (by omega)
  unfold CBuf.extendFromSlice
  simp only [e1, bind, Except.bind]
  generalize hre : emptyRange c1.position c1.length c1.capacity d.length = re at hr hp ⊢
  obtain ⟨r, r2⟩ := re
  simp only at hr
  obtain ⟨hr1, hr2, hr3, hr4, hr5⟩ := hr
  have hsl : ∃ x, sliceOf c1.buffer r = .ok x := by
    unfold sliceOf
    rw [if_pos ⟨hr1, by unfold CBuf.capacity at hr2; omega⟩]
    exact ⟨_, rfl⟩
  obtain ⟨x, hx⟩ := hsl
  simp only [hx]
  have ht : (d.take r.len).length = r.len := by simp; omega
  have hcases : ∀ d : Bytes, d ≠ [] ∨ c1.length + d.length = c1.length := fun d => by cases d <;> simp
  obtain ⟨a1, a2, a3⟩ := CBuf.append_content (d := d.take r.len) (start := r.start) i1 (by unfold Rng.len at ht; unfold Rng.len; omega) (by omega) hr4
    (hcases _)
  cases r2 with
  | none =>
    simp only at hp
    rw [hp, List.take_length] at a1 a2
    simp only [hp, if_true, List.take_length]
    exact ⟨_, rfl, a1, by rw [a2, q1]⟩
  | some r2 =>
    obtain ⟨p1, p2, p3, p4, p5⟩ := hp
    have hsl2 : ∃ x, sliceOf c1.buffer r2 = .ok x := by
      unfold sliceOf
      rw [if_pos ⟨by omega, by unfold CBuf.capacity at p5; omega⟩]
      exact ⟨_, rfl⟩
    obtain ⟨x2, hx2⟩ := hsl2
    have hl2 : r2.len = d.length - r.len := by unfold Rng.len at *; omega
    simp only [hx2, hl2, if_true]
    have hlen : c1.length + r.len + (d.length - r.len) = c1.length + d.length := by omega
    generalize hc2 : (⟨overwrite c1.buffer r.start (d.take r.len), c1.position, c1.length + (d.take r.len).length⟩ : CBuf) = c2 at a1 a2 a3
    have hb : c2.buffer = overwrite c1.buffer r.start (d.take r.len) := by rw [← hc2]
    have hpos : c2.position = c1.position := by rw [← hc2]
    have hlen2 : c2.length = c1.length + r.len := by rw [← hc2]; simp only [ht]
    have hstop : r.stop - r.start = r.len := rfl
    obtain ⟨b1, b2, b3⟩ := CBuf.append_content (c := c2) (d := d.drop r.len) (start := r2.start) a1 (by simp; omega) (by simp; omega)
      (by
        intro _
        have : c2.position + c2.length = c2.capacity := by omega
        rw [this, Nat.mod_self, p3])
      (by cases d.drop r.len <;> simp)
    rw [hb, hpos, hlen2, List.length_drop, hlen] at b1 b2
    refine ⟨_, rfl, b1, ?_⟩
    rw [b2, a2, q1, List.append_assoc, List.take_append_drop]

end Verif
