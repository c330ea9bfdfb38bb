import Verif.ReaderApi

/-!
# `RawCopyIter` with its pointers (C80)

Sets and maps of primitive elements are collected from an iterator which walks over the borrowed bytes with two raw pointers
(src/reader.rs:20-54). `readCollection` and `readKV` in `ReaderApi` only say which values come out. Here is the iterator itself,
with addresses; undefined behaviour is an explicit value.
-/

namespace Verif

/-- A borrowed slice: its address and its bytes. -/
structure Slice where
  addr : Nat
  bytes : Bytes

/-- What may happen when memory is read by a pointer or two pointers are subtracted. -/
inductive IterFault where
  /-- undefined behaviour: bytes outside of the slice are read, or a pointer is moved beyond its end -/
  | outOfBounds
  /-- a panic: division by zero -/
  | divByZero
  /-- a panic in debug builds: `end - pointer` is negative -/
  | underflow
  deriving DecidableEq, Repr

/-- `core::ptr::read_unaligned` of a value of `size` bytes at the address `p`. -/
def Slice.load (m : Slice) (p size : Nat) : Except IterFault Bytes :=
  if m.addr ≤ p ∧ p + size ≤ m.addr + m.bytes.length then .ok ((m.bytes.drop (p - m.addr)).take size)
  else .error .outOfBounds

/-- `pointer::add` of `n` elements of `size` bytes: the result has to be in the slice or right after it. -/
def Slice.offset (m : Slice) (p n size : Nat) : Except IterFault Nat :=
  if m.addr ≤ p ∧ p + n * size ≤ m.addr + m.bytes.length then .ok (p + n * size) else .error .outOfBounds

/-- `RawCopyIter` — src/reader.rs:20-23. -/
structure CopyIter where
  pointer : Nat
  stop : Nat
  deriving DecidableEq, Repr

/-- How it is made — src/reader.rs:653-654 and 679-680 (`pointer.add( length )`). -/
def CopyIter.new (m : Slice) (size length : Nat) : Except IterFault CopyIter :=
  match m.offset m.addr length size with
  | .error f => .error f
  | .ok stop => .ok ⟨m.addr, stop⟩

/-- `next` — src/reader.rs:28-38. The bytes of the value, not yet its meaning. -/
def CopyIter.next (m : Slice) (size : Nat) (it : CopyIter) : Except IterFault (Option Bytes × CopyIter) :=
  if it.pointer = it.stop then .ok (none, it)
  else match m.offset it.pointer 1 size with
    | .error f => .error f
    | .ok p => match m.load it.pointer size with
      | .error f => .error f
      | .ok bs => .ok (some bs, { it with pointer := p })

/-- `len` — src/reader.rs:48-52; `size_hint` (40-44) returns it twice. -/
def CopyIter.len (size : Nat) (it : CopyIter) : Except IterFault Nat :=
  if it.stop < it.pointer then .error .underflow
  else if size = 0 then .error .divByZero
  else .ok ((it.stop - it.pointer) / size)

/-- What a collection may ask an iterator for. -/
inductive Ask where
  | next
  | len
  deriving DecidableEq, Repr

/-- What it is told. -/
inductive Told where
  | item (o : Option Bytes)
  | count (n : Nat)
  deriving DecidableEq, Repr

/-- One call. -/
def CopyIter.ask (m : Slice) (size : Nat) (it : CopyIter) : Ask → Except IterFault (Told × CopyIter)
  | .next => match it.next m size with
    | .error f => .error f
    | .ok (o, it') => .ok (.item o, it')
  | .len => match it.len size with
    | .error f => .error f
    | .ok n => .ok (.count n, it)

/-- A collection: it decides on its next call when it has seen the answers to the earlier ones, and stops when it likes. -/
def CopyIter.drive (m : Slice) (size : Nat) (user : List Told → Option Ask) :
    Nat → List Told → CopyIter → Except IterFault (List Told)
  | 0, seen, _ => .ok seen
  | fuel + 1, seen, it => match user seen with
    | none => .ok seen
    | some a => match it.ask m size a with
      | .error f => .error f
      | .ok (t, it') => CopyIter.drive m size user fuel (seen ++ [t]) it'

/-- `collect()` for a collection which only asks for elements until there are none left (`BTreeSet`, `BTreeMap`; the others ask
for `size_hint` first). The first argument bounds the number of elements. -/
def CopyIter.collect (m : Slice) (size : Nat) : Nat → CopyIter → Except IterFault (List Bytes)
  | 0, _ => .ok []
  | fuel + 1, it => match it.next m size with
    | .error f => .error f
    | .ok (none, _) => .ok []
    | .ok (some bs, it') => match CopyIter.collect m size fuel it' with
      | .error f => .error f
      | .ok l => .ok (bs :: l)

/-- Collecting the elements of a borrowed slice; `hint` says if the collection asks for `size_hint` first (`HashSet`, `HashMap`,
`IndexSet` and `IndexMap` do). -/
def copyAll (hint : Bool) (size length : Nat) (m : Slice) : Except IterFault (List Bytes) :=
  match CopyIter.new m size length with
  | .error f => .error f
  | .ok it => if hint then match it.len size with
      | .error f => .error f
      | .ok _ => it.collect m size (length + 1)
    else it.collect m size (length + 1)

/-- `read_collection` with the pointers of the iterator — src/reader.rs:640-660 (otherwise as `readCollection`). -/
def rawCollection (hint : Bool) (h : Host) (e : Endian) (el : Elem) (length : Nat) : M (Except IterFault (List Val)) :=
  if el.prim && (el.size == 1 || !e.conv h) then
    if length * el.size > h.usizeMax then M.fail .outOfRangeUsize
    else .borrowR (length * el.size) fun
      | some (.error er) => M.fail er
      | some (.ok (addr, bs)) => match copyAll hint el.size length ⟨addr, bs⟩ with
        | .error f => M.pure (.error f)
        | .ok l => M.pure (.ok (l.map el.ofMem))
      | none => M.map .ok (repeatM length el.read)
  else M.map .ok (repeatM length el.read)

/-- `read_key_value_collection` with the pointers of the iterator — src/reader.rs:662-686 (otherwise as `readKV`). -/
def rawKV (hint : Bool) (h : Host) (e : Endian) (ek ev : Elem) (length : Nat) : M (Except IterFault (List Val)) :=
  if ek.prim && ev.prim && ((ek.size == 1 && ev.size == 1) || !e.conv h) then
    if length * (ek.size + ev.size) > h.usizeMax then M.fail .outOfRangeUsize
    else .borrowR (length * (ek.size + ev.size)) fun
      | some (.error er) => M.fail er
      | some (.ok (addr, bs)) => match copyAll hint (ek.size + ev.size) length ⟨addr, bs⟩ with
        | .error f => M.pure (.error f)
        | .ok l => M.pure (.ok (l.map (ofMemPair ek ev)))
      | none => M.map .ok (repeatM length (readPair ek ev))
  else M.map .ok (repeatM length (readPair ek ev))

/-! ## The iterator at an element -/

/-- `it` stands before the element `k` of `length`. -/
def CopyIter.At (m : Slice) (size length k : Nat) (it : CopyIter) : Prop :=
  k ≤ length ∧ it.pointer = m.addr + k * size ∧ it.stop = m.addr + length * size ∧ length * size ≤ m.bytes.length

theorem CopyIter.new_at {m : Slice} {size length : Nat} (h : length * size ≤ m.bytes.length) :
    ∃ it, CopyIter.new m size length = .ok it ∧ it.At m size length 0 := by
  refine ⟨⟨m.addr, m.addr + length * size⟩, ?_, by omega, by simp, rfl, h⟩
  unfold CopyIter.new Slice.offset
  rw [if_pos (by omega)]

theorem chunks_succ (size n : Nat) (bs : Bytes) : chunks size (n + 1) bs = bs.take size :: chunks size n (bs.drop size) := rfl

theorem chunks_drop (size : Nat) : ∀ (n k : Nat) (bs : Bytes), (chunks size n bs).drop k = chunks size (n - k) (bs.drop (k * size))
  | _, 0, bs => by simp
  | 0, k + 1, bs => by simp [chunks]
  | n + 1, k + 1, bs => by
    rw [chunks_succ, List.drop_succ_cons, chunks_drop size n k, List.drop_drop]
    congr 1
    · omega
    · congr 1; rw [Nat.add_mul]; omega

section
variable {m : Slice} {size length k : Nat} {it : CopyIter}

theorem CopyIter.next_at (hs : size ≠ 0) (h : it.At m size length k) (hk : k < length) :
    ∃ it', it.next m size = .ok (some ((m.bytes.drop (k * size)).take size), it') ∧ it'.At m size length (k + 1) := by
  obtain ⟨_, hp, he, hl⟩ := h
  have h1 : (k + 1) * size ≤ length * size := Nat.mul_le_mul_right _ hk
  have h2 : (k + 1) * size = k * size + size := by rw [Nat.add_mul]; omega
  refine ⟨⟨m.addr + (k + 1) * size, it.stop⟩, ?_, hk, rfl, he, hl⟩
  unfold CopyIter.next Slice.offset Slice.load
  rw [if_neg (by omega), if_pos (by omega)]
  simp only
  rw [if_pos (by omega)]
  simp only [hp, Nat.one_mul, Nat.add_sub_cancel_left]
  rw [h2, Nat.add_assoc]

theorem CopyIter.next_end (h : it.At m size length length) : it.next m size = .ok (none, it) := by
  obtain ⟨_, hp, he, _⟩ := h
  unfold CopyIter.next
  rw [if_pos (by omega)]

theorem CopyIter.len_at (hs : size ≠ 0) (h : it.At m size length k) : it.len size = .ok (length - k) := by
  obtain ⟨hk, hp, he, _⟩ := h
  have h1 : k * size ≤ length * size := Nat.mul_le_mul_right _ hk
  unfold CopyIter.len
  rw [if_neg (by omega), if_neg hs, hp, he, Nat.add_sub_add_left, ← Nat.sub_mul, Nat.mul_div_cancel _ (by omega)]

theorem CopyIter.collect_at (hs : size ≠ 0) : ∀ (n k : Nat) (it : CopyIter), k + n = length → it.At m size length k →
    it.collect m size (n + 1) = .ok (chunks size n (m.bytes.drop (k * size)))
  | 0, k, it, hn, h => by
    obtain rfl : k = length := by omega
    simp only [CopyIter.collect, CopyIter.next_end h, chunks]
  | n + 1, k, it, hn, h => by
    obtain ⟨it', h1, h2⟩ := CopyIter.next_at hs h (by omega)
    rw [CopyIter.collect, h1]
    simp only
    rw [CopyIter.collect_at hs n (k + 1) it' (by omega) h2, chunks_succ, List.drop_drop]
    rw [show (k + 1) * size = k * size + size by rw [Nat.add_mul]; omega]

theorem copyAll_eq (hint : Bool) (hs : size ≠ 0) (hl : length * size ≤ m.bytes.length) :
    copyAll hint size length m = .ok (chunks size length m.bytes) := by
  obtain ⟨it, h1, h2⟩ := CopyIter.new_at hl
  have h3 := CopyIter.collect_at hs length 0 it (by omega) h2
  rw [Nat.zero_mul, List.drop_zero] at h3
  unfold copyAll
  rw [h1]
  simp only [CopyIter.len_at hs h2, h3]
  split <;> rfl

end

end Verif
