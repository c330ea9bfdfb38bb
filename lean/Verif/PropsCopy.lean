import Verif.CopyIter
import Verif.Structs
import Verif.Refine
import Verif.ReadersLawful
import Verif.Samples

/-!
# Sets and maps are copied out of the input safely (C80)
-/

namespace Verif

open Samples

/-- What a list of elements of which `k` have been taken answers (the specification: no addresses). -/
def answer (l : List Bytes) (k : Nat) : Ask → Told
  | .next => .item l[k]?
  | .len => .count (l.length - k)

/-- How many elements have been taken after these answers. -/
def givenOut (seen : List Told) : Nat := (seen.filter fun | .item (some _) => true | _ => false).length

/-- The conversation of a collection with a list. -/
def converse (l : List Bytes) (user : List Told → Option Ask) : Nat → List Told → List Told
  | 0, seen => seen
  | fuel + 1, seen => match user seen with
    | none => seen
    | some a => converse l user fuel (seen ++ [answer l (givenOut seen) a])

theorem chunks_len (size : Nat) : ∀ (n : Nat) (bs : Bytes), (chunks size n bs).length = n
  | 0, _ => rfl
  | n + 1, bs => by simp [chunks, chunks_len size n]

theorem chunks_get {size n k : Nat} {bs : Bytes} (hk : k < n) : (chunks size n bs)[k]? = some ((bs.drop (k * size)).take size) := by
  have h := chunks_drop size n k bs
  obtain ⟨j, hj⟩ : ∃ j, n - k = j + 1 := ⟨n - k - 1, by omega⟩
  rw [hj, chunks_succ] at h
  have := congrArg List.head? h
  rw [List.head?_drop] at this
  simpa using this

theorem givenOut_snoc (seen : List Told) (t : Told) :
    givenOut (seen ++ [t]) = givenOut seen + (match t with | .item (some _) => 1 | _ => 0) := by
  unfold givenOut
  rcases t with (_ | _) | _ <;> simp

theorem drive_eq {m : Slice} {size length : Nat} (hs : size ≠ 0) (user : List Told → Option Ask) :
    ∀ (fuel : Nat) (seen : List Told) (it : CopyIter), it.At m size length (givenOut seen) →
      it.drive m size user fuel seen = .ok (converse (chunks size length m.bytes) user fuel seen)
  | 0, _, _, _ => rfl
  | fuel + 1, seen, it, h => by
    unfold CopyIter.drive converse
    rcases user seen with _ | _ | _
    · rfl
    · simp only [CopyIter.ask, answer]
      by_cases hk : givenOut seen < length
      · obtain ⟨it', h1, h2⟩ := CopyIter.next_at hs h hk
        rw [h1, chunks_get hk]
        exact drive_eq hs user fuel _ it' (by rw [givenOut_snoc]; exact h2)
      · have hle := h.1
        have heq : givenOut seen = length := by omega
        rw [heq] at h
        rw [CopyIter.next_end h, List.getElem?_eq_none (by rw [chunks_len]; omega)]
        exact drive_eq hs user fuel _ it (by rw [givenOut_snoc, heq]; exact h)
    · simp only [CopyIter.ask, answer]
      rw [CopyIter.len_at hs h, chunks_len]
      exact drive_eq hs user fuel _ it (by rw [givenOut_snoc]; exact h)

/-- **C80**: however a collection uses the iterator it is given — it may ask for elements and for their number in any order,
depending on what it has seen, also when there are none left, and stop at any time — it gets the elements in order, each of them
once, and then `None` for ever; the number is always that of the elements left; no pointer leaves the slice and no byte outside
of it is read. This holds for any address of the slice (it need not be aligned).

Missing: zero-sized elements (false: `C80_false_zst`). -/
theorem C80_iterator_partial {m : Slice} {size length : Nat} (hs : size ≠ 0) (hl : length * size ≤ m.bytes.length)
    (user : List Told → Option Ask) (calls : Nat) :
    ∃ it, CopyIter.new m size length = .ok it ∧
      it.drive m size user calls [] = .ok (converse (chunks size length m.bytes) user calls []) := by
  obtain ⟨it, h1, h2⟩ := CopyIter.new_at hl
  exact ⟨it, h1, drive_eq hs user calls [] it h2⟩

/-- **C80**: what is collected is what `readCollection` (and `readKV`) say. -/
theorem C80_collect_partial {m : Slice} {size length : Nat} (hs : size ≠ 0) (hl : length * size ≤ m.bytes.length) :
    ∃ it, CopyIter.new m size length = .ok it ∧ it.collect m size (length + 1) = .ok (chunks size length m.bytes) := by
  obtain ⟨it, h1, h2⟩ := CopyIter.new_at hl
  refine ⟨it, h1, ?_⟩
  have := CopyIter.collect_at hs length 0 it (by omega) h2
  simpa using this

/-- The elements are all of the slice, if it has the length which is borrowed. -/
theorem C80_elements {m : Slice} {size length : Nat} (hl : m.bytes.length = length * size) :
    (chunks size length m.bytes).flatten = m.bytes ∧ ∀ c ∈ chunks size length m.bytes, c.length = size := by
  suffices h : ∀ (n : Nat) (bs : Bytes), bs.length = n * size →
      (chunks size n bs).flatten = bs ∧ ∀ c ∈ chunks size n bs, c.length = size from h length m.bytes hl
  intro n
  induction n with
  | zero => intro bs h; have : bs = [] := List.length_eq_zero_iff.1 (by omega); simp [chunks, this]
  | succ n ih =>
    intro bs h
    have h1 : (n + 1) * size = n * size + size := by rw [Nat.add_mul]; omega
    obtain ⟨a, b⟩ := ih (bs.drop size) (by simp only [List.length_drop]; omega)
    refine ⟨by simp [chunks, a], ?_⟩
    intro c hc
    rw [chunks_succ] at hc
    rcases List.mem_cons.1 hc with rfl | hc
    · simp only [List.length_take]; omega
    · exact b c hc

/-- **C80**: reading a set (or list) of elements with the pointers of the iterator has no undefined behaviour and gives what
`readCollection` says, for all readers which follow the rules (`bufferReader_lawful`, ..) and whether or not the number of elements
is asked for.

Missing: zero-sized elements (false: `C80_false_zst`). -/
theorem C80_set_partial {σ : Type} {R : ReaderOps σ} {Inv : σ → Prop} {pend : σ → Bytes} (L : Lawful R Inv pend) (hint : Bool)
    (h : Host) (e : Endian) {el : Elem} (hs : el.size ≠ 0) (length : Nat) {s : σ} (hi : Inv s) :
    (rawCollection hint h e el length).run R s =
      (((readCollection h e el length).run R s).1.map .ok, ((readCollection h e el length).run R s).2) := by
  unfold rawCollection readCollection
  by_cases h1 : (el.prim && (el.size == 1 || !e.conv h)) = true
  · rw [if_pos h1, if_pos h1]
    by_cases h2 : length * el.size > h.usizeMax
    · rw [if_pos h2, if_pos h2]; rfl
    rw [if_neg h2, if_neg h2]
    rw [run_borrowR, run_borrowR]
    rcases L.borrowR (length * el.size) s hi with hb | ⟨hl, a, s', hb, _⟩ | ⟨_, er, s', hb, _⟩
    · rw [hb]; simp only; rw [M.run_map]
    · rw [hb]
      simp only
      rw [copyAll_eq hint hs (by simp only [List.length_take]; omega), if_neg hs]
      rfl
    · rw [hb]; rfl
  · rw [if_neg h1, if_neg h1, M.run_map]

/-- **C80**: the same for maps. -/
theorem C80_map_partial {σ : Type} {R : ReaderOps σ} {Inv : σ → Prop} {pend : σ → Bytes} (L : Lawful R Inv pend) (hint : Bool)
    (h : Host) (e : Endian) {ek ev : Elem} (hs : ek.size + ev.size ≠ 0) (length : Nat) {s : σ} (hi : Inv s) :
    (rawKV hint h e ek ev length).run R s =
      (((readKV h e ek ev length).run R s).1.map .ok, ((readKV h e ek ev length).run R s).2) := by
  unfold rawKV readKV
  by_cases h1 : (ek.prim && ev.prim && ((ek.size == 1 && ev.size == 1) || !e.conv h)) = true
  · rw [if_pos h1, if_pos h1]
    by_cases h2 : length * (ek.size + ev.size) > h.usizeMax
    · rw [if_pos h2, if_pos h2]; rfl
    rw [if_neg h2, if_neg h2]
    rw [run_borrowR, run_borrowR]
    rcases L.borrowR (length * (ek.size + ev.size)) s hi with hb | ⟨hl, a, s', hb, _⟩ | ⟨_, er, s', hb, _⟩
    · rw [hb]; simp only; rw [M.run_map]
    · rw [hb]
      simp only
      rw [copyAll_eq hint hs (by simp only [List.length_take]; omega), if_neg hs]
      rfl
    · rw [hb]; rfl
  · rw [if_neg h1, if_neg h1, M.run_map]

/-- **C80 is false for zero-sized elements**: there are `length` of them, but the iterator gives none, and whoever asks for
their number gets a panic. -/
theorem C80_false_zst (m : Slice) (length : Nat) :
    ∃ it, CopyIter.new m 0 length = .ok it ∧ it.next m 0 = .ok (none, it) ∧ it.len 0 = .error .divByZero := by
  obtain ⟨it, h1, _, hp, he, _⟩ := CopyIter.new_at (m := m) (size := 0) (length := length) (by simp)
  refine ⟨it, h1, ?_, ?_⟩
  · unfold CopyIter.next; rw [if_pos (by omega)]
  · unfold CopyIter.len; rw [if_neg (by omega), if_pos rfl]

/-! ## Examples -/

/-- Two elements of two bytes at an odd address; `HashSet` asks for the number, and then for all of them. -/
example : ∃ it, CopyIter.new ⟨4097, [1, 2, 3, 4]⟩ 2 2 = .ok it ∧
    it.drive ⟨4097, [1, 2, 3, 4]⟩ 2 (fun seen => if seen = [] then some .len else if seen.length < 5 then some .next else none) 9 [] =
      .ok [.count 2, .item (some [1, 2]), .item (some [3, 4]), .item none, .item none] :=
  ⟨_, rfl, by decide⟩

example : ∃ it, CopyIter.new ⟨4097, [1, 2, 3, 4]⟩ 2 2 = .ok it ∧
    it.drive ⟨4097, [1, 2, 3, 4]⟩ 2 (fun seen => if seen.length < 4 then some .next else none) 9 [] =
      .ok (converse [[1, 2], [3, 4]] (fun seen => if seen.length < 4 then some .next else none) 9 []) :=
  C80_iterator_partial (m := ⟨4097, [1, 2, 3, 4]⟩) (length := 2) (by decide) (by decide) _ 9

/-- Were fewer bytes borrowed than the elements need, the pointer would leave the slice: `checked_mul` (src/reader.rs:645) matters. -/
example : CopyIter.new ⟨4097, [1, 2, 3]⟩ 2 2 = .error .outOfBounds := by decide

/-- A set of `u16` read from a buffer at an odd address, with the pointers. -/
example : ((rawCollection true Host.x64 .little (elemOf x64 (.prim .u16) (decode x64 .little (.prim .u16) Cx.std)) 2).run
    (bufferReader Host.x64) (BufSt.init 4097 [1, 0, 2, 0, 9])).1 = .ok (.ok [.num 1, .num 2]) := by
  rw [C80_set_partial (bufferReader_lawful Host.x64) true _ _ (by decide) _ (BufSt.init_inv (by decide))]
  decide

/-! ## Cases -/

section Cases
open Samples

example : ∃ it, CopyIter.new ⟨4097, [1, 2, 3, 4]⟩ 2 2 = .ok it ∧ CopyIter.collect ⟨4097, [1, 2, 3, 4]⟩ 2 3 it = .ok [[1, 2], [3, 4]] :=
  C80_collect_partial (m := ⟨4097, [1, 2, 3, 4]⟩) (length := 2) (by decide) (by decide)

example : (chunks 2 2 [1, 2, 3, 4]).flatten = [1, 2, 3, 4] := (C80_elements (m := ⟨4097, [1, 2, 3, 4]⟩) (size := 2) (length := 2) (by decide)).1

/-- A map from `u8` to `u16`. -/
example : ((rawKV true Host.x64 .little (elemOf x64 (.prim .u8) (decode x64 .little (.prim .u8) Cx.std))
    (elemOf x64 (.prim .u16) (decode x64 .little (.prim .u16) Cx.std)) 1).run (bufferReader Host.x64) (BufSt.init 4097 [1, 7, 2])).1 =
      .ok (.ok [.pair (.num 1) (.pair (.num 0x0207) .unit)]) := by
  rw [C80_map_partial (bufferReader_lawful Host.x64) true _ _ (by decide) _ (BufSt.init_inv (by decide))]
  decide

end Cases

end Verif
