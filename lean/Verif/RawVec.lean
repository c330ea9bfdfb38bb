import Verif.Decode
import Verif.Structs

/-!
# The memory of vectors and arrays which are being read (C51)

`read_vec` (src/reader.rs:519-574) and `[T; N]::read_from` (src/readable_impl.rs:588-642) place the elements in uninitialised
memory with `unsafe` code, and drop by hand what has been read when an element cannot be read. `Decode` only says which values
come out. Here are the same functions with their memory; undefined behaviour is an explicit value.
-/

namespace Verif

/-- Undefined behaviour: writing outside of an allocation; using a place which has not been initialised as a value. -/
inductive Ub where
  | outOfBounds
  | uninit
  deriving DecidableEq, Repr

/-- The memory for elements: `cap` places, each either not initialised or holding a value. `made` and `dropped` are not part of
the memory: they record the values which `read_value` has returned, and those which have been dropped, in order. -/
structure Places where
  cap : Nat
  place : Nat → Option Val
  made : List Val
  dropped : List Val

/-- `Vec::with_capacity` (with room for `cap` elements), `MaybeUninit::uninit()`. -/
def Places.new (cap : Nat) : Places := ⟨cap, fun _ => none, [], []⟩

/-- The memory of a new vector of `el`. Values of zero-sized types occupy no memory, so that all their places are always
initialised. -/
def Places.fresh (el : Elem) (cap : Nat) : Places := ⟨cap, fun _ => if el.size = 0 then some el.zst else none, [], []⟩

/-- `core::ptr::write( p, value )` — src/reader.rs:558-559; `state.slice[ state.count ] = MaybeUninit::new( .. )` —
src/readable_impl.rs:627. Nothing is dropped. -/
def Places.write (m : Places) (i : Nat) (v : Val) : Except Ub Places :=
  if i < m.cap then .ok { m with place := fun j => if j = i then some v else m.place j } else .error .outOfBounds

/-- The values of `n` places beginning with the `i`-th, all of which have to be initialised. -/
def Places.values (m : Places) : Nat → Nat → Except Ub (List Val)
  | _, 0 => .ok []
  | i, n + 1 => match m.place i with
    | none => .error .uninit
    | some v => match m.values (i + 1) n with
      | .error u => .error u
      | .ok vs => .ok (v :: vs)

/-- Drop the values of the first `n` places: the vector of length `n` is dropped (`drop_vec`, src/reader.rs:537-543), or
`assume_init_drop` is called for each of them (src/readable_impl.rs:613-617). -/
def Places.drop (m : Places) (n : Nat) : Except Ub Places :=
  match m.values 0 n with
  | .error u => .error u
  | .ok vs => .ok { m with place := fun j => if j < n then none else m.place j, dropped := m.dropped ++ vs }

/-- The result of reading with the state of the reader and the memory; or undefined behaviour. -/
abbrev RawRes (σ : Type) := Except Ub (Except Err (List Val) × σ × Places)

/-- A vector (or array) of the first `n` places is returned. -/
def finish {σ : Type} (n : Nat) (s : σ) (m : Places) : RawRes σ :=
  match m.values 0 n with
  | .error u => .error u
  | .ok vs => .ok (.ok vs, s, m)

/-- Reading has failed, and the first `n` places are dropped. -/
def giveUp {σ : Type} (n : Nat) (er : Err) (s : σ) (m : Places) : RawRes σ :=
  match m.drop n with
  | .error u => .error u
  | .ok m' => .ok (.error er, s, m')

/-- The loop of `read_vec` — src/reader.rs:545-568. `p` is `count * size` bytes after the beginning of the vector, and `e` is
`length * size` bytes after it. If `read_value` panics, the vector is dropped while its length is still zero. The first
argument bounds the number of rounds; `rawVec` gives one more than `length`. -/
def vecLoop {σ : Type} (R : ReaderOps σ) (el : Elem) (length : Nat) : Nat → Nat → σ → Places → RawRes σ
  | 0, _, s, m => finish length s m
  | fuel + 1, count, s, m =>
    if count * el.size < length * el.size then
      match el.read.run R s with
      | (.error (.panic p), s') => giveUp 0 (.panic p) s' m
      | (.error er, s') => giveUp count er s' m
      | (.ok v, s') => match { m with made := m.made ++ [v] }.write count v with
        | .error u => .error u
        | .ok m' => vecLoop R el length fuel (count + 1) s' m'
    else finish length s m

/-- `read_vec` — src/reader.rs:519-574. `cap` is the capacity which `Vec::with_capacity( length )` has chosen: the documentation
promises no more than `length ≤ cap`. Bytes are read into all of it if the elements are copied in bulk
(src/reader.rs:530-531). -/
def rawVec {σ : Type} (R : ReaderOps σ) (h : Host) (e : Endian) (el : Elem) (cap length : Nat) (s : σ) : RawRes σ :=
  if el.min * length > h.usizeMax then .ok (.error .unexpectedEndOfInput, s, .new 0)
  else if R.canRead (el.min * length) s = some false then .ok (.error .unexpectedEndOfInput, s, .new 0)
  else if length * el.size > h.isizeMax then .ok (.error (.panic .capacityOverflow), s, .new 0)
  else if el.prim then
    match (M.bind (readBytes (cap * el.size)) fun mem =>
        liftVals el (convSlice h e el (chunks el.size length mem))).run R s with
    | (.ok vs, s') => .ok (.ok vs, s', ⟨cap, fun i => vs[i]?, vs, []⟩)
    | (.error er, s') => .ok (.error er, s', .new cap)
  else vecLoop R el length (length + 1) 0 s (.fresh el cap)

/-- The loop of `[T; N]::read_from` — src/readable_impl.rs:626-635. The guard `State` drops the first `count` elements
whenever the function is left before `forget`, be it by an error or by a panic (src/readable_impl.rs:608-619). -/
def arrayLoop {σ : Type} (R : ReaderOps σ) (el : Elem) (n : Nat) : Nat → Nat → σ → Places → RawRes σ
  | 0, _, s, m => finish n s m
  | fuel + 1, count, s, m =>
    if count < n then
      match el.read.run R s with
      | (.error er, s') => giveUp count er s' m
      | (.ok v, s') => match { m with made := m.made ++ [v] }.write count v with
        | .error u => .error u
        | .ok m' => arrayLoop R el n fuel (count + 1) s' m'
    else finish n s m

/-- `[T; N]::read_from` for elements which are not copied in bulk — src/readable_impl.rs:600-642. -/
def rawArray {σ : Type} (R : ReaderOps σ) (el : Elem) (n : Nat) (s : σ) : RawRes σ :=
  arrayLoop R el n (n + 1) 0 s (.new n)

/-! ## What the loops do -/

/-- The first `n` places hold the values which have been read, and nothing has been dropped. -/
structure Holds (m : Places) (n : Nat) : Prop where
  place : ∀ i, i < n → m.place i = m.made[i]?
  length : m.made.length = n
  dropped : m.dropped = []

theorem values_made {m : Places} {n : Nat} (hm : Holds m n) : ∀ k i, i + k = n → m.values i k = .ok (m.made.drop i)
  | 0, i, h => by
    simp only [Places.values]
    rw [List.drop_eq_nil_of_le (by have := hm.length; omega)]
  | k + 1, i, h => by
    have hl := hm.length
    simp only [Places.values]
    rw [hm.place i (by omega), List.getElem?_eq_getElem (by omega)]
    simp only
    rw [values_made hm k (i + 1) (by omega)]
    simp only [Except.ok.injEq]
    exact (List.drop_eq_getElem_cons (by omega)).symm

theorem finish_made {σ : Type} {m : Places} {n : Nat} (hm : Holds m n) (s : σ) : finish n s m = .ok (.ok m.made, s, m) := by
  unfold finish
  rw [values_made hm n 0 (by omega)]
  rfl

theorem giveUp_made {σ : Type} {m : Places} {n : Nat} (hm : Holds m n) (er : Err) (s : σ) :
    ∃ m', giveUp n er s m = .ok (.error er, s, m') ∧ m'.made = m.made ∧ m'.dropped = m.made := by
  unfold giveUp Places.drop
  rw [values_made hm n 0 (by omega)]
  exact ⟨_, rfl, rfl, by simp [hm.dropped]⟩

theorem giveUp_zero {σ : Type} (m : Places) (er : Err) (s : σ) :
    ∃ m', giveUp 0 er s m = .ok (.error er, s, m') ∧ m'.made = m.made ∧ m'.dropped = m.dropped :=
  ⟨_, rfl, rfl, by simp⟩

theorem write_holds {m : Places} {n : Nat} (hm : Holds m n) (hc : n < m.cap) (v : Val) :
    ∃ m', Places.write { m with made := m.made ++ [v] } n v = .ok m' ∧ Holds m' (n + 1) ∧ m'.made = m.made ++ [v] ∧
      m'.cap = m.cap := by
  unfold Places.write
  rw [if_pos hc]
  refine ⟨_, rfl, ⟨fun i hi => ?_, by simp [hm.length], hm.dropped⟩, rfl, rfl⟩
  have hl := hm.length
  by_cases h : i = n
  · subst h
    simp [← hl]
  · simp only [h, if_false]
    rw [hm.place i (by omega), List.getElem?_append_left (by omega)]

/-- What becomes of the values which are read: all of them are returned, or else all are dropped. -/
def Fate (r : Except Err (List Val)) (m : Places) : Prop :=
  match r with
  | .ok vs => m.made = vs ∧ m.dropped = []
  | .error _ => m.dropped = m.made

/-- The same, except that they may be forgotten (and not dropped) if there is a panic. -/
def FateOrLeak (r : Except Err (List Val)) (m : Places) : Prop :=
  match r with
  | .ok vs => m.made = vs ∧ m.dropped = []
  | .error (.panic _) => m.dropped = []
  | .error _ => m.dropped = m.made

theorem values_fresh {el : Elem} {cap : Nat} (hz : el.size = 0) :
    ∀ n i, (Places.fresh el cap).values i n = .ok (List.replicate n el.zst)
  | 0, _ => rfl
  | n + 1, i => by
    have h : (Places.fresh el cap).place i = some el.zst := by simp [Places.fresh, hz]
    simp only [Places.values, h, values_fresh hz n (i + 1), List.replicate_succ]

section
variable {σ : Type} {R : ReaderOps σ} {el : Elem}

theorem array_loop {N : Nat} : ∀ (fuel count : Nat) (s : σ) (m : Places), count ≤ N → N - count < fuel → N ≤ m.cap →
    Holds m count →
    ∃ m', arrayLoop R el N fuel count s m =
        .ok (((repeatM (N - count) el.read).run R s).1.map (m.made ++ ·), ((repeatM (N - count) el.read).run R s).2, m') ∧
      Fate (((repeatM (N - count) el.read).run R s).1.map (m.made ++ ·)) m'
  | 0, _, _, _, _, h, _, _ => by omega
  | fuel + 1, count, s, m, hc, hf, hcap, hm => by
    unfold arrayLoop
    by_cases h : count < N
    · rw [if_pos h]
      obtain ⟨k, hk⟩ : ∃ k, N - count = k + 1 := ⟨N - count - 1, by omega⟩
      rw [hk]
      simp only [repeatM]
      rcases hr : el.read.run R s with ⟨_ | v, s'⟩
      · rw [M.run_bind_err hr]
        obtain ⟨m', h1, h2, h3⟩ := giveUp_made (σ := σ) hm ‹_› s'
        exact ⟨m', h1, h3.trans h2.symm⟩
      · rw [M.run_bind_ok hr]
        obtain ⟨m1, h1, h2, h3, h4⟩ := write_holds hm (by omega) v
        simp only [h1]
        obtain ⟨m', h5, h6⟩ := array_loop (N := N) fuel (count + 1) s' m1 (by omega) (by omega) (by omega) h2
        rw [show N - (count + 1) = k by omega] at h5 h6
        have : M.bind (repeatM k el.read) (fun vs => M.pure (v :: vs)) = M.map (v :: ·) (repeatM k el.read) := rfl
        rw [this, M.run_map]
        rw [h3] at h5 h6
        refine ⟨m', ?_, ?_⟩
        · rw [h5]
          rcases (repeatM k el.read).run R s' with ⟨_ | vs, s2⟩ <;> simp [Except.map]
        · revert h6
          rcases (repeatM k el.read).run R s' with ⟨_ | vs, s2⟩ <;> simp [Except.map, Fate]
    · rw [if_neg h, show N - count = 0 by omega]
      have : count = N := by omega
      subst this
      refine ⟨m, ?_, ?_⟩
      · rw [finish_made hm]; simp [repeatM, M.pure, Prog.run, Except.map]
      · exact ⟨by simp, hm.dropped⟩

theorem vec_loop {N : Nat} (hz : 0 < el.size) : ∀ (fuel count : Nat) (s : σ) (m : Places), count ≤ N → N - count < fuel →
    N ≤ m.cap → Holds m count →
    ∃ m', vecLoop R el N fuel count s m =
        .ok (((repeatM (N - count) el.read).run R s).1.map (m.made ++ ·), ((repeatM (N - count) el.read).run R s).2, m') ∧
      FateOrLeak (((repeatM (N - count) el.read).run R s).1.map (m.made ++ ·)) m'
  | 0, _, _, _, _, h, _, _ => by omega
  | fuel + 1, count, s, m, hc, hf, hcap, hm => by
    unfold vecLoop
    by_cases h : count < N
    · rw [if_pos (Nat.mul_lt_mul_of_pos_right h hz)]
      obtain ⟨k, hk⟩ : ∃ k, N - count = k + 1 := ⟨N - count - 1, by omega⟩
      rw [hk]
      simp only [repeatM]
      rcases hr : el.read.run R s with ⟨er | v, s'⟩
      · rw [M.run_bind_err hr]
        cases er
        case panic p =>
          obtain ⟨m', h1, _, h3⟩ := giveUp_zero (σ := σ) m (.panic p) s'
          exact ⟨m', h1, h3.trans hm.dropped⟩
        all_goals
          obtain ⟨m', h1, h2, h3⟩ := giveUp_made (σ := σ) hm _ s'
          exact ⟨m', h1, h3.trans h2.symm⟩
      · rw [M.run_bind_ok hr]
        obtain ⟨m1, h1, h2, h3, h4⟩ := write_holds hm (by omega) v
        simp only [h1]
        obtain ⟨m', h5, h6⟩ := vec_loop (N := N) hz fuel (count + 1) s' m1 (by omega) (by omega) (by omega) h2
        rw [show N - (count + 1) = k by omega] at h5 h6
        have : M.bind (repeatM k el.read) (fun vs => M.pure (v :: vs)) = M.map (v :: ·) (repeatM k el.read) := rfl
        rw [this, M.run_map]
        rw [h3] at h5 h6
        refine ⟨m', ?_, ?_⟩
        · rw [h5]
          rcases (repeatM k el.read).run R s' with ⟨_ | vs, s2⟩ <;> simp [Except.map]
        · revert h6
          rcases (repeatM k el.read).run R s' with ⟨_ | vs, s2⟩ <;> simp [Except.map, FateOrLeak]
    · rw [if_neg (by have := Nat.mul_le_mul_right el.size (show N ≤ count by omega); omega), show N - count = 0 by omega]
      have : count = N := by omega
      subst this
      refine ⟨m, ?_, ?_⟩
      · rw [finish_made hm]; simp [repeatM, M.pure, Prog.run, Except.map]
      · exact ⟨by simp, hm.dropped⟩

end

end Verif
