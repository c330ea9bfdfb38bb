import Verif.Basic

/-!
# The `Reader` interface

A `Readable` implementation is a program which calls methods of a `Reader` and
continues with what they return.  It is represented by the tree of its calls.
Every continuation receives the `Result` of the call, so that propagating an
error (`?`), catching it (`default_on_eof`) and ignoring it are all expressible.
-/

namespace Verif

/-- A program calling the required and overridable methods of trait `Reader`
(src/reader.rs:56-112):
* `read n` — `read_bytes` / `read_bytes_into_ptr` / `read_bytes_into_slice` of
  `n` bytes;
* `peek n` — `peek_bytes`;
* `skip n` — `skip_bytes`;
* `canRead n` — `can_read_at_least`;
* `borrow n` — `read_bytes_borrowed`; a borrowed slice is its address and
  contents;
* `borrowR n` — `read_bytes_borrowed_from_reader`;
* `borrowEof` — `read_bytes_borrowed_until_eof`;
* `alloc n min` — ghost: `Vec::with_capacity(n)` for elements whose
  `minimum_bytes_needed` is `min`. -/
inductive Prog (α : Type) : Type where
  | ret (a : α)
  | read (n : Nat) (k : Except Err Bytes → Prog α)
  | peek (n : Nat) (k : Except Err Bytes → Prog α)
  | skip (n : Nat) (k : Except Err Unit → Prog α)
  | canRead (n : Nat) (k : Option Bool → Prog α)
  | borrow (n : Nat) (k : Option (Except Err (Nat × Bytes)) → Prog α)
  | borrowR (n : Nat) (k : Option (Except Err (Nat × Bytes)) → Prog α)
  | borrowEof (k : Option (Nat × Bytes) → Prog α)
  | alloc (n min : Nat) (k : Prog α)

/-- Sequencing of programs. -/
def Prog.bind {α β : Type} (p : Prog α) (f : α → Prog β) : Prog β :=
  match p with
  | .ret a => f a
  | .read n k => .read n (fun r => (k r).bind f)
  | .peek n k => .peek n (fun r => (k r).bind f)
  | .skip n k => .skip n (fun r => (k r).bind f)
  | .canRead n k => .canRead n (fun r => (k r).bind f)
  | .borrow n k => .borrow n (fun r => (k r).bind f)
  | .borrowR n k => .borrowR n (fun r => (k r).bind f)
  | .borrowEof k => .borrowEof (fun r => (k r).bind f)
  | .alloc n m k => .alloc n m (k.bind f)

/-- Programs returning `Result<T, Error>`. -/
abbrev M (α : Type) := Prog (Except Err α)

/-- `Ok(a)`. -/
def M.pure {α : Type} (a : α) : M α := .ret (.ok a)

/-- `Err(e)`. -/
def M.fail {α : Type} (e : Err) : M α := .ret (.error e)

/-- `let a = p?; f(a)`. -/
def M.bind {α β : Type} (p : M α) (f : α → M β) : M β :=
  Prog.bind p (fun r => match r with
    | .ok a => f a
    | .error e => .ret (.error e))

/-- The result of `p` as a value (no `?`). -/
def M.attempt {α : Type} (p : M α) : M (Except Err α) :=
  Prog.bind p (fun r => .ret (.ok r))

/-- `p.map(f)`. -/
def M.map {α β : Type} (f : α → β) (p : M α) : M β := M.bind p (fun a => M.pure (f a))

/-- A reader: how each method behaves in a state. -/
structure ReaderOps (σ : Type) where
  read : Nat → σ → Except Err Bytes × σ
  peek : Nat → σ → Except Err Bytes × σ
  skip : Nat → σ → Except Err Unit × σ
  canRead : Nat → σ → Option Bool
  borrow : Nat → σ → Option (Except Err (Nat × Bytes)) × σ
  borrowR : Nat → σ → Option (Except Err (Nat × Bytes)) × σ
  borrowEof : σ → Option (Nat × Bytes) × σ

/-- Running a program on a reader. -/
def Prog.run {α σ : Type} (R : ReaderOps σ) : Prog α → σ → α × σ
  | .ret a, s => (a, s)
  | .read n k, s => let (r, s') := R.read n s; (k r).run R s'
  | .peek n k, s => let (r, s') := R.peek n s; (k r).run R s'
  | .skip n k, s => let (r, s') := R.skip n s; (k r).run R s'
  | .canRead n k, s => (k (R.canRead n s)).run R s
  | .borrow n k, s => let (r, s') := R.borrow n s; (k r).run R s'
  | .borrowR n k, s => let (r, s') := R.borrowR n s; (k r).run R s'
  | .borrowEof k, s => let (r, s') := R.borrowEof s; (k r).run R s'
  | .alloc _ _ k, s => k.run R s

theorem Prog.run_bind {α β σ : Type} (R : ReaderOps σ) (p : Prog α) (f : α → Prog β) (s : σ) :
    (p.bind f).run R s = (f (p.run R s).1).run R (p.run R s).2 := by
  induction p generalizing s with
  | ret a => rfl
  | read n k ih => simp only [Prog.bind, Prog.run]; exact ih _ _
  | peek n k ih => simp only [Prog.bind, Prog.run]; exact ih _ _
  | skip n k ih => simp only [Prog.bind, Prog.run]; exact ih _ _
  | canRead n k ih => simp only [Prog.bind, Prog.run]; exact ih _ _
  | borrow n k ih => simp only [Prog.bind, Prog.run]; exact ih _ _
  | borrowR n k ih => simp only [Prog.bind, Prog.run]; exact ih _ _
  | borrowEof k ih => simp only [Prog.bind, Prog.run]; exact ih _ _
  | alloc n m k ih => simp only [Prog.bind, Prog.run]; exact ih _

theorem M.run_bind_ok {α β σ : Type} {R : ReaderOps σ} {p : M α} {f : α → M β} {s s' : σ} {a : α}
    (h : p.run R s = (.ok a, s')) : (M.bind p f).run R s = (f a).run R s' := by
  unfold M.bind; rw [Prog.run_bind, h]

theorem M.run_bind_err {α β σ : Type} {R : ReaderOps σ} {p : M α} {f : α → M β} {s s' : σ} {e : Err}
    (h : p.run R s = (.error e, s')) : (M.bind p f).run R s = (.error e, s') := by
  unfold M.bind; rw [Prog.run_bind, h]; rfl

theorem M.run_attempt {α σ : Type} {R : ReaderOps σ} {p : M α} {s : σ} :
    (M.attempt p).run R s = (.ok (p.run R s).1, (p.run R s).2) := by
  unfold M.attempt; rw [Prog.run_bind]; rfl

/-- What it means that `pend s` are the bytes still to be delivered by the
reader in state `s`, for a reader whose input ends after these bytes:
operations on available bytes deliver them in order, operations on more
fail with an end-of-input error and do not invent bytes.  (After such a
failure the reader either has kept the pending bytes or lost them, as
`Read::read_exact` does.)  `Inv` is the reader's invariant. -/
structure Lawful {σ : Type} (R : ReaderOps σ) (Inv : σ → Prop) (pend : σ → Bytes) : Prop where
  read_ok : ∀ n s, Inv s → n ≤ (pend s).length →
    ∃ s', R.read n s = (.ok ((pend s).take n), s') ∧ Inv s' ∧ pend s' = (pend s).drop n
  read_err : ∀ n s, Inv s → (pend s).length < n →
    ∃ e s', R.read n s = (.error e, s') ∧ e.isEof = true ∧ Inv s' ∧
      (pend s' = pend s ∨ pend s' = [])
  peek_ok : ∀ n s, Inv s → n ≤ (pend s).length →
    ∃ s', R.peek n s = (.ok ((pend s).take n), s') ∧ Inv s' ∧ pend s' = pend s
  peek_err : ∀ n s, Inv s → (pend s).length < n →
    ∃ e s', R.peek n s = (.error e, s') ∧ e.isEof = true ∧ Inv s' ∧ pend s' = pend s
  skip_ok : ∀ n s, Inv s → n ≤ (pend s).length →
    ∃ s', R.skip n s = (.ok (), s') ∧ Inv s' ∧ pend s' = (pend s).drop n
  skip_err : ∀ n s, Inv s → (pend s).length < n →
    ∃ e s', R.skip n s = (.error e, s') ∧ e.isEof = true ∧ Inv s' ∧
      (∃ k, pend s' = (pend s).drop k)
  canRead : ∀ n s, Inv s → R.canRead n s = none ∨
    R.canRead n s = some (decide (n ≤ (pend s).length))
  borrow : ∀ n s, Inv s → R.borrow n s = (none, s) ∨
    (n ≤ (pend s).length ∧ ∃ a s', R.borrow n s = (some (.ok (a, (pend s).take n)), s') ∧
      Inv s' ∧ pend s' = (pend s).drop n) ∨
    ((pend s).length < n ∧ ∃ e s', R.borrow n s = (some (.error e), s') ∧ e.isEof = true ∧
      Inv s' ∧ (pend s' = pend s ∨ pend s' = []))
  borrowR : ∀ n s, Inv s → R.borrowR n s = (none, s) ∨
    (n ≤ (pend s).length ∧ ∃ a s', R.borrowR n s = (some (.ok (a, (pend s).take n)), s') ∧
      Inv s' ∧ pend s' = (pend s).drop n) ∨
    ((pend s).length < n ∧ ∃ e s', R.borrowR n s = (some (.error e), s') ∧ e.isEof = true ∧
      Inv s' ∧ (pend s' = pend s ∨ pend s' = []))
  borrowEof : ∀ s, Inv s → R.borrowEof s = (none, s) ∨
    (∃ a s', R.borrowEof s = (some (a, pend s), s') ∧ Inv s' ∧ pend s' = [])

end Verif
