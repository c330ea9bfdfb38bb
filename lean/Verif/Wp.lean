import Verif.StreamAny
import Verif.PropsReader
import Verif.Valid

/-!
# What holds whatever a reader answers

`Prog.Wp` follows a program through all answers a reader may give if the bytes it delivers are counted: successful
calls deliver the number of bytes asked for and at most what is left, unsuccessful ones may lose bytes.  Contents
of the bytes and causes of errors are arbitrary, so that the conclusions hold for buffers, for streams delivering
pieces of any size and for streams failing at any time.
-/

namespace Verif

/-- A result or error of a program which ends: not a panic, not an endless loop. -/
def Err.calm : Err → Bool
  | .panic _ => false
  | .diverge => false
  | _ => true

/-- `Q` holds of the number of bytes left and the result, and `A` of the number of bytes left and every reservation
of memory.  `exact`: the reader knows how much is left. -/
def Prog.Wp {β : Type} (exact : Bool) (A : Nat → Nat → Nat → Prop) (Q : Nat → β → Prop) : Nat → Prog β → Prop
  | r, .ret a => Q r a
  | r, .read n k => (n ≤ r → ∀ bs : Bytes, bs.length = n → (k (.ok bs)).Wp exact A Q (r - n)) ∧
      (∀ er r', er.calm = true → r' ≤ r → (k (.error er)).Wp exact A Q r')
  | r, .peek n k => (n ≤ r → ∀ bs : Bytes, bs.length = n → (k (.ok bs)).Wp exact A Q r) ∧
      (∀ er r', er.calm = true → r' ≤ r → (k (.error er)).Wp exact A Q r')
  | r, .skip n k => (n ≤ r → (k (.ok ())).Wp exact A Q (r - n)) ∧
      (∀ er r', er.calm = true → r' ≤ r → (k (.error er)).Wp exact A Q r')
  | r, .canRead n k => (k (some (decide (n ≤ r)))).Wp exact A Q r ∧ (exact = false → (k none).Wp exact A Q r)
  | r, .borrow n k => (n ≤ r → ∀ a (bs : Bytes), bs.length = n → (k (some (.ok (a, bs)))).Wp exact A Q (r - n)) ∧
      (∀ er r', er.calm = true → r' ≤ r → (k (some (.error er))).Wp exact A Q r') ∧ (k none).Wp exact A Q r
  | r, .borrowR n k => (n ≤ r → ∀ a (bs : Bytes), bs.length = n → (k (some (.ok (a, bs)))).Wp exact A Q (r - n)) ∧
      (∀ er r', er.calm = true → r' ≤ r → (k (some (.error er))).Wp exact A Q r') ∧ (k none).Wp exact A Q r
  | r, .borrowEof k => (∀ a (bs : Bytes), bs.length = r → (k (some (a, bs))).Wp exact A Q 0) ∧
      (k none).Wp exact A Q r
  | r, .alloc n m k => A r n m ∧ k.Wp exact A Q r

section
variable {α β : Type} {exact : Bool} {A : Nat → Nat → Nat → Prop}

theorem Prog.Wp.mono {Q Q' : Nat → β → Prop} (hQ : ∀ r x, Q r x → Q' r x) {p : Prog β} {r : Nat}
    (h : p.Wp exact A Q r) : p.Wp exact A Q' r := by
  induction p generalizing r with
  | ret a => exact hQ _ _ h
  | read n k ih => exact ⟨fun hn bs hb => ih _ (h.1 hn bs hb), fun er r' he hr => ih _ (h.2 er r' he hr)⟩
  | peek n k ih => exact ⟨fun hn bs hb => ih _ (h.1 hn bs hb), fun er r' he hr => ih _ (h.2 er r' he hr)⟩
  | skip n k ih => exact ⟨fun hn => ih _ (h.1 hn), fun er r' he hr => ih _ (h.2 er r' he hr)⟩
  | canRead n k ih => exact ⟨ih _ h.1, fun he => ih _ (h.2 he)⟩
  | borrow n k ih =>
    exact ⟨fun hn a bs hb => ih _ (h.1 hn a bs hb), fun er r' he hr => ih _ (h.2.1 er r' he hr), ih _ h.2.2⟩
  | borrowR n k ih =>
    exact ⟨fun hn a bs hb => ih _ (h.1 hn a bs hb), fun er r' he hr => ih _ (h.2.1 er r' he hr), ih _ h.2.2⟩
  | borrowEof k ih => exact ⟨fun a bs hb => ih _ (h.1 a bs hb), ih _ h.2⟩
  | alloc n m k ih => exact ⟨h.1, ih h.2⟩

theorem Prog.Wp.bind {Q : Nat → β → Prop} {p : Prog α} {f : α → Prog β} {r : Nat}
    (h : p.Wp exact A (fun r x => (f x).Wp exact A Q r) r) : (p.bind f).Wp exact A Q r := by
  induction p generalizing r with
  | ret a => exact h
  | read n k ih => exact ⟨fun hn bs hb => ih _ (h.1 hn bs hb), fun er r' he hr => ih _ (h.2 er r' he hr)⟩
  | peek n k ih => exact ⟨fun hn bs hb => ih _ (h.1 hn bs hb), fun er r' he hr => ih _ (h.2 er r' he hr)⟩
  | skip n k ih => exact ⟨fun hn => ih _ (h.1 hn), fun er r' he hr => ih _ (h.2 er r' he hr)⟩
  | canRead n k ih => exact ⟨ih _ h.1, fun he => ih _ (h.2 he)⟩
  | borrow n k ih =>
    exact ⟨fun hn a bs hb => ih _ (h.1 hn a bs hb), fun er r' he hr => ih _ (h.2.1 er r' he hr), ih _ h.2.2⟩
  | borrowR n k ih =>
    exact ⟨fun hn a bs hb => ih _ (h.1 hn a bs hb), fun er r' he hr => ih _ (h.2.1 er r' he hr), ih _ h.2.2⟩
  | borrowEof k ih => exact ⟨fun a bs hb => ih _ (h.1 a bs hb), ih _ h.2⟩
  | alloc n m k ih => exact ⟨h.1, ih h.2⟩
end

/-! ## Readers -/

/-- A reader which delivers its pending bytes in order but may fail at any time, losing some of them. -/
structure Orderly {σ : Type} (exact : Bool) (R : ReaderOps σ) (Inv : σ → Prop) (pend : σ → Bytes) : Prop where
  read : ∀ n s, Inv s → (∃ s', R.read n s = (.ok ((pend s).take n), s') ∧ n ≤ (pend s).length ∧ Inv s' ∧
      pend s' = (pend s).drop n) ∨
    (∃ e s' k, R.read n s = (.error e, s') ∧ e.calm = true ∧ Inv s' ∧ pend s' = (pend s).drop k)
  peek : ∀ n s, Inv s → (∃ s', R.peek n s = (.ok ((pend s).take n), s') ∧ n ≤ (pend s).length ∧ Inv s' ∧
      pend s' = pend s) ∨
    (∃ e s' k, R.peek n s = (.error e, s') ∧ e.calm = true ∧ Inv s' ∧ pend s' = (pend s).drop k)
  skip : ∀ n s, Inv s → (∃ s', R.skip n s = (.ok (), s') ∧ n ≤ (pend s).length ∧ Inv s' ∧
      pend s' = (pend s).drop n) ∨
    (∃ e s' k, R.skip n s = (.error e, s') ∧ e.calm = true ∧ Inv s' ∧ pend s' = (pend s).drop k)
  canRead : ∀ n s, Inv s → (exact = false ∧ R.canRead n s = none) ∨
    R.canRead n s = some (decide (n ≤ (pend s).length))
  borrow : ∀ n s, Inv s → R.borrow n s = (none, s) ∨
    (∃ a s', R.borrow n s = (some (.ok (a, (pend s).take n)), s') ∧ n ≤ (pend s).length ∧ Inv s' ∧
      pend s' = (pend s).drop n) ∨
    (∃ e s' k, R.borrow n s = (some (.error e), s') ∧ e.calm = true ∧ Inv s' ∧ pend s' = (pend s).drop k)
  borrowR : ∀ n s, Inv s → R.borrowR n s = (none, s) ∨
    (∃ a s', R.borrowR n s = (some (.ok (a, (pend s).take n)), s') ∧ n ≤ (pend s).length ∧ Inv s' ∧
      pend s' = (pend s).drop n) ∨
    (∃ e s' k, R.borrowR n s = (some (.error e), s') ∧ e.calm = true ∧ Inv s' ∧ pend s' = (pend s).drop k)
  borrowEof : ∀ s, Inv s → R.borrowEof s = (none, s) ∨
    (∃ a s', R.borrowEof s = (some (a, pend s), s') ∧ Inv s' ∧ pend s' = [])

theorem Err.calm_of_eof {e : Err} (h : e.isEof = true) : e.calm = true := by
  cases e <;> simp_all [Err.isEof, Err.calm]

/-- `drop` of everything. -/
theorem nil_eq_drop (l : Bytes) : ([] : Bytes) = l.drop l.length := by simp

theorem Lawful.orderly {σ : Type} {R : ReaderOps σ} {Inv : σ → Prop} {pend : σ → Bytes} (L : Lawful R Inv pend)
    {exact : Bool} (hx : exact = true → ∀ n s, R.canRead n s ≠ none) : Orderly exact R Inv pend where
  read n s hs := by
    by_cases h : n ≤ (pend s).length
    · obtain ⟨s', h1, h2, h3⟩ := L.read_ok n s hs h; exact .inl ⟨s', h1, h, h2, h3⟩
    · obtain ⟨e, s', h1, h2, h3, h4⟩ := L.read_err n s hs (by omega)
      refine .inr ⟨e, s', ?_⟩
      rcases h4 with h4 | h4
      · exact ⟨0, h1, Err.calm_of_eof h2, h3, by simpa using h4⟩
      · exact ⟨_, h1, Err.calm_of_eof h2, h3, h4.trans (nil_eq_drop (pend s))⟩
  peek n s hs := by
    by_cases h : n ≤ (pend s).length
    · obtain ⟨s', h1, h2, h3⟩ := L.peek_ok n s hs h; exact .inl ⟨s', h1, h, h2, h3⟩
    · obtain ⟨e, s', h1, h2, h3, h4⟩ := L.peek_err n s hs (by omega)
      exact .inr ⟨e, s', 0, h1, Err.calm_of_eof h2, h3, by simpa using h4⟩
  skip n s hs := by
    by_cases h : n ≤ (pend s).length
    · obtain ⟨s', h1, h2, h3⟩ := L.skip_ok n s hs h; exact .inl ⟨s', h1, h, h2, h3⟩
    · obtain ⟨e, s', h1, h2, h3, k, h4⟩ := L.skip_err n s hs (by omega)
      exact .inr ⟨e, s', k, h1, Err.calm_of_eof h2, h3, h4⟩
  canRead n s hs := by
    rcases L.canRead n s hs with h | h
    · cases exact with
      | true => exact absurd h (hx rfl n s)
      | false => exact .inl ⟨rfl, h⟩
    · exact .inr h
  borrow n s hs := by
    rcases L.borrow n s hs with h | ⟨h, a, s', h1, h2, h3⟩ | ⟨_, e, s', h1, h2, h3, h4⟩
    · exact .inl h
    · exact .inr (.inl ⟨a, s', h1, h, h2, h3⟩)
    · refine .inr (.inr ⟨e, s', ?_⟩)
      rcases h4 with h4 | h4
      · exact ⟨0, h1, Err.calm_of_eof h2, h3, by simpa using h4⟩
      · exact ⟨_, h1, Err.calm_of_eof h2, h3, h4.trans (nil_eq_drop (pend s))⟩
  borrowR n s hs := by
    rcases L.borrowR n s hs with h | ⟨h, a, s', h1, h2, h3⟩ | ⟨_, e, s', h1, h2, h3, h4⟩
    · exact .inl h
    · exact .inr (.inl ⟨a, s', h1, h, h2, h3⟩)
    · refine .inr (.inr ⟨e, s', ?_⟩)
      rcases h4 with h4 | h4
      · exact ⟨0, h1, Err.calm_of_eof h2, h3, by simpa using h4⟩
      · exact ⟨_, h1, Err.calm_of_eof h2, h3, h4.trans (nil_eq_drop (pend s))⟩
  borrowEof s hs := L.borrowEof s hs

theorem StreamFails.calm {pend : Bytes} {a b : List Ev} {n : Nat} {e : Err} (h : StreamFails pend a b n e) :
    e.calm = true := by
  rcases h with ⟨h | h, _⟩ | ⟨k, h, _⟩ <;> subst h <;> rfl

/-- A stream reader on any source. -/
theorem streamReader_orderly {grow : Nat → Nat} (hg : ∀ n, n ≤ grow n) :
    Orderly false (streamReader grow) (fun s => s.buf.Inv) StreamSt.pend where
  read n s hs := by
    rcases streamRead_any hg n s hs with ⟨s', h1, h2, h3, h4, _⟩ | ⟨e, s', k, h1, h2, h3, _, h4, _⟩
    · exact .inl ⟨s', h1, h2, h3, h4⟩
    · exact .inr ⟨e, s', k, h1, h4.calm, h2, h3⟩
  peek n s hs := by
    rcases streamPeek_any hg n s hs with ⟨s', h1, h2, h3, h4, _⟩ | ⟨e, s', h1, h2, h3, _, h4⟩
    · exact .inl ⟨s', h1, h2, h3, h4⟩
    · exact .inr ⟨e, s', 0, h1, h4.calm, h2, by simpa using h3⟩
  skip n s hs := by
    rcases skipLoop_any hg (n + 1) n s hs (Nat.lt_succ_self n) with
      ⟨s', h1, h2, h3, h4, _⟩ | ⟨e, s', k, h1, h2, h3, _, h4, _⟩
    · exact .inl ⟨s', h1, h2, h3, h4⟩
    · exact .inr ⟨e, s', k, h1, h4.calm, h2, h3⟩
  canRead n s hs := .inl ⟨rfl, rfl⟩
  borrow n s hs := .inl rfl
  borrowR n s hs := .inl rfl
  borrowEof s hs := .inl rfl

theorem bufferReader_orderly (h : Host) : Orderly true (bufferReader h) (fun s => s.Inv h) BufSt.pend :=
  (bufferReader_lawful h).orderly fun _ n s => by simp [bufferReader, bufCanRead]

theorem copyingReader_orderly (h : Host) : Orderly true (copyingReader h) (fun s => s.Inv h) BufSt.pend :=
  (copyingReader_lawful h).orderly fun _ n s => by simp [copyingReader, bufCanRead]

/-- The reservations of memory in a run: number of bytes left in the input, number of elements,
`minimum_bytes_needed` of an element. -/
def Prog.allocs {β σ : Type} (R : ReaderOps σ) (pend : σ → Bytes) : Prog β → σ → List (Nat × Nat × Nat)
  | .ret _, _ => []
  | .read n k, s => (k (R.read n s).1).allocs R pend (R.read n s).2
  | .peek n k, s => (k (R.peek n s).1).allocs R pend (R.peek n s).2
  | .skip n k, s => (k (R.skip n s).1).allocs R pend (R.skip n s).2
  | .canRead n k, s => (k (R.canRead n s)).allocs R pend s
  | .borrow n k, s => (k (R.borrow n s).1).allocs R pend (R.borrow n s).2
  | .borrowR n k, s => (k (R.borrowR n s).1).allocs R pend (R.borrowR n s).2
  | .borrowEof k, s => (k (R.borrowEof s).1).allocs R pend (R.borrowEof s).2
  | .alloc n m k, s => ((pend s).length, n, m) :: k.allocs R pend s

/-- The program logic is sound for orderly readers. -/
theorem Orderly.run {σ β : Type} {exact : Bool} {R : ReaderOps σ} {Inv : σ → Prop} {pend : σ → Bytes}
    (O : Orderly exact R Inv pend) {A : Nat → Nat → Nat → Prop} {Q : Nat → β → Prop} {p : Prog β} {s : σ}
    (hs : Inv s) (h : p.Wp exact A Q (pend s).length) :
    Inv (p.run R s).2 ∧ (∃ k, pend (p.run R s).2 = (pend s).drop k) ∧
      Q (pend (p.run R s).2).length (p.run R s).1 ∧ ∀ x ∈ p.allocs R pend s, A x.1 x.2.1 x.2.2 := by
  have step : ∀ {s s' : σ} {k : Nat} {q : Prog β}, pend s' = (pend s).drop k →
      (∃ k, pend (q.run R s').2 = (pend s').drop k) → ∃ k, pend (q.run R s').2 = (pend s).drop k := by
    rintro s s' k q h1 ⟨j, h2⟩
    exact ⟨k + j, by rw [h2, h1, List.drop_drop]⟩
  induction p generalizing s with
  | ret a => exact ⟨hs, ⟨0, rfl⟩, h, by simp [Prog.allocs]⟩
  | read n k ih =>
    rcases O.read n s hs with ⟨s', h1, h2, h3, h4⟩ | ⟨e, s', j, h1, h2, h3, h4⟩
    · simp only [Prog.run, Prog.allocs, h1]
      have := ih (.ok ((pend s).take n)) h3 (by
        rw [h4, List.length_drop]; exact h.1 h2 _ (by rw [List.length_take]; omega))
      exact ⟨this.1, step h4 this.2.1, this.2.2⟩
    · simp only [Prog.run, Prog.allocs, h1]
      have := ih (.error e) h3 (h.2 e _ h2 (by rw [h4, List.length_drop]; omega))
      exact ⟨this.1, step h4 this.2.1, this.2.2⟩
  | peek n k ih =>
    rcases O.peek n s hs with ⟨s', h1, h2, h3, h4⟩ | ⟨e, s', j, h1, h2, h3, h4⟩
    · simp only [Prog.run, Prog.allocs, h1]
      have := ih (.ok ((pend s).take n)) h3 (by
        rw [h4]; exact h.1 h2 _ (by rw [List.length_take]; omega))
      exact ⟨this.1, step (k := 0) (by simpa using h4) this.2.1, this.2.2⟩
    · simp only [Prog.run, Prog.allocs, h1]
      have := ih (.error e) h3 (h.2 e _ h2 (by rw [h4, List.length_drop]; omega))
      exact ⟨this.1, step h4 this.2.1, this.2.2⟩
  | skip n k ih =>
    rcases O.skip n s hs with ⟨s', h1, h2, h3, h4⟩ | ⟨e, s', j, h1, h2, h3, h4⟩
    · simp only [Prog.run, Prog.allocs, h1]
      have := ih (.ok ()) h3 (by rw [h4, List.length_drop]; exact h.1 h2)
      exact ⟨this.1, step h4 this.2.1, this.2.2⟩
    · simp only [Prog.run, Prog.allocs, h1]
      have := ih (.error e) h3 (h.2 e _ h2 (by rw [h4, List.length_drop]; omega))
      exact ⟨this.1, step h4 this.2.1, this.2.2⟩
  | canRead n k ih =>
    rcases O.canRead n s hs with ⟨h0, h1⟩ | h1
    · simp only [Prog.run, Prog.allocs, h1]
      exact ih none hs (h.2 h0)
    · simp only [Prog.run, Prog.allocs, h1]
      exact ih _ hs h.1
  | borrow n k ih =>
    rcases O.borrow n s hs with h1 | ⟨a, s', h1, h2, h3, h4⟩ | ⟨e, s', j, h1, h2, h3, h4⟩
    · simp only [Prog.run, Prog.allocs, h1]
      exact ih none hs h.2.2
    · simp only [Prog.run, Prog.allocs, h1]
      have := ih (some (.ok (a, (pend s).take n))) h3 (by
        rw [h4, List.length_drop]; exact h.1 h2 _ _ (by rw [List.length_take]; omega))
      exact ⟨this.1, step h4 this.2.1, this.2.2⟩
    · simp only [Prog.run, Prog.allocs, h1]
      have := ih (some (.error e)) h3 (h.2.1 e _ h2 (by rw [h4, List.length_drop]; omega))
      exact ⟨this.1, step h4 this.2.1, this.2.2⟩
  | borrowR n k ih =>
    rcases O.borrowR n s hs with h1 | ⟨a, s', h1, h2, h3, h4⟩ | ⟨e, s', j, h1, h2, h3, h4⟩
    · simp only [Prog.run, Prog.allocs, h1]
      exact ih none hs h.2.2
    · simp only [Prog.run, Prog.allocs, h1]
      have := ih (some (.ok (a, (pend s).take n))) h3 (by
        rw [h4, List.length_drop]; exact h.1 h2 _ _ (by rw [List.length_take]; omega))
      exact ⟨this.1, step h4 this.2.1, this.2.2⟩
    · simp only [Prog.run, Prog.allocs, h1]
      have := ih (some (.error e)) h3 (h.2.1 e _ h2 (by rw [h4, List.length_drop]; omega))
      exact ⟨this.1, step h4 this.2.1, this.2.2⟩
  | borrowEof k ih =>
    rcases O.borrowEof s hs with h1 | ⟨a, s', h1, h3, h4⟩
    · simp only [Prog.run, Prog.allocs, h1]
      exact ih none hs h.2
    · simp only [Prog.run, Prog.allocs, h1]
      have := ih (some (a, pend s)) h3 (by rw [h4]; exact h.1 _ _ rfl)
      exact ⟨this.1, step (h4.trans (nil_eq_drop (pend s))) this.2.1, this.2.2⟩
  | alloc n m k ih =>
    have := ih hs h.2
    refine ⟨this.1, this.2.1, this.2.2.1, ?_⟩
    intro x hx
    simp only [Prog.allocs, List.mem_cons] at hx
    rcases hx with rfl | hx
    · exact h.1
    · exact this.2.2.2 x hx

/-! ## Programs returning results -/

/-- What is asked for:
* `B`: at most so many bytes are available;
* `exact`: of a reader which knows how much is left;
* `uses`: count the bytes used by successful reads and the memory reserved;
* `np`: no panics and no endless loops. -/
structure Mode where
  B : Nat
  exact : Bool
  uses : Bool
  np : Bool

/-- The claim on reservations: the elements need at most as many bytes as are left or have been read. -/
def Mode.alloc (μ : Mode) (r n m : Nat) : Prop :=
  μ.uses = true → μ.exact = true → n * m ≤ r ∨ n * m ≤ μ.B - r

/-- The claim on results if `r` bytes were left before. -/
def Mode.post {α : Type} (μ : Mode) (m : Nat) (V : α → Prop) (r r' : Nat) : Except Err α → Prop
  | .ok a => r' ≤ r ∧ (μ.uses = true → r' + m ≤ r) ∧ V a
  | .error e => r' ≤ r ∧ (μ.np = true → e.calm = true)

/-- `p` uses at least `m` bytes if it succeeds, returns values in `V`, and so on (see `Mode`). -/
def Good {α : Type} (μ : Mode) (m : Nat) (V : α → Prop) (p : M α) : Prop :=
  ∀ r, r ≤ μ.B → p.Wp μ.exact μ.alloc (μ.post m V r) r

section
variable {α β : Type} {μ : Mode} {m m' n : Nat} {V V' : α → Prop} {W : β → Prop}

theorem Mode.post.mono {r r0 r' : Nat} {x : Except Err α} (h : μ.post m V r r' x) (hr : r + n ≤ r0) :
    μ.post (n + m) V r0 r' x := by
  cases x with
  | ok a => exact ⟨by have := h.1; omega, fun hu => by have := h.2.1 hu; omega, h.2.2⟩
  | error e => exact ⟨by have := h.1; omega, h.2⟩

theorem Good.weaken {p : M α} (h : Good μ m V p) (hm : m' ≤ m) (hV : ∀ a, V a → V' a) : Good μ m' V' p := by
  intro r hr
  refine (h r hr).mono fun r' x hx => ?_
  cases x with
  | ok a => exact ⟨hx.1, fun hu => by have := hx.2.1 hu; omega, hV a hx.2.2⟩
  | error e => exact hx

theorem Good.low {p : M α} (h : Good μ m V p) (hm : m' ≤ m) : Good μ m' V p := h.weaken hm fun _ h => h

theorem Good.low' {p : M α} (h : Good μ m V p) (hm : μ.uses = true → m' ≤ m) : Good μ m' V p := by
  intro r hr
  refine (h r hr).mono fun r' x hx => ?_
  cases x with
  | ok a => exact ⟨hx.1, fun hu => by have := hx.2.1 hu; have := hm hu; omega, hx.2.2⟩
  | error e => exact hx

theorem good_pure {a : α} (h : V a) : Good μ 0 V (M.pure a) :=
  fun r _ => ⟨Nat.le_refl _, fun _ => Nat.le_refl _, h⟩

theorem good_fail {e : Err} (h : μ.np = true → e.calm = true) : Good μ m V (M.fail e) :=
  fun r _ => ⟨Nat.le_refl _, h⟩

theorem good_bind {p : M α} {f : α → M β} (hp : Good μ m V p) (hf : ∀ a, V a → Good μ n W (f a)) :
    Good μ (m + n) W (M.bind p f) := by
  intro r hr
  refine Prog.Wp.bind ((hp r hr).mono fun r' x hx => ?_)
  cases x with
  | ok a =>
    refine (hf a hx.2.2 r' (by have := hx.1; omega)).mono fun r'' y hy => ?_
    cases y with
    | ok b =>
      exact ⟨by have := hx.1; have := hy.1; omega, fun hu => by
        have := hx.2.1 hu; have := hy.2.1 hu; omega, hy.2.2⟩
    | error e => exact ⟨by have := hx.1; have := hy.1; omega, hy.2⟩
  | error e => exact hx

theorem good_map {p : M α} {f : α → β} (hp : Good μ m V p) (hf : ∀ a, V a → W (f a)) : Good μ m W (M.map f p) :=
  good_bind (n := 0) hp fun a ha => good_pure (hf a ha)

theorem good_ite {c : Prop} [Decidable c] {p q : M α} (hp : c → Good μ m V p) (hq : ¬ c → Good μ m V q) :
    Good μ m V (if c then p else q) := by
  by_cases h : c
  · rw [if_pos h]; exact hp h
  · rw [if_neg h]; exact hq h

theorem good_onEof {p : M α} (hp : Good μ m V p) {d : α} (hd : V d) : Good μ 0 V (onEof p d) := by
  intro r hr
  refine Prog.Wp.bind ((hp r hr).mono fun r' x hx => ?_)
  cases x with
  | ok a => exact ⟨hx.1, fun _ => hx.1, hx.2.2⟩
  | error e =>
    simp only
    split
    · exact ⟨hx.1, fun _ => hx.1, hd⟩
    · exact hx

theorem good_readBytes (n : Nat) : Good μ n (fun bs => bs.length = n) (readBytes n) := by
  intro r hr
  refine ⟨fun hn bs hb => ⟨by omega, fun _ => by omega, hb⟩, fun er r' he hr' => ⟨hr', fun _ => he⟩⟩

theorem good_peekBytes (n : Nat) : Good μ 0 (fun bs => bs.length = n) (peekBytes n) := by
  intro r hr
  refine ⟨fun hn bs hb => ⟨by omega, fun _ => by omega, hb⟩, fun er r' he hr' => ⟨hr', fun _ => he⟩⟩

theorem good_readNum (h : Host) (e : Endian) (n : Nat) : Good μ n (fun v => v < 256 ^ n) (readNum h e n) := by
  intro r hr
  have main : ∀ x, (if x = some false then M.fail .unexpectedEndOfInput
      else Prog.read n fun
        | .error er => M.fail er
        | .ok bs =>
          let v := h.native.num bs
          M.pure (if e.conv h then swapBytes n v else v) : M Nat).Wp μ.exact μ.alloc
        (μ.post n (fun v => v < 256 ^ n) r) r := by
    intro x
    split
    · exact ⟨Nat.le_refl _, fun _ => rfl⟩
    · refine ⟨fun hn bs hb => ⟨by omega, fun _ => by omega, ?_⟩, fun er r' he hr' => ⟨hr', fun _ => he⟩⟩
      simp only
      split
      · exact swapBytes_lt _ _
      · rw [← hb]; exact Endian.num_lt _ _
  exact ⟨main _, fun _ => main _⟩

theorem good_peekNum (h : Host) (e : Endian) (n : Nat) : Good μ 0 (fun v => v < 256 ^ n) (peekNum h e n) := by
  intro r hr
  have main : ∀ x, (if x = some false then M.fail .unexpectedEndOfInput
      else Prog.peek n fun
        | .error er => M.fail er
        | .ok bs =>
          let v := h.native.num bs
          M.pure (if e.conv h then swapBytes n v else v) : M Nat).Wp μ.exact μ.alloc
        (μ.post 0 (fun v => v < 256 ^ n) r) r := by
    intro x
    split
    · exact ⟨Nat.le_refl _, fun _ => rfl⟩
    · refine ⟨fun hn bs hb => ⟨by omega, fun _ => by omega, ?_⟩, fun er r' he hr' => ⟨hr', fun _ => he⟩⟩
      simp only
      split
      · exact swapBytes_lt _ _
      · rw [← hb]; exact Endian.num_lt _ _
  exact ⟨main _, fun _ => main _⟩

theorem good_readVarint (h : Host) (e : Endian) : Good μ 1 (fun v => v < 2 ^ 64) (readVarint h e) := by
  refine good_bind (n := 0) (good_readNum h e 1) fun first hf => ?_
  refine (good_bind (n := 0) (good_readBytes _) fun rest hr => ?_).low (Nat.zero_le _)
  refine good_pure ?_
  have hl : rest.length = leadingOnes (UInt8.ofNat first).toNat := by rw [hr, viLength_eq]
  rw [viCombine_eq h _ _ hl]
  exact specVarintVal_lt _ _ hl

theorem good_peekVarint (h : Host) (e : Endian) : Good μ 0 (fun v => v < 2 ^ 64) (peekVarint h e) := by
  refine good_bind (n := 0) (good_peekNum h e 1) fun first hf => ?_
  refine (good_bind (n := 0) (good_peekBytes _) fun rest hr => ?_)
  refine good_pure ?_
  have hl : rest.length = leadingOnes (UInt8.ofNat first).toNat := by rw [hr, viLength_eq]
  rw [viCombine_eq h _ _ hl]
  exact specVarintVal_lt _ _ hl


theorem good_readLen {h : Host} (hh : h.Ok) (e : Endian) (lt : LenTy) :
    Good μ lt.minSize (fun n => n ≤ lt.cap h) (readLen h e lt) := by
  have := hh.lower
  cases lt <;> simp only [readLen, LenTy.minSize, LenTy.max, LenTy.cap]
  · exact good_bind (n := 0) (good_readNum h e 1) fun v hv => good_ite (fun _ => good_fail fun _ => rfl) fun hn =>
      good_pure (by omega)
  · exact (good_readNum h e 1).weaken (Nat.le_refl _) fun v hv => by omega
  · exact (good_readNum h e 2).weaken (Nat.le_refl _) fun v hv => by omega
  · exact (good_readNum h e 4).weaken (Nat.le_refl _) fun v hv => by omega
  · exact good_bind (n := 0) (good_readNum h e 8) fun v hv => good_ite (fun _ => good_fail fun _ => rfl) fun hn =>
      good_pure (by omega)
  · exact good_bind (n := 0) (good_readVarint h e) fun v hv => good_ite (fun _ => good_fail fun _ => rfl) fun hn =>
      good_pure (by omega)

end

end Verif
