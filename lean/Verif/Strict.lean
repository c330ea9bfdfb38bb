import Verif.ReaderApi
import Verif.StreamAny

/-!
# Programs which pass errors on

Most `Readable` implementations treat every error of the reader with `?`.
What such a program returns depends on the bytes alone: it is given by
`Prog.eval`, on every stream reader, whatever pieces the stream comes in.
-/

namespace Verif

/-- A program which returns at once when a reader call fails, with that error,
run on a reader which does not lend bytes and does not know how many are left
(all stream readers).  `pk` tells if it may peek. -/
inductive Strict {α : Type} (pk : Bool) : M α → Prop where
  | ret (r : Except Err α) : Strict pk (.ret r)
  | read (n : Nat) (k : Except Err Bytes → M α) (he : ∀ e, k (.error e) = .ret (.error e))
      (h : ∀ bs : Bytes, bs.length = n → Strict pk (k (.ok bs))) : Strict pk (.read n k)
  | peek (n : Nat) (k : Except Err Bytes → M α) (hp : pk = true) (he : ∀ e, k (.error e) = .ret (.error e))
      (h : ∀ bs : Bytes, bs.length = n → Strict pk (k (.ok bs))) : Strict pk (.peek n k)
  | skip (n : Nat) (k : Except Err Unit → M α) (he : ∀ e, k (.error e) = .ret (.error e))
      (h : Strict pk (k (.ok ()))) : Strict pk (.skip n k)
  | canRead (n : Nat) (k : Option Bool → M α) (h : Strict pk (k none)) : Strict pk (.canRead n k)
  | borrow (n : Nat) (k : Option (Except Err (Nat × Bytes)) → M α) (h : Strict pk (k none)) :
      Strict pk (.borrow n k)
  | borrowR (n : Nat) (k : Option (Except Err (Nat × Bytes)) → M α) (h : Strict pk (k none)) :
      Strict pk (.borrowR n k)
  | borrowEof (k : Option (Nat × Bytes) → M α) (h : Strict pk (k none)) : Strict pk (.borrowEof k)
  | alloc (n min : Nat) (k : M α) (h : Strict pk k) : Strict pk (.alloc n min k)

/-- The meaning of such a program as a function of the bytes to come: its
result and the bytes left. -/
def Prog.eval {α : Type} : M α → Bytes → Except Err α × Bytes
  | .ret r, bs => (r, bs)
  | .read n k, bs =>
    if n ≤ bs.length then (k (.ok (bs.take n))).eval (bs.drop n) else (.error .unexpectedEndOfInput, bs)
  | .peek n k, bs =>
    if n ≤ bs.length then (k (.ok (bs.take n))).eval bs else (.error .unexpectedEndOfInput, bs)
  | .skip n k, bs =>
    if n ≤ bs.length then (k (.ok ())).eval (bs.drop n) else (.error .unexpectedEndOfInput, bs)
  | .canRead _ k, bs => (k none).eval bs
  | .borrow _ k, bs => (k none).eval bs
  | .borrowR _ k, bs => (k none).eval bs
  | .borrowEof k, bs => (k none).eval bs
  | .alloc _ _ k, bs => k.eval bs

theorem Strict.bind {α β : Type} {pk : Bool} {p : M α} {f : α → M β} (hp : Strict pk p)
    (hf : ∀ a, Strict pk (f a)) : Strict pk (M.bind p f) := by
  unfold M.bind
  induction hp with
  | ret r =>
    cases r with
    | ok a => exact hf a
    | error e => exact .ret _
  | read n k he _ ih => exact .read n _ (fun e => by rw [he e]; rfl) ih
  | peek n k hp he _ ih => exact .peek n _ hp (fun e => by rw [he e]; rfl) ih
  | skip n k he _ ih => exact .skip n _ (fun e => by rw [he e]; rfl) ih
  | canRead n k _ ih => exact .canRead n _ ih
  | borrow n k _ ih => exact .borrow n _ ih
  | borrowR n k _ ih => exact .borrowR n _ ih
  | borrowEof k _ ih => exact .borrowEof _ ih
  | alloc n m k _ ih => exact .alloc n m _ ih

theorem Strict.map {α β : Type} {pk : Bool} {p : M α} {f : α → β} (hp : Strict pk p) :
    Strict pk (M.map f p) := hp.bind (fun _ => .ret _)

theorem Strict.mono {α : Type} {p : M α} (hp : Strict false p) : Strict true p := by
  induction hp with
  | ret r => exact .ret r
  | read n k he _ ih => exact .read n _ he ih
  | peek n k hp => cases hp
  | skip n k he _ ih => exact .skip n _ he ih
  | canRead n k _ ih => exact .canRead n _ ih
  | borrow n k _ ih => exact .borrow n _ ih
  | borrowR n k _ ih => exact .borrowR n _ ih
  | borrowEof k _ ih => exact .borrowEof _ ih
  | alloc n m k _ ih => exact .alloc n m _ ih

/-- A reader which does not lend bytes and does not know how many are left. -/
structure Plain {σ : Type} (R : ReaderOps σ) : Prop where
  canRead : ∀ n s, R.canRead n s = none
  borrow : ∀ n s, R.borrow n s = (none, s)
  borrowR : ∀ n s, R.borrowR n s = (none, s)
  borrowEof : ∀ s, R.borrowEof s = (none, s)

theorem streamReader_plain (grow : Nat → Nat) : Plain (streamReader grow) :=
  ⟨fun _ _ => rfl, fun _ _ => rfl, fun _ _ => rfl, fun _ => rfl⟩

/-- Two errors which are the same to a caller who asks `is_eof()`. -/
def Err.Alike (a b : Err) : Prop := a = b ∨ (a.isEof = true ∧ b.isEof = true)

theorem Err.Alike.symm {a b : Err} (h : Err.Alike a b) : Err.Alike b a :=
  h.elim (fun h => .inl h.symm) (fun h => .inr ⟨h.2, h.1⟩)

theorem Err.Alike.trans {a b c : Err} (h : Err.Alike a b) (h' : Err.Alike b c) : Err.Alike a c := by
  rcases h with rfl | h
  · exact h'
  · rcases h' with rfl | h'
    · exact .inr h
    · exact .inr ⟨h.1, h'.2⟩

/-- On a reader delivering bytes in order the program returns what it means. -/
theorem Strict.run_lawful {α σ : Type} {R : ReaderOps σ} {Inv : σ → Prop} {pend : σ → Bytes}
    (L : Lawful R Inv pend) (hR : Plain R) {pk : Bool} {p : M α} (hp : Strict pk p) (s : σ) (hs : Inv s) :
    (∃ a s', p.run R s = (.ok a, s') ∧ Inv s' ∧ p.eval (pend s) = (.ok a, pend s')) ∨
    (∃ e e' s' rest, p.run R s = (.error e', s') ∧ Inv s' ∧ p.eval (pend s) = (.error e, rest) ∧ e.Alike e') := by
  induction hp generalizing s with
  | ret r =>
    cases r with
    | ok a => exact .inl ⟨a, s, rfl, hs, rfl⟩
    | error e => exact .inr ⟨e, e, s, pend s, rfl, hs, rfl, .inl rfl⟩
  | read n k he _ ih =>
    by_cases hn : n ≤ (pend s).length
    · obtain ⟨s1, h1, h2, h3⟩ := L.read_ok n s hs hn
      simp only [Prog.run, Prog.eval, h1, hn, if_true]
      rw [← h3]
      exact ih _ (by simp; omega) s1 h2
    · obtain ⟨e, s1, h1, h2, h3, _⟩ := L.read_err n s hs (by omega)
      simp only [Prog.run, Prog.eval, h1, hn, if_false, he]
      exact .inr ⟨_, e, s1, _, rfl, h3, rfl, .inr ⟨rfl, h2⟩⟩
  | peek n k _ he _ ih =>
    by_cases hn : n ≤ (pend s).length
    · obtain ⟨s1, h1, h2, h3⟩ := L.peek_ok n s hs hn
      simp only [Prog.run, Prog.eval, h1, hn, if_true]
      have := ih ((pend s).take n) (by simp; omega) s1 h2
      rw [h3] at this
      exact this
    · obtain ⟨e, s1, h1, h2, h3, _⟩ := L.peek_err n s hs (by omega)
      simp only [Prog.run, Prog.eval, h1, hn, if_false, he]
      exact .inr ⟨_, e, s1, _, rfl, h3, rfl, .inr ⟨rfl, h2⟩⟩
  | skip n k he _ ih =>
    by_cases hn : n ≤ (pend s).length
    · obtain ⟨s1, h1, h2, h3⟩ := L.skip_ok n s hs hn
      simp only [Prog.run, Prog.eval, h1, hn, if_true]
      rw [← h3]
      exact ih s1 h2
    · obtain ⟨e, s1, h1, h2, h3, _⟩ := L.skip_err n s hs (by omega)
      simp only [Prog.run, Prog.eval, h1, hn, if_false, he]
      exact .inr ⟨_, e, s1, _, rfl, h3, rfl, .inr ⟨rfl, h2⟩⟩
  | canRead n k _ ih => simp only [Prog.run, Prog.eval, hR.canRead]; exact ih s hs
  | borrow n k _ ih => simp only [Prog.run, Prog.eval, hR.borrow]; exact ih s hs
  | borrowR n k _ ih => simp only [Prog.run, Prog.eval, hR.borrowR]; exact ih s hs
  | borrowEof k _ ih => simp only [Prog.run, Prog.eval, hR.borrowEof]; exact ih s hs
  | alloc n m k _ ih => simp only [Prog.run, Prog.eval]; exact ih s hs

/-- Why a stream read failed with `e'` on a source with behaviour `evs`: the
bytes mean an error like it; or the source ended too early; or
its last call failed, and that is the error. -/
def Blame (meaning : Except Err α) (evs evs' : List Ev) (e' : Err) : Prop :=
  (∃ e, meaning = .error e ∧ e.Alike e') ∨ (e'.isEof = true ∧ .give 0 ∈ evs) ∨
  (∃ k, e' = .io k ∧ Quiet evs (.fault k :: evs'))

theorem Blame.trans {α : Type} {m : Except Err α} {a b c : List Ev} {e : Err} (hq : Quiet a b) (h : Blame m b c e) :
    Blame m a c e := by
  rcases h with h | ⟨h1, h2⟩ | ⟨k, h1, h2⟩
  · exact .inl h
  · exact .inr (.inl ⟨h1, hq.mem h2⟩)
  · exact .inr (.inr ⟨k, h1, hq.trans h2⟩)

theorem StreamFails.blame {α : Type} {m : Except Err α} {pend : Bytes} {evs evs' : List Ev} {n : Nat} {e : Err}
    (h : StreamFails pend evs evs' n e) (hm : pend.length < n → m = .error .unexpectedEndOfInput) :
    Blame m evs evs' e := by
  rcases h with ⟨he, h1 | h1, h2⟩ | h
  · exact .inl ⟨_, hm h1, .inr ⟨rfl, by rcases he with rfl | rfl <;> rfl⟩⟩
  · exact .inr (.inl ⟨by rcases he with rfl | rfl <;> rfl, h1⟩)
  · exact .inr (.inr h)

/-- On any stream the program returns what the bytes mean, or an error for a
reason. -/
theorem Strict.run_any {α : Type} {grow : Nat → Nat} (hg : ∀ n, n ≤ grow n) {pk : Bool} {p : M α}
    (hp : Strict pk p) (s : StreamSt) (hs : s.buf.Inv) :
    (∃ a s', p.run (streamReader grow) s = (.ok a, s') ∧ s'.buf.Inv ∧ p.eval s.pend = (.ok a, s'.pend) ∧
      Quiet s.src.evs s'.src.evs ∧ s'.buffering = s.buffering) ∨
    (∃ e' s' k, p.run (streamReader grow) s = (.error e', s') ∧ s'.buf.Inv ∧ s'.pend = s.pend.drop k ∧
      Blame (p.eval s.pend).1 s.src.evs s'.src.evs e' ∧ s'.buffering = s.buffering ∧
      (s.buffering = false → pk = false → e' = .io .interrupted → (p.eval s.pend).1 = .error e')) := by
  induction hp generalizing s with
  | ret r =>
    cases r with
    | ok a => exact .inl ⟨a, s, rfl, hs, rfl, Quiet.refl _, rfl⟩
    | error e => exact .inr ⟨e, s, 0, rfl, hs, by simp, .inl ⟨e, rfl, .inl rfl⟩, rfl, fun _ _ _ => rfl⟩
  | read n k he _ ih =>
    rcases streamRead_any hg n s hs with ⟨s1, h1, h2, h3, h4, h5, h6⟩ | ⟨e, s1, k', h1, h2, h3, h4, h5, h6⟩
    · have h1' : (streamReader grow).read n s = (.ok (s.pend.take n), s1) := h1
      simp only [Prog.run, h1', Prog.eval, h2, if_true]
      rw [← h4]
      rcases ih (s.pend.take n) (by simp; omega) s1 h3 with
        ⟨a, s2, g1, g2, g3, g4, g5⟩ | ⟨e, s2, k', g1, g2, g3, g4, g5, g6⟩
      · exact .inl ⟨a, s2, g1, g2, g3, h6.trans g4, g5.trans h5⟩
      · exact .inr ⟨e, s2, n + k', g1, g2, by rw [g3, h4, List.drop_drop], g4.trans h6, g5.trans h5,
          fun hb => g6 (h5.trans hb)⟩
    · have h1' : (streamReader grow).read n s = (.error e, s1) := h1
      simp only [Prog.run, h1', Prog.eval, he]
      refine .inr ⟨e, s1, k', rfl, h2, h3, h5.blame ?_, h4, fun hb _ hi => absurd hi (h6 hb)⟩
      intro hlt; rw [if_neg (by omega)]
  | peek n k hpk he _ ih =>
    rcases streamPeek_any hg n s hs with ⟨s1, h1, h2, h3, h4, h5, h6⟩ | ⟨e, s1, h1, h2, h3, h4, h5⟩
    · have h1' : (streamReader grow).peek n s = (.ok (s.pend.take n), s1) := h1
      simp only [Prog.run, h1', Prog.eval, h2, if_true]
      rcases ih (s.pend.take n) (by simp; omega) s1 h3 with
        ⟨a, s2, g1, g2, g3, g4, g5⟩ | ⟨e, s2, k', g1, g2, g3, g4, g5, g6⟩
      · rw [h4] at g3
        exact .inl ⟨a, s2, g1, g2, g3, h6.trans g4, g5.trans h5⟩
      · rw [h4] at g3 g4 g6
        exact .inr ⟨e, s2, k', g1, g2, g3, g4.trans h6, g5.trans h5, fun hb => g6 (h5.trans hb)⟩
    · have h1' : (streamReader grow).peek n s = (.error e, s1) := h1
      simp only [Prog.run, h1', Prog.eval, he]
      refine .inr ⟨e, s1, 0, rfl, h2, by simpa using h3, h5.blame ?_, h4, fun _ hf => by rw [hpk] at hf; cases hf⟩
      intro hlt; rw [if_neg (by omega)]
  | skip n k he _ ih =>
    rcases skipLoop_any hg (n + 1) n s hs (by omega) with
      ⟨s1, h1, h2, h3, h4, h5, h6⟩ | ⟨e, s1, k', h1, h2, h3, h4, h5, h6⟩
    · have h1' : (streamReader grow).skip n s = (.ok (), s1) := h1
      simp only [Prog.run, h1', Prog.eval, h2, if_true]
      rw [← h4]
      rcases ih s1 h3 with ⟨a, s2, g1, g2, g3, g4, g5⟩ | ⟨e, s2, k', g1, g2, g3, g4, g5, g6⟩
      · exact .inl ⟨a, s2, g1, g2, g3, h6.trans g4, g5.trans h5⟩
      · exact .inr ⟨e, s2, n + k', g1, g2, by rw [g3, h4, List.drop_drop], g4.trans h6, g5.trans h5,
          fun hb => g6 (h5.trans hb)⟩
    · have h1' : (streamReader grow).skip n s = (.error e, s1) := h1
      simp only [Prog.run, h1', Prog.eval, he]
      refine .inr ⟨e, s1, k', rfl, h2, h3, h5.blame ?_, h4, fun hb _ hi => absurd hi (h6 hb)⟩
      intro hlt; rw [if_neg (by omega)]
  | canRead n k _ ih => simp only [Prog.run, Prog.eval, (streamReader_plain grow).canRead]; exact ih s hs
  | borrow n k _ ih => simp only [Prog.run, Prog.eval, (streamReader_plain grow).borrow]; exact ih s hs
  | borrowR n k _ ih => simp only [Prog.run, Prog.eval, (streamReader_plain grow).borrowR]; exact ih s hs
  | borrowEof k _ ih => simp only [Prog.run, Prog.eval, (streamReader_plain grow).borrowEof]; exact ih s hs
  | alloc n m k _ ih => simp only [Prog.run, Prog.eval]; exact ih s hs

/-! ## Without buffering nothing is kept -/

theorem streamTake_unbuffered (n : Nat) (s : StreamSt) (h0 : s.buf.length = 0) :
    (streamTake n s).2.buf.length = 0 ∧ (streamTake n s).2.buffering = s.buffering := by
  unfold streamTake
  simp only [h0, Nat.lt_irrefl, gt_iff_lt, if_false, List.length_nil, Nat.sub_zero]
  split
  · exact ⟨h0, rfl⟩
  · split <;> exact ⟨h0, rfl⟩

theorem streamRead_unbuffered (grow : Nat → Nat) (n : Nat) (s : StreamSt) (hb : s.buffering = false)
    (h0 : s.buf.length = 0) :
    (streamRead grow n s).2.buf.length = 0 ∧ (streamRead grow n s).2.buffering = false := by
  unfold streamRead
  split
  · rename_i hle
    have hn : n = 0 := by omega
    subst hn
    unfold CBuf.consumeInto
    simp only [h0, Nat.min_self, Nat.add_zero, CBuf.consumeIntoSlow, if_true]
    split
    · exact ⟨h0, hb⟩
    · rename_i out buf heq
      split at heq
      · cases hsl : sliceOf s.buf.buffer ⟨s.buf.position, s.buf.position⟩ with
        | error e => simp [hsl, bind, Except.bind] at heq
        | ok d =>
          simp only [hsl, bind, Except.bind, Except.ok.injEq, Prod.mk.injEq] at heq
          rw [← heq.2]; exact ⟨rfl, hb⟩
      · simp only [Except.ok.injEq, Prod.mk.injEq] at heq
        rw [← heq.2]; exact ⟨h0, hb⟩
  · unfold streamReadSlow
    simp only [hb, Bool.false_and, Bool.false_eq_true, if_false]
    have := streamTake_unbuffered n s h0
    exact ⟨this.1, this.2.trans hb⟩

theorem skipLoop_unbuffered (grow : Nat → Nat) (fuel n : Nat) (s : StreamSt) (hb : s.buffering = false)
    (h0 : s.buf.length = 0) :
    (skipLoop (streamRead grow) fuel n s).2.buf.length = 0 ∧
    (skipLoop (streamRead grow) fuel n s).2.buffering = false := by
  induction fuel generalizing n s with
  | zero => exact ⟨h0, hb⟩
  | succ fuel ih =>
    unfold skipLoop
    split
    · generalize (if n < 1024 then n else 1024) = chunk
      have := streamRead_unbuffered grow chunk s hb h0
      simp only
      split
      · rename_i heq; rw [heq] at this; exact this
      · rename_i heq; rw [heq] at this; exact ih _ _ this.2 this.1
    · exact ⟨h0, hb⟩

/-- A program which does not peek keeps no bytes in the buffer of an unbuffered
stream reader. -/
theorem Strict.run_unbuffered {α : Type} (grow : Nat → Nat) {p : M α}
    (hg : ∀ n, n ≤ grow n) (hp : Strict false p) (s : StreamSt) (hs : s.buf.Inv) (hb : s.buffering = false)
    (h0 : s.buf.length = 0) : (p.run (streamReader grow) s).2.buf.length = 0 := by
  induction hp generalizing s with
  | ret r => exact h0
  | read n k he _ ih =>
    have h := streamRead_unbuffered grow n s hb h0
    simp only [Prog.run]
    show (Prog.run _ (k (streamRead grow n s).1) (streamRead grow n s).2).2.buf.length = 0
    rcases streamRead_any hg n s hs with ⟨s1, h1, h2, h3, _⟩ | ⟨e, s1, _, h1, _⟩
    · rw [h1] at h ⊢
      exact ih _ (by simp; omega) _ h3 h.2 h.1
    · rw [h1] at h ⊢
      simp only [he]
      exact h.1
  | peek n k hp => cases hp
  | skip n k he _ ih =>
    have h := skipLoop_unbuffered grow (n + 1) n s hb h0
    simp only [Prog.run]
    show (Prog.run _ (k (skipLoop (streamRead grow) (n + 1) n s).1) (skipLoop (streamRead grow) (n + 1) n s).2).2.buf.length = 0
    rcases skipLoop_any hg (n + 1) n s hs (by omega) with ⟨s1, h1, h2, h3, _⟩ | ⟨e, s1, _, h1, _⟩
    · rw [h1] at h ⊢
      exact ih _ h3 h.2 h.1
    · rw [h1] at h ⊢
      simp only [he]
      exact h.1
  | canRead n k _ ih => exact ih s hs hb h0
  | borrow n k _ ih => exact ih s hs hb h0
  | borrowR n k _ ih => exact ih s hs hb h0
  | borrowEof k _ ih => exact ih s hs hb h0
  | alloc n m k _ ih => exact ih s hs hb h0

end Verif
