import Verif.Layout

/-!
# Reading with any reader refines the parser

For every reader which satisfies `Lawful`, running `decode` in a state with
pending bytes `bs` does what `parse` says about `bs`.
-/

namespace Verif

/-- What a run which started in state `s` and ended in `r` has to do with the
result of a parser on the pending bytes. An end-of-input failure may be
reported by any end-of-input error. -/
def Outcome {σ α : Type} (Inv : σ → Prop) (pend : σ → Bytes) (s : σ) :
    PRes α → Except Err α × σ → Prop
  | .ok a rest, r => r.1 = .ok a ∧ Inv r.2 ∧ pend r.2 = rest ∧ rest.length ≤ (pend s).length
  | .fail e, r => ∃ e', r.1 = .error e' ∧ (if e.isEof then e'.isEof = true else e' = e) ∧ Inv r.2 ∧
      (pend s = [] → pend r.2 = [])
  | .amb e, r => ∃ e', r.1 = .error e' ∧ (e' = e ∨ e'.isEof = true) ∧ Inv r.2 ∧
      (pend s = [] → pend r.2 = [])
  | .unspec, _ => True

/-- A program behaves as a parser says, in all states with at most `B` pending bytes. -/
def Refines {σ α : Type} (R : ReaderOps σ) (Inv : σ → Prop) (pend : σ → Bytes) (B : Nat)
    (p : M α) (q : P α) : Prop :=
  ∀ s, Inv s → (pend s).length ≤ B → Outcome Inv pend s (q (pend s)) (p.run R s)

section
variable {σ α : Type} (R : ReaderOps σ) (s : σ)
theorem run_read (n : Nat) (k : Except Err Bytes → Prog α) :
    (Prog.read n k).run R s = (k (R.read n s).1).run R (R.read n s).2 := rfl
theorem run_peek (n : Nat) (k : Except Err Bytes → Prog α) :
    (Prog.peek n k).run R s = (k (R.peek n s).1).run R (R.peek n s).2 := rfl
theorem run_canRead (n : Nat) (k : Option Bool → Prog α) :
    (Prog.canRead n k).run R s = (k (R.canRead n s)).run R s := rfl
theorem run_borrow (n : Nat) (k : Option (Except Err (Nat × Bytes)) → Prog α) :
    (Prog.borrow n k).run R s = (k (R.borrow n s).1).run R (R.borrow n s).2 := rfl
theorem run_borrowR (n : Nat) (k : Option (Except Err (Nat × Bytes)) → Prog α) :
    (Prog.borrowR n k).run R s = (k (R.borrowR n s).1).run R (R.borrowR n s).2 := rfl
theorem run_borrowEof (k : Option (Nat × Bytes) → Prog α) :
    (Prog.borrowEof k).run R s = (k (R.borrowEof s).1).run R (R.borrowEof s).2 := rfl
theorem run_ret (a : α) : (Prog.ret a).run R s = (a, s) := rfl
theorem run_alloc (n m : Nat) (k : Prog α) : (Prog.alloc n m k).run R s = k.run R s := rfl
end

section
variable {σ : Type} {R : ReaderOps σ} {Inv : σ → Prop} {pend : σ → Bytes} {B : Nat}

theorem refines_pure {α : Type} (a : α) : Refines R Inv pend B (M.pure a) (P.pure a) := by
  intro s hs _
  exact ⟨rfl, hs, rfl, Nat.le_refl _⟩

theorem refines_fail {α : Type} (e : Err) :
    Refines R Inv pend B (M.fail e : M α) (P.fail e) := by
  intro s hs _
  refine ⟨e, rfl, ?_, hs, fun h => h⟩
  split <;> simp_all

theorem refines_unspec {α : Type} (p : M α) : Refines R Inv pend B p P.unspec := by
  intro s _ _
  trivial

theorem refines_bind {α β : Type} {p : M α} {q : P α} {f : α → M β} {g : α → P β}
    (hp : Refines R Inv pend B p q) (hf : ∀ a, Refines R Inv pend B (f a) (g a)) :
    Refines R Inv pend B (M.bind p f) (P.bind q g) := by
  intro s hs hB
  have h1 := hp s hs hB
  unfold M.bind P.bind
  rw [Prog.run_bind]
  generalize p.run R s = r at h1
  obtain ⟨r1, s1⟩ := r
  cases hq : q (pend s) with
  | ok a rest =>
    rw [hq] at h1
    obtain ⟨h2, h3, h4, h5⟩ := h1
    simp only at h2 h3 h4 h5
    subst h2
    have h6 := hf a s1 h3 (by rw [h4]; omega)
    simp only
    rw [h4] at h6
    generalize (f a).run R s1 = r' at h6
    cases hg : g a rest with
    | ok b rest' =>
      rw [hg] at h6
      obtain ⟨k1, k2, k3, k4⟩ := h6
      exact ⟨k1, k2, k3, by rw [h4] at k4; omega⟩
    | fail e =>
      rw [hg] at h6
      obtain ⟨e', k1, k2, k3, k4⟩ := h6
      exact ⟨e', k1, k2, k3, fun hn => k4 (by
        rw [hn] at h5; rw [h4]; exact List.length_eq_zero_iff.mp (by simpa using h5))⟩
    | amb e =>
      rw [hg] at h6
      obtain ⟨e', k1, k2, k3, k4⟩ := h6
      exact ⟨e', k1, k2, k3, fun hn => k4 (by
        rw [hn] at h5; rw [h4]; exact List.length_eq_zero_iff.mp (by simpa using h5))⟩
    | unspec => trivial
  | fail e =>
    rw [hq] at h1
    obtain ⟨e', h2, h3, h4, h5⟩ := h1
    simp only at h2 h3 h4 h5
    subst h2
    exact ⟨e', rfl, h3, h4, h5⟩
  | amb e =>
    rw [hq] at h1
    obtain ⟨e', h2, h3, h4, h5⟩ := h1
    simp only at h2 h3 h4 h5
    subst h2
    exact ⟨e', rfl, h3, h4, h5⟩
  | unspec => trivial

theorem refines_map {α β : Type} {p : M α} {q : P α} (f : α → β)
    (hp : Refines R Inv pend B p q) : Refines R Inv pend B (M.map f p) (P.map f q) :=
  refines_bind hp fun _ => refines_pure _

theorem refines_ite {α : Type} {c : Prop} [Decidable c] {p p' : M α} {q q' : P α}
    (h : c → Refines R Inv pend B p q) (h' : ¬ c → Refines R Inv pend B p' q') :
    Refines R Inv pend B (if c then p else p') (if c then q else q') := by
  split
  · exact h ‹_›
  · exact h' ‹_›

/-- Parsers may be compared pointwise. -/
theorem refines_congr {α : Type} {p : M α} {q q' : P α} (h : Refines R Inv pend B p q)
    (hq : ∀ bs, bs.length ≤ B → q bs = q' bs) : Refines R Inv pend B p q' := by
  intro s hs hB
  have := h s hs hB
  rwa [hq _ hB] at this

/-- Ignoring ghost allocations. -/
theorem refines_alloc {α : Type} {p : M α} {q : P α} (n m : Nat)
    (h : Refines R Inv pend B p q) : Refines R Inv pend B (.alloc n m p) q := h

/-- An end-of-input failure. -/
theorem outcome_eof {α : Type} {s s' : σ} {e : Err} (he : e.isEof = true) (hi : Inv s')
    (hp : pend s' = pend s ∨ pend s' = []) :
    Outcome (α := α) Inv pend s (.fail .unexpectedEndOfInput) (.error e, s') := by
  refine ⟨e, rfl, ?_, hi, ?_⟩
  · simpa [Err.isEof] using he
  · intro h; rcases hp with h' | h'
    · simpa [h] using h'
    · exact h'

variable (L : Lawful R Inv pend)
include L

theorem refines_readBytes (n : Nat) : Refines R Inv pend B (readBytes n) (pTake n) := by
  intro s hs _
  unfold readBytes
  rw [run_read]
  by_cases h : n ≤ (pend s).length
  · obtain ⟨s', h1, h2, h3⟩ := L.read_ok n s hs h
    rw [h1, pTake_ok h]
    exact ⟨rfl, h2, h3, by simp⟩
  · obtain ⟨e, s', h1, h2, h3, h4⟩ := L.read_err n s hs (by omega)
    rw [h1, pTake_fail (by omega)]
    exact outcome_eof h2 h3 h4

theorem refines_peekBytes (n : Nat) : Refines R Inv pend B (peekBytes n) (pPeek n) := by
  intro s hs _
  unfold peekBytes pPeek
  rw [run_peek]
  by_cases h : n ≤ (pend s).length
  · obtain ⟨s', h1, h2, h3⟩ := L.peek_ok n s hs h
    rw [h1, if_pos h]
    exact ⟨rfl, h2, h3, by simp⟩
  · obtain ⟨e, s', h1, h2, h3, h4⟩ := L.peek_err n s hs (by omega)
    rw [h1, if_neg h]
    exact outcome_eof h2 h3 (.inl h4)

omit L in
theorem conv_num (h : Host) (e : Endian) (bs : Bytes) :
    (if e.conv h then swapBytes bs.length (h.native.num bs) else h.native.num bs) = e.num bs := by
  split
  · rename_i hc
    rw [swapBytes_num, Endian.flip_num, ← Endian.conv_flip hc]
  · rename_i hc
    rw [← Endian.not_conv (by simpa using hc)]

theorem refines_readNum (h : Host) (e : Endian) (n : Nat) :
    Refines R Inv pend B (readNum h e n) (pNum e n) := by
  intro s hs hB
  unfold readNum
  rw [run_canRead]
  by_cases hn : n ≤ (pend s).length
  · have hc : R.canRead n s ≠ some false := by
      rcases L.canRead n s hs with h1 | h1 <;> simp [h1, hn]
    rw [if_neg hc]
    obtain ⟨s', h1, h2, h3⟩ := L.read_ok n s hs hn
    simp only [run_read, h1, M.pure, run_ret]
    unfold pNum
    rw [P.map_ok (pTake_ok hn)]
    have : ((pend s).take n).length = n := by simp [hn]
    refine ⟨?_, h2, h3, by simp⟩
    have h4 := conv_num h e ((pend s).take n)
    rw [this] at h4
    exact congrArg Except.ok h4
  · unfold pNum
    rw [P.map_fail (pTake_fail (by omega))]
    by_cases hc : R.canRead n s = some false
    · rw [if_pos hc]
      exact outcome_eof rfl hs (.inl rfl)
    · rw [if_neg hc]
      obtain ⟨e', s', h1, h2, h3, h4⟩ := L.read_err n s hs (by omega)
      simp only [run_read, h1, M.fail, run_ret]
      exact outcome_eof h2 h3 h4

theorem refines_peekNum (h : Host) (e : Endian) (n : Nat) :
    Refines R Inv pend B (peekNum h e n) (pPeekNum e n) := by
  intro s hs hB
  unfold peekNum
  rw [run_canRead]
  by_cases hn : n ≤ (pend s).length
  · have hc : R.canRead n s ≠ some false := by
      rcases L.canRead n s hs with h1 | h1 <;> simp [h1, hn]
    rw [if_neg hc]
    obtain ⟨s', h1, h2, h3⟩ := L.peek_ok n s hs hn
    simp only [run_peek, h1, M.pure, run_ret]
    unfold pPeekNum
    rw [P.map_ok (show pPeek n (pend s) = .ok ((pend s).take n) (pend s) by simp [pPeek, hn])]
    have : ((pend s).take n).length = n := by simp [hn]
    refine ⟨?_, h2, h3, by simp⟩
    have h4 := conv_num h e ((pend s).take n)
    rw [this] at h4
    exact congrArg Except.ok h4
  · unfold pPeekNum
    rw [P.map_fail (show pPeek n (pend s) = .fail .unexpectedEndOfInput by simp [pPeek, hn])]
    by_cases hc : R.canRead n s = some false
    · rw [if_pos hc]
      exact outcome_eof rfl hs (.inl rfl)
    · rw [if_neg hc]
      obtain ⟨e', s', h1, h2, h3, h4⟩ := L.peek_err n s hs (by omega)
      simp only [run_peek, h1, M.fail, run_ret]
      exact outcome_eof h2 h3 (.inl h4)

omit L in
theorem num_single (e : Endian) (bs : Bytes) (h : bs.length = 1) : UInt8.ofNat (e.num bs) = hd bs := by
  match bs, h with
  | [b], _ => cases e <;> simp [Endian.num, ofLe, hd]

/-- Results of one-byte parsers have one byte. -/
theorem refines_readVarint (h : Host) (e : Endian) :
    Refines R Inv pend B (readVarint h e) pVarint := by
  have key : Refines R Inv pend B (readVarint h e)
      (P.bind (pNum e 1) fun n =>
        P.bind (pTake (leadingOnes (UInt8.ofNat n).toNat)) fun rest => P.pure (viCombine h (UInt8.ofNat n) rest)) := by
    unfold readVarint
    refine refines_bind (refines_readNum L h e 1) fun n => ?_
    simp only [viLength_eq]
    exact refines_bind (refines_readBytes L _) fun _ => refines_pure _
  refine refines_congr key fun bs _ => ?_
  unfold pVarint pNum
  by_cases h1 : 1 ≤ bs.length
  · rw [P.bind_ok (P.map_ok (pTake_ok h1)), P.bind_ok (pTake_ok h1), num_single _ _ (by simp [h1])]
    generalize hd (bs.take 1) = b
    unfold P.map
    by_cases h2 : leadingOnes b.toNat ≤ (bs.drop 1).length
    · rw [P.bind_ok (pTake_ok h2), P.bind_ok (pTake_ok h2),
        viCombine_eq _ _ _ (by rw [List.length_take]; omega)]
    · rw [P.bind_fail (pTake_fail (by omega)), P.bind_fail (pTake_fail (by omega))]
  · rw [P.bind_fail (P.map_fail (pTake_fail (by omega))), P.bind_fail (pTake_fail (by omega))]

theorem refines_peekVarint (h : Host) (e : Endian) :
    Refines R Inv pend B (peekVarint h e) pPeekVarint := by
  have key : Refines R Inv pend B (peekVarint h e)
      (P.bind (pPeekNum e 1) fun n =>
        P.bind (pPeek (leadingOnes (UInt8.ofNat n).toNat)) fun rest => P.pure (viCombine h (UInt8.ofNat n) rest)) := by
    unfold peekVarint
    refine refines_bind (refines_peekNum L h e 1) fun n => ?_
    simp only [viLength_eq]
    exact refines_bind (refines_peekBytes L _) fun _ => refines_pure _
  refine refines_congr key fun bs _ => ?_
  unfold pPeekVarint pPeekNum
  have ok : ∀ {n : Nat}, n ≤ bs.length → pPeek n bs = .ok (bs.take n) bs := fun hn => by simp [pPeek, hn]
  have er : ∀ {n : Nat}, ¬ n ≤ bs.length → pPeek n bs = .fail .unexpectedEndOfInput :=
    fun hn => by simp [pPeek, hn]
  by_cases h1 : 1 ≤ bs.length
  · rw [P.bind_ok (P.map_ok (ok h1)), P.bind_ok (ok h1), num_single _ _ (by simp [h1])]
    generalize hd (bs.take 1) = b
    unfold P.map
    by_cases h2 : leadingOnes b.toNat ≤ bs.length
    · rw [P.bind_ok (ok h2), P.bind_ok (ok h2),
        viCombine_eq _ _ _ (by rw [List.length_take]; omega)]
    · rw [P.bind_fail (er h2), P.bind_fail (er h2)]
  · rw [P.bind_fail (P.map_fail (er h1)), P.bind_fail (er h1)]

theorem refines_readLen (h : Host) (e : Endian) (lt : LenTy) :
    Refines R Inv pend B (readLen h e lt) (pLen h e lt) := by
  cases lt <;> unfold readLen pLen
  · exact refines_bind (refines_readNum L h e 1) fun n =>
      refines_ite (fun _ => refines_fail _) fun _ => refines_pure _
  · exact refines_readNum L h e 1
  · exact refines_readNum L h e 2
  · exact refines_readNum L h e 4
  · exact refines_bind (refines_readNum L h e 8) fun n =>
      refines_ite (fun _ => refines_fail _) fun _ => refines_pure _
  · exact refines_bind (refines_readVarint L h e) fun n =>
      refines_ite (fun _ => refines_fail _) fun _ => refines_pure _

omit L in
theorem refines_repeat {α : Type} {p : M α} {q : P α} (hp : Refines R Inv pend B p q) (n : Nat) :
    Refines R Inv pend B (repeatM n p) (pRep n q) := by
  induction n with
  | zero => exact refines_pure _
  | succ n ih => exact refines_bind hp fun v => refines_bind ih fun vs => refines_pure _

omit L in
theorem refines_onEof {α : Type} {p : M α} {q : P α} (hp : Refines R Inv pend B p q) (d : α) :
    Refines R Inv pend B (onEof p d) (pOnEof q d) := by
  intro s hs hB
  have h1 := hp s hs hB
  unfold onEof pOnEof
  rw [Prog.run_bind]
  generalize p.run R s = r at h1
  obtain ⟨r1, s1⟩ := r
  cases hq : q (pend s) with
  | ok a rest =>
    rw [hq] at h1
    obtain ⟨h2, h3, h4, h5⟩ := h1
    simp only at h2 h3 h4 h5
    subst h2
    exact ⟨rfl, h3, h4, h5⟩
  | fail e =>
    rw [hq] at h1
    obtain ⟨e', h2, h3, h4, h5⟩ := h1
    simp only at h2 h3 h4 h5
    subst h2
    simp only
    split at h3
    · rename_i he
      rw [if_pos he]
      split
      · rename_i hn
        exact ⟨rfl, h4, h5 hn, by simp⟩
      · trivial
    · rename_i he
      rw [if_neg he]
      subst h3
      rw [if_neg he]
      exact ⟨_, rfl, by simp [he], h4, h5⟩
  | amb e => trivial
  | unspec => trivial

theorem refines_readLenR (h : Host) (e : Endian) (l : LenR) :
    Refines R Inv pend B (readLenR h e l) (pLenR h e l) := by
  match l with
  | .typed lt false => exact refines_map _ (refines_readLen L h e lt)
  | .typed lt true => exact refines_map _ (refines_onEof (refines_readLen L h e lt) 0)
  | .fixed n => exact refines_pure _
  | .untilEof => exact refines_pure _

omit L in
theorem refines_untilEof {p : M Val} {q : P Val} (hp : Refines R Inv pend B p q) (fuel : Nat) :
    Refines R Inv pend B (readUntilEof fuel p) (pUntilEof fuel q) := by
  induction fuel with
  | zero => exact refines_unspec _
  | succ fuel ih =>
    intro s hs hB
    have h1 := hp s hs hB
    unfold readUntilEof pUntilEof
    rw [Prog.run_bind]
    generalize p.run R s = r at h1
    obtain ⟨r1, s1⟩ := r
    cases hq : q (pend s) with
    | ok a rest =>
      rw [hq] at h1
      obtain ⟨h2, h3, h4, h5⟩ := h1
      simp only at h2 h3 h4 h5
      subst h2
      simp only
      split
      · rename_i hlt
        have h6 := ih s1 h3 (by rw [h4]; omega)
        rw [h4] at h6
        cases hr : pUntilEof fuel q rest with
        | ok vs rest' =>
          rw [hr] at h6
          obtain ⟨k1, k2, k3, k4⟩ := h6
          have : (readUntilEof fuel p).run R s1 = (.ok vs, ((readUntilEof fuel p).run R s1).2) := by
            rw [← k1]
          rw [M.run_bind_ok this]
          exact ⟨rfl, k2, k3, by rw [h4] at k4; omega⟩
        | fail e =>
          rw [hr] at h6
          obtain ⟨e', k1, k2, k3, k4⟩ := h6
          have : (readUntilEof fuel p).run R s1 = (.error e', ((readUntilEof fuel p).run R s1).2) := by
            rw [← k1]
          rw [M.run_bind_err this]
          exact ⟨e', rfl, k2, k3, fun hn => by rw [hn] at hlt; simp at hlt⟩
        | amb e =>
          rw [hr] at h6
          obtain ⟨e', k1, k2, k3, k4⟩ := h6
          have : (readUntilEof fuel p).run R s1 = (.error e', ((readUntilEof fuel p).run R s1).2) := by
            rw [← k1]
          rw [M.run_bind_err this]
          exact ⟨e', rfl, k2, k3, fun hn => by rw [hn] at hlt; simp at hlt⟩
        | unspec => trivial
      · trivial
    | fail e =>
      rw [hq] at h1
      obtain ⟨e', h2, h3, h4, h5⟩ := h1
      simp only at h2 h3 h4 h5
      subst h2
      simp only
      split at h3
      · rename_i he
        rw [if_pos he]
        split
        · rename_i hn
          exact ⟨rfl, h4, h5 hn, by simp⟩
        · trivial
      · rename_i he
        rw [if_neg he]
        subst h3
        rw [if_neg he]
        exact ⟨_, rfl, by simp [he], h4, h5⟩
    | amb e => trivial
    | unspec => trivial

end

end Verif
