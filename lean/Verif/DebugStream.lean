import Verif.Debug

/-!
# The stream reader in a debug build

As long as the buffer satisfies its invariant, no check fails.
-/

namespace Verif

/-- The invariant of circular buffers, of which no allocation exceeds `isize::MAX`. -/
structure CBuf.Sane (h : Host) (c : CBuf) : Prop where
  inv : c.Inv
  cap : c.capacity ≤ h.isizeMax

theorem addD_ok {h : Host} {a b : Nat} (hn : a + b ≤ h.usizeMax) : h.addD a b = .ok (a + b) := if_pos hn
theorem subD_ok {a b : Nat} (hn : b ≤ a) : subD a b = .ok (a - b) := if_pos hn
theorem mulD_ok {h : Host} {a b : Nat} (hn : a * b ≤ h.usizeMax) : h.mulD a b = .ok (a * b) := if_pos hn
theorem assertEqD_ok {a b : Nat} (hn : a = b) : assertEqD a b = .ok () := if_pos hn

section
variable {h : Host} (hh : h.Ok)
include hh

theorem occupiedD_ok {p l c : Nat} (hl : l ≤ c) (hp : p < c ∨ p = 0) (hc : c ≤ h.isizeMax) :
    occupiedD h p l c = .ok (occupied p l c) := by
  have := hh.isize
  unfold occupiedD occupied
  rw [addD_ok (by omega)]
  simp only [bind, Except.bind]
  by_cases h1 : p + l ≤ c
  · rw [if_pos h1, if_pos h1, assertEqD_ok (by simp [Rng.len])]
  · rw [if_neg h1, if_neg h1]
    simp only [Rng.len]
    rw [subD_ok (by omega)]
    simp only [Nat.sub_zero]
    rw [addD_ok (by omega)]
    simp only
    rw [assertEqD_ok (by omega)]

theorem emptyRangeD_ok {p l c m : Nat} (hl : l ≤ c) (hp : p < c ∨ p = 0) (hc : c ≤ h.isizeMax) :
    emptyRangeD h p l c m = .ok (emptyRange p l c m) := by
  have := hh.isize
  unfold emptyRangeD emptyRange
  by_cases h0 : p = 0
  · rw [if_pos h0, if_pos h0, subD_ok hl]
    simp only [bind, Except.bind, Rng.len]
    rw [assertEqD_ok rfl]
    simp only
    by_cases hm : m < c - l
    · simp only [hm, if_true]; rw [addD_ok (by omega)]
    · simp only [hm, if_false]
  · rw [if_neg h0, if_neg h0, addD_ok (by omega)]
    simp only [bind, Except.bind, Rng.len]
    by_cases h1 : p + l ≥ c
    · rw [if_pos h1, if_pos h1, subD_ok (by omega)]
      simp only
      rw [subD_ok (by omega)]
      simp only
      rw [subD_ok (by omega), subD_ok (by omega)]
      simp only
      rw [assertEqD_ok (by omega)]
      simp only
      by_cases hm : m < c - (c - p) - (l - (c - p))
      · simp only [hm, if_true]; rw [addD_ok (by omega)]
      · simp only [hm, if_false]
    · rw [if_neg h1, if_neg h1]
      simp only [Nat.sub_zero]
      rw [addD_ok (by omega), subD_ok (by omega)]
      simp only
      rw [assertEqD_ok (by omega)]
      simp only
      by_cases hm : m ≤ c - (p + l)
      · simp only [hm, if_true]; rw [addD_ok (by omega)]
      · simp only [hm, if_false]; rw [subD_ok (by omega)]
        simp only
        by_cases hm' : m - (c - (p + l)) ≤ p
        · simp only [hm', if_true]; rw [addD_ok (by omega)]
        · simp only [hm', if_false]

theorem CBuf.asSlicesD_ok {c : CBuf} (hc : c.Sane h) : c.asSlicesD h = c.asSlices := by
  unfold CBuf.asSlicesD CBuf.asSlices
  rw [occupiedD_ok hh hc.inv.len_le hc.inv.pos_lt hc.cap]
  simp only [bind, Except.bind]
  rw [assertEqD_ok (by unfold occupied; split <;> rfl)]
  rfl

theorem CBuf.reserveOnD_ok {c : CBuf} (hc : c.Sane h) {new : Nat → Bytes} {grow : Nat → Nat} {size : Nat}
    (hs : c.length + size ≤ h.usizeMax) : c.reserveOnD h new grow size = c.reserveOn new grow size := by
  unfold CBuf.reserveOnD CBuf.reserveOn
  rw [addD_ok hs]
  simp only [bind, Except.bind]
  split
  · rfl
  · rw [occupiedD_ok hh hc.inv.len_le hc.inv.pos_lt hc.cap]
    rfl

theorem CBuf.asSlicesOfLengthD_ok {c : CBuf} (hc : c.Sane h) (n : Nat) : c.asSlicesOfLengthD h n = c.asSlicesOfLength n := by
  unfold CBuf.asSlicesOfLengthD CBuf.asSlicesOfLength
  rw [CBuf.asSlicesD_ok hh hc]
  split
  · cases c.asSlices with
    | error p => rfl
    | ok r =>
      obtain ⟨a, b⟩ := r
      simp only [bind, Except.bind]
      split
      · rfl
      · cases b with
        | none => rfl
        | some b => simp only [Option.map]; rw [subD_ok (by omega)]
  · rfl

theorem CBuf.consumeD_ok {c : CBuf} (hc : c.Sane h) (n : Nat) : c.consumeD h n = c.consume n := by
  have := hh.isize
  have h1 := hc.inv.len_le
  have h2 := hc.inv.pos_lt
  have h3 := hc.cap
  unfold CBuf.consumeD CBuf.consume
  split
  · rw [addD_ok (by omega)]
    simp only [bind, Except.bind]
    split
    · rfl
    · rw [subD_ok (by omega)]
  · rfl

theorem CBuf.consumeIntoD_ok {c : CBuf} (hc : c.Sane h) (n : Nat) : c.consumeIntoD h n = c.consumeInto n := by
  have := hh.isize
  have h1 := hc.inv.len_le
  have h2 := hc.inv.pos_lt
  have h3 := hc.cap
  unfold CBuf.consumeIntoD CBuf.consumeInto
  have h4 : min c.length n ≤ c.length := Nat.min_le_left _ _
  generalize min c.length n = m at h4
  simp only
  rw [addD_ok (by omega), subD_ok (by omega)]
  simp only [bind, Except.bind]
  split
  · rfl
  · unfold CBuf.consumeIntoSlowD CBuf.consumeIntoSlow
    rw [CBuf.asSlicesOfLengthD_ok hh hc]
    simp only [CBuf.consumeD_ok hh hc]

end

/-! ## The stream reader -/

section
variable {σ : Type} {h : Host} (hh : h.Ok) {D : Device σ} (hD : D.Honest) {junk : Nat → UInt8} {grow : Nat → Nat}
  (hg : ∀ n, n ≤ grow n) (hi : ∀ n, n ≤ h.isizeMax → grow n ≤ h.isizeMax)
include hh hD hg hi

theorem appendD_ok {s : DevSt σ} (hs : s.buf.Sane h) {size : Nat} (hn : s.buf.length + size ≤ h.isizeMax) :
    s.appendD h D junk grow size = s.append D junk grow size ∧
    ∃ r s', s.append D junk grow size = .ok (r, s') ∧ s'.buf.Sane h := by
  have hu := hh.isize
  obtain ⟨c, h1, h2, h3, h4, h5, h6, h7⟩ := CBuf.reserveOn_ok (fresh_length junk s.used) hg hs.inv size
  have hcap : c.capacity ≤ h.isizeMax := by
    rw [h7]
    split
    · exact hs.cap
    · exact hi _ hn
  have hl : c.length + size ≤ c.capacity := by rw [h5]; exact h4
  obtain ⟨r1, r2, r3, _, _⟩ := emptyRange_spec h2 size hl
  have hst := fun sl n hl' hn => CBuf.stored (sl := sl) (n := n) h2 hl hl' hn
  unfold DevSt.appendD DevSt.append
  rw [CBuf.reserveOnD_ok hh hs (by omega)]
  simp only [h1, bind, Except.bind]
  rw [emptyRangeD_ok hh h2.len_le h2.pos_lt hcap]
  simp only
  generalize emptyRange c.position c.length c.capacity size = rg at *
  obtain ⟨rg, rb⟩ := rg
  simp only at *
  have e1 : sliceOf c.buffer rg = .ok ((c.buffer.drop rg.start).take rg.len) := by
    unfold sliceOf; rw [if_pos ⟨r1, r2⟩]
  have l1 : ((c.buffer.drop rg.start).take rg.len).length = rg.len := by
    simp [Rng.len]; unfold CBuf.capacity at r2; omega
  rw [e1]
  simp only
  generalize (c.buffer.drop rg.start).take rg.len = a at *
  obtain ⟨_, _, d3⟩ := hD.read a a s.dev rfl
  have m1 := D.read_len a s.dev
  generalize D.read a s.dev = ra at *
  obtain ⟨x, a', s1⟩ := ra
  simp only at d3 m1
  cases x with
  | error k =>
    refine ⟨rfl, _, _, rfl, ?_⟩
    obtain ⟨i1, _, i3⟩ := hst a' 0 (by omega) (by omega)
    exact ⟨i1, Nat.le_trans (Nat.le_of_eq i3) hcap⟩
  | ok n =>
    obtain ⟨n1, _⟩ := d3 n rfl
    simp only
    rw [addD_ok (by omega)]
    refine ⟨rfl, _, _, rfl, ?_⟩
    obtain ⟨i1, _, i3⟩ := hst a' n (by omega) (by omega)
    exact ⟨i1, Nat.le_trans (Nat.le_of_eq i3) hcap⟩

theorem devFillD_ok (n : Nat) : ∀ (fuel : Nat) {s : DevSt σ}, s.buf.Sane h →
    devFillD h D junk grow n fuel s = devFill D junk grow n fuel s ∧ (devFill D junk grow n fuel s).2.buf.Sane h
  | 0, _, hs => ⟨rfl, hs⟩
  | fuel + 1, s, hs => by
    unfold devFillD devFill
    by_cases hlt : s.buf.length < s.buf.capacity
    · have hc := hs.cap
      rw [if_pos hlt, if_pos hlt, subD_ok (by omega)]
      simp only
      obtain ⟨h1, r, s', h2, h3⟩ := appendD_ok (junk := junk) hh hD hg hi hs (size := s.buf.capacity - s.buf.length) (by omega)
      rw [h1, h2]
      cases r with
      | error k => exact ⟨rfl, h3⟩
      | ok w =>
        simp only
        split
        · split <;> exact ⟨rfl, h3⟩
        · split
          · exact ⟨rfl, h3⟩
          · exact devFillD_ok n fuel h3
    · rw [if_neg hlt, if_neg hlt]
      exact ⟨rfl, hs⟩

theorem devPeekFillD_ok {n : Nat} (hn : n ≤ h.isizeMax) : ∀ (fuel : Nat) {s : DevSt σ}, s.buf.Sane h →
    devPeekFillD h D junk grow n fuel s = devPeekFill D junk grow n fuel s ∧ (devPeekFill D junk grow n fuel s).2.buf.Sane h
  | 0, _, hs => ⟨rfl, hs⟩
  | fuel + 1, s, hs => by
    unfold devPeekFillD devPeekFill
    by_cases hlt : s.buf.length < n
    · have hc := hs.cap
      have hl := hs.inv.len_le
      rw [if_pos hlt, if_pos hlt, subD_ok (by omega), subD_ok (by omega)]
      simp only [bind, Except.bind]
      have hch : (if s.buffering = true then (Except.ok (max (n - s.buf.length) (s.buf.capacity - s.buf.length)) : Except Panic Nat)
          else .ok (n - s.buf.length)) =
          .ok (if s.buffering = true then max (n - s.buf.length) (s.buf.capacity - s.buf.length) else n - s.buf.length) := by
        split <;> rfl
      rw [hch]
      simp only
      obtain ⟨h1, r, s', h2, h3⟩ := appendD_ok (junk := junk) hh hD hg hi hs
        (size := if s.buffering = true then max (n - s.buf.length) (s.buf.capacity - s.buf.length) else n - s.buf.length)
        (by split <;> omega)
      rw [h1, h2]
      cases r with
      | error k => exact ⟨rfl, h3⟩
      | ok w =>
        simp only
        split
        · exact ⟨rfl, h3⟩
        · exact devPeekFillD_ok hn fuel h3
    · rw [if_neg hlt, if_neg hlt]
      exact ⟨rfl, hs⟩

omit hg hi hD in
theorem devTakeD_ok (out : Bytes) {s : DevSt σ} (hs : s.buf.Sane h) :
    devTakeD h D out s = devTake D out s ∧ (devTake D out s).2.buf.Sane h ∧
    ∀ bs, (devTake D out s).1 = .ok bs → bs.length = out.length := by
  have key : ∃ d c, (if s.buf.length > 0 then s.buf.consumeInto (min s.buf.length out.length) else .ok ([], s.buf)) = .ok (d, c) ∧
      c.Sane h ∧ d.length ≤ out.length := by
    split
    · obtain ⟨c', h1, h2, h3, h4⟩ := CBuf.consumeInto_ok hs.inv (n := min s.buf.length out.length) (Nat.min_le_left _ _)
      refine ⟨_, c', h1, ⟨h2, by rw [h4]; exact hs.cap⟩, ?_⟩
      simp only [List.length_take]
      omega
    · exact ⟨[], s.buf, rfl, hs, by simp⟩
  obtain ⟨d, c, h1, h2, h3⟩ := key
  have heq : (if s.buf.length > 0 then s.buf.consumeIntoD h (min s.buf.length out.length) else .ok ([], s.buf)) = .ok (d, c) := by
    rw [CBuf.consumeIntoD_ok hh hs]; exact h1
  unfold devTakeD devTake
  simp only [heq, h1]
  have m1 := D.exact_len (out.drop d.length) s.dev
  generalize D.readExact (out.drop d.length) s.dev = ra at *
  obtain ⟨x, a', s1⟩ := ra
  simp only [List.length_drop] at m1
  refine ⟨rfl, ?_⟩
  split
  · refine ⟨h2, fun bs hb => ?_⟩
    cases hb
    omega
  · cases x with
    | error k => exact ⟨h2, fun bs hb => by cases hb⟩
    | ok u =>
      refine ⟨h2, fun bs hb => ?_⟩
      cases hb
      simp only [List.length_append]
      omega

theorem devReadD_ok (n : Nat) {s : DevSt σ} (hs : s.buf.Sane h) :
    devReadD h D junk grow n s = devRead D junk grow n s ∧ (devRead D junk grow n s).2.buf.Sane h ∧
    ∀ bs, (devRead D junk grow n s).1 = .ok bs → bs.length = n := by
  unfold devReadD devRead
  simp only
  rw [CBuf.consumeIntoD_ok hh hs]
  by_cases hn : s.buf.length ≥ n
  · simp only [hn, if_true]
    obtain ⟨c', h1, h2, h3, h4⟩ := CBuf.consumeInto_ok hs.inv hn
    rw [h1]
    refine ⟨rfl, ⟨h2, by rw [h4]; exact hs.cap⟩, fun bs hb => ?_⟩
    cases hb
    simp
    omega
  · simp only [hn, if_false]
    obtain ⟨f1, f2⟩ := devFillD_ok (junk := junk) hh hD hg hi n (s.buf.capacity + 1) (s := { s with used := s.used + n }) hs
    have ft := fun (s' : DevSt σ) hs' => devTakeD_ok (D := D) hh (fresh junk s.used n) (s := s') hs'
    simp only [fresh_length] at ft
    split
    · rw [f1]
      generalize devFill D junk grow n (s.buf.capacity + 1) { s with used := s.used + n } = r at *
      obtain ⟨x, s'⟩ := r
      cases x with
      | error er => exact ⟨rfl, f2, fun bs hb => by cases hb⟩
      | ok u => exact ft s' f2
    · exact ft _ hs

theorem devPeekD_ok {n : Nat} (hn : n ≤ h.isizeMax) {s : DevSt σ} (hs : s.buf.Sane h) :
    devPeekD h D junk grow n s = devPeek D junk grow n s ∧ (devPeek D junk grow n s).2.buf.Sane h ∧
    ∀ bs, (devPeek D junk grow n s).1 = .ok bs → bs.length = n := by
  unfold devPeekD devPeek
  obtain ⟨f1, f2⟩ := devPeekFillD_ok (junk := junk) hh hD hg hi hn (n + 1) hs
  rw [f1]
  generalize devPeekFill D junk grow n (n + 1) s = r at *
  obtain ⟨x, s'⟩ := r
  cases x with
  | error er => exact ⟨rfl, f2, fun bs hb => by cases hb⟩
  | ok u =>
    simp only
    simp only at f2
    rw [CBuf.asSlicesOfLengthD_ok hh f2]
    refine ⟨rfl, ?_⟩
    cases hsl : s'.buf.asSlicesOfLength n with
    | error p => exact ⟨f2, fun bs hb => by cases hb⟩
    | ok r =>
      obtain ⟨a, b⟩ := r
      simp only
      cases hc : copyOut n a b with
      | error p => exact ⟨f2, fun bs hb => by cases hb⟩
      | ok out =>
        refine ⟨f2, fun bs hb => ?_⟩
        cases hb
        unfold copyOut at hc
        cases b with
        | none => simp only at hc; split at hc <;> simp at hc; subst hc; assumption
        | some b => simp only at hc; split at hc <;> simp at hc; subst hc; simpa

theorem devSkipD_ok : ∀ (fuel n : Nat) {s : DevSt σ}, s.buf.Sane h →
    skipLoopD (devReadD h D junk grow) fuel n s = skipLoop (devRead D junk grow) fuel n s ∧
    (skipLoop (devRead D junk grow) fuel n s).2.buf.Sane h
  | 0, _, _, hs => ⟨rfl, hs⟩
  | fuel + 1, n, s, hs => by
    unfold skipLoopD skipLoop
    by_cases hn : n > 0
    · rw [if_pos hn, if_pos hn]
      simp only
      obtain ⟨f1, f2, _⟩ := devReadD_ok (junk := junk) hh hD hg hi (if n < 1024 then n else 1024) hs
      rw [f1, subD_ok (by split <;> omega)]
      generalize devRead D junk grow (if n < 1024 then n else 1024) s = r at *
      obtain ⟨x, s'⟩ := r
      cases x with
      | error er => exact ⟨rfl, f2⟩
      | ok d => exact devSkipD_ok fuel _ f2
    · rw [if_neg hn, if_neg hn]
      exact ⟨rfl, hs⟩

end
end Verif
