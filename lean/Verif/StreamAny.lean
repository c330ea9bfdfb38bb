import Verif.ReadersLawful

/-!
# Stream readers on arbitrary sources

The counterpart of `ReadersLawful` for sources which may fail, be interrupted
or report a spurious end of file at any call.
-/

namespace Verif

/-- The calls made between two states of a source: `evs'` is what is left of
`evs`, and none of the calls made failed, except by interruption. -/
def Quiet (evs evs' : List Ev) : Prop :=
  ∃ pre, evs = pre ++ evs' ∧ ∀ k, .fault k ∈ pre → k = .interrupted

theorem Quiet.refl (evs : List Ev) : Quiet evs evs := ⟨[], rfl, by simp⟩

theorem Quiet.trans {a b c : List Ev} (h1 : Quiet a b) (h2 : Quiet b c) : Quiet a c := by
  obtain ⟨p, rfl, hp⟩ := h1
  obtain ⟨q, rfl, hq⟩ := h2
  refine ⟨p ++ q, by simp, ?_⟩
  intro k hk
  rcases List.mem_append.mp hk with hk | hk
  · exact hp k hk
  · exact hq k hk

theorem Quiet.mem {a b : List Ev} (h : Quiet a b) {ev : Ev} (hb : ev ∈ b) : ev ∈ a := by
  obtain ⟨p, rfl, _⟩ := h
  exact List.mem_append_right _ hb

/-- Why a stream operation needing `n` of the bytes `pend` failed with `e`:
the bytes are not there (or the source claimed so), or the last call
of the source failed with that error. -/
def StreamFails (pend : Bytes) (evs evs' : List Ev) (n : Nat) (e : Err) : Prop :=
  ((e = .unexpectedEndOfInput ∨ e = .io .unexpectedEof) ∧
    (pend.length < n ∨ .give 0 ∈ evs) ∧ Quiet evs evs') ∨
  (∃ k, e = .io k ∧ Quiet evs (.fault k :: evs'))

theorem Src.read_any (n : Nat) (hn : 0 < n) (s : Src) :
    (∃ m s', s.read n = (.ok (s.data.take m), s') ∧ s'.data = s.data.drop m ∧ m ≤ n ∧ Quiet s.evs s'.evs ∧
      (m = 0 → .give 0 ∈ s.evs) ∧ s'.evs.length ≤ s.evs.length) ∨
    (∃ k s', s.read n = (.error k, s') ∧ s'.data = s.data ∧ s.evs = .fault k :: s'.evs) := by
  unfold Src.read
  rcases hev : s.evs with _ | ⟨ev, evs⟩
  · exact .inl ⟨n, _, rfl, rfl, Nat.le_refl _, Quiet.refl _, by omega, by simp⟩
  · cases ev with
    | give m =>
      refine .inl ⟨min m n, _, rfl, rfl, by omega, ⟨[.give m], rfl, by simp⟩, ?_, by simp⟩
      intro h
      have : m = 0 := by omega
      simp [this]
    | fault k => exact .inr ⟨k, _, rfl, rfl, rfl⟩

/-- The loop of `read_exact` on any source: all bytes wanted, or an error
after taking some. -/
theorem Src.readExactLoop_any (fuel n : Nat) (acc : Bytes) (s : Src) (hf : s.evs.length + n + 2 ≤ fuel) :
    (∃ s', Src.readExactLoop fuel n acc s = (.ok (acc ++ s.data.take n), s') ∧ n ≤ s.data.length ∧
      s'.data = s.data.drop n ∧ Quiet s.evs s'.evs) ∨
    (∃ e s' k, Src.readExactLoop fuel n acc s = (.error e, s') ∧ s'.data = s.data.drop k ∧
      StreamFails s.data s.evs s'.evs n e ∧ e ≠ .io .interrupted) := by
  induction fuel generalizing n acc s with
  | zero => omega
  | succ fuel ih =>
    unfold Src.readExactLoop
    by_cases hn : n = 0
    · subst hn
      exact .inl ⟨s, by simp, by omega, by simp, Quiet.refl _⟩
    · simp only [hn, if_false]
      rcases Src.read_any n (by omega) s with ⟨m, s1, h1, h2, h3, h4, h5, h6⟩ | ⟨k, s1, h1, h2, h3⟩
      · simp only [h1]
        by_cases hd : s.data.take m = []
        · simp only [hd, if_true]
          refine .inr ⟨_, s1, m, rfl, h2, .inl ⟨.inr rfl, ?_, h4⟩, by simp⟩
          rcases Nat.eq_zero_or_pos m with hm | hm
          · exact .inr (h5 hm)
          · left
            have : s.data = [] := by
              cases hdd : s.data with
              | nil => rfl
              | cons a l => rw [hdd] at hd; cases m <;> simp_all
            simp [this]; omega
        · simp only [hd, if_false]
          have hlen : 0 < (s.data.take m).length := List.length_pos_iff.mpr hd
          simp only [List.length_take] at hlen ⊢
          rcases ih (n - min m s.data.length) (acc ++ s.data.take m) s1 (by omega) with
            ⟨s2, g1, g2, g3, g4⟩ | ⟨e, s2, k, g1, g2, g3, g4⟩
          · rw [h2, List.length_drop] at g2
            refine .inl ⟨s2, ?_, by omega, ?_, h4.trans g4⟩
            · rw [g1, h2]
              have hmin : min m s.data.length = m := by omega
              rw [hmin]
              congr 2
              rw [List.append_assoc]
              congr 1
              conv => rhs; rw [show n = m + (n - m) by omega]
              rw [List.take_add]
            · rw [g3, h2, List.drop_drop]; congr 1; omega
          · refine .inr ⟨e, s2, m + k, g1, by rw [g2, h2, List.drop_drop], ?_, g4⟩
            rcases g3 with ⟨ge, gp, gq⟩ | ⟨k', rfl, gq⟩
            · refine .inl ⟨ge, ?_, h4.trans gq⟩
              rcases gp with gp | gp
              · left; rw [h2, List.length_drop] at gp; omega
              · exact .inr (h4.mem gp)
            · exact .inr ⟨k', rfl, h4.trans gq⟩
      · simp only [h1]
        by_cases hk : k = .interrupted
        · subst hk
          simp only
          have hq : Quiet s.evs s1.evs := ⟨[.fault .interrupted], h3, by simp⟩
          have hl : s.evs.length = s1.evs.length + 1 := by rw [h3]; simp
          rcases ih n acc s1 (by omega) with ⟨s2, g1, g2, g3, g4⟩ | ⟨e, s2, k, g1, g2, g3, g4⟩
          · rw [h2] at g1 g2 g3
            exact .inl ⟨s2, g1, g2, g3, hq.trans g4⟩
          · rw [h2] at g2 g3
            refine .inr ⟨e, s2, k, g1, g2, ?_, g4⟩
            rcases g3 with ⟨ge, gp, gq⟩ | ⟨k', rfl, gq⟩
            · refine .inl ⟨ge, ?_, hq.trans gq⟩
              rcases gp with gp | gp
              · exact .inl gp
              · exact .inr (hq.mem gp)
            · exact .inr ⟨k', rfl, hq.trans gq⟩
        · refine .inr ⟨.io k, s1, 0, ?_, by simpa using h2, .inr ⟨k, rfl, ⟨[], h3, by simp⟩⟩, by simpa using hk⟩
          cases k <;> simp_all

theorem Src.readExact_any (n : Nat) (s : Src) :
    (∃ s', s.readExact n = (.ok (s.data.take n), s') ∧ n ≤ s.data.length ∧
      s'.data = s.data.drop n ∧ Quiet s.evs s'.evs) ∨
    (∃ e s' k, s.readExact n = (.error e, s') ∧ s'.data = s.data.drop k ∧
      StreamFails s.data s.evs s'.evs n e ∧ e ≠ .io .interrupted) := by
  have := Src.readExactLoop_any (s.evs.length + n + 2) n [] s (Nat.le_refl _)
  simpa [Src.readExact] using this

/-- One append to the buffer from any source: bytes move from the source to
the buffer, or the call fails and nothing moves. -/
theorem append_any {grow : Nat → Nat} (hg : ∀ n, n ≤ grow n) {s : StreamSt} (hs : s.buf.Inv)
    {size : Nat} (hsize : 0 < size) :
    (∃ w buf src, s.buf.tryAppendWith grow size Src.read s.src = .ok (.ok w, buf, src) ∧
      buf.Inv ∧ buf.content ++ src.data = s.buf.content ++ s.src.data ∧
      buf.length = s.buf.length + w ∧ (w = 0 → s.src.data = [] ∨ .give 0 ∈ s.src.evs) ∧
      (s.buf.length + size ≤ s.buf.capacity → buf.capacity = s.buf.capacity) ∧
      s.buf.capacity ≤ buf.capacity ∧
      src.data.length + w = s.src.data.length ∧ w ≤ size ∧ Quiet s.src.evs src.evs) ∨
    (∃ k buf src, s.buf.tryAppendWith grow size Src.read s.src = .ok (.error k, buf, src) ∧
      buf.Inv ∧ buf.content = s.buf.content ∧ src.data = s.src.data ∧ s.src.evs = .fault k :: src.evs ∧
      s.buf.capacity ≤ buf.capacity ∧
      (s.buf.length + size ≤ s.buf.capacity → buf.capacity = s.buf.capacity)) := by
  obtain ⟨n, hn, hn2, h⟩ := CBuf.tryAppendWith_ok hg hs hsize Src.read (fun n s d s' h => Src.read_len h) s.src
  rcases Src.read_any n hn s.src with ⟨m, src', h1, h2, h3, h4, h5, h6⟩ | ⟨k, src', h1, h2, h3⟩
  · rw [h1] at h
    obtain ⟨c', g1, g2, g3, g4, g5⟩ := h
    have hl := congrArg List.length g3
    simp only [CBuf.content_length, List.length_append] at hl
    refine .inl ⟨_, c', src', g1, g2, ?_, hl, ?_, g5, g4, ?_, ?_, h4⟩
    · rw [g3, h2, List.append_assoc, List.take_append_drop]
    · intro hw
      rcases Nat.eq_zero_or_pos m with hm | hm
      · exact .inr (h5 hm)
      · left
        simp only [List.length_take] at hw
        exact List.length_eq_zero_iff.mp (by omega)
    · rw [h2]; simp; omega
    · simp; omega
  · rw [h1] at h
    obtain ⟨c', g1, g2, g3, g4, g5⟩ := h
    exact .inr ⟨k, c', src', g1, g2, g3, h2, h3, g4, g5⟩

theorem content_len_eq {a b : CBuf} (h : a.content = b.content) : a.length = b.length := by
  have := congrArg List.length h; simpa using this

/-- Filling the buffer loses nothing, whatever the source does. -/
theorem streamFill_any {grow : Nat → Nat} (hg : ∀ n, n ≤ grow n) (n fuel : Nat) (s : StreamSt) (hs : s.buf.Inv)
    (hn : n < s.buf.capacity) (hlt : s.buf.length < n) (hf : s.buf.capacity < s.buf.length + fuel) :
    (∃ s', streamFill grow n fuel s = (.ok (), s') ∧ s'.buf.Inv ∧ s'.pend = s.pend ∧
      n ≤ s'.buf.length ∧ s'.buffering = s.buffering ∧ Quiet s.src.evs s'.src.evs) ∨
    (∃ e s', streamFill grow n fuel s = (.error e, s') ∧ s'.buf.Inv ∧ s'.pend = s.pend ∧
      s'.buffering = s.buffering ∧ StreamFails s.pend s.src.evs s'.src.evs n e) := by
  induction fuel generalizing s with
  | zero => omega
  | succ fuel ih =>
    unfold streamFill
    have hlt2 : s.buf.length < s.buf.capacity := by omega
    simp only [hlt2, if_true]
    rcases append_any hg hs (size := s.buf.capacity - s.buf.length) (by omega) with
      ⟨w, buf, src, h1, h2, h3, h4, h5, h6, h7, h8, h9, h10⟩ | ⟨k, buf, src, h1, h2, h3, h4, h5, h6, h7⟩
    · simp only [h1]
      have hcap : buf.capacity = s.buf.capacity := h6 (by omega)
      by_cases hw : w = 0
      · simp only [hw, if_true]
        rw [if_pos (by omega)]
        refine .inr ⟨_, _, rfl, h2, h3, rfl, .inl ⟨.inl rfl, ?_, h10⟩⟩
        rcases h5 hw with hd | hd
        · left; simp [StreamSt.pend, hd]; exact hlt
        · exact .inr hd
      · simp only [hw, if_false]
        by_cases hge : buf.length ≥ n
        · rw [if_pos hge]
          exact .inl ⟨_, rfl, h2, h3, hge, rfl, h10⟩
        · rw [if_neg hge]
          rcases ih { s with buf := buf, src := src } h2 (by simp only; omega) (by simp only; omega) (by simp only; omega) with
            ⟨s', g1, g2, g3, g4, g5, g6⟩ | ⟨e, s', g1, g2, g3, g4, g5⟩
          · exact .inl ⟨s', g1, g2, g3.trans h3, g4, g5, h10.trans g6⟩
          · refine .inr ⟨e, s', g1, g2, g3.trans h3, g4, ?_⟩
            have hp : ({ s with buf := buf, src := src } : StreamSt).pend = s.pend := h3
            rw [hp] at g5
            rcases g5 with ⟨ge, gp, gq⟩ | ⟨k', rfl, gq⟩
            · exact .inl ⟨ge, gp.imp_right h10.mem, h10.trans gq⟩
            · exact .inr ⟨k', rfl, h10.trans gq⟩
    · simp only [h1]
      exact .inr ⟨_, _, rfl, h2, by simp [StreamSt.pend, h3, h4], rfl, .inr ⟨k, rfl, ⟨[], h5, by simp⟩⟩⟩

theorem streamTake_any (n : Nat) (s : StreamSt) (hs : s.buf.Inv) :
    (∃ s', streamTake n s = (.ok (s.pend.take n), s') ∧ n ≤ s.pend.length ∧ s'.buf.Inv ∧
      s'.pend = s.pend.drop n ∧ s'.buffering = s.buffering ∧ Quiet s.src.evs s'.src.evs) ∨
    (∃ e s' k, streamTake n s = (.error e, s') ∧ s'.buf.Inv ∧ s'.pend = s.pend.drop k ∧
      s'.buffering = s.buffering ∧ StreamFails s.pend s.src.evs s'.src.evs n e ∧ e ≠ .io .interrupted) := by
  unfold streamTake
  have hr : ∃ buf, (if s.buf.length > 0 then s.buf.consumeInto (min s.buf.length n)
      else Except.ok ([], s.buf)) = .ok (s.buf.content.take (min s.buf.length n), buf) ∧ buf.Inv ∧
      buf.content = s.buf.content.drop (min s.buf.length n) := by
    by_cases h0 : s.buf.length > 0
    · obtain ⟨c', h1, h2, h3, _⟩ := CBuf.consumeInto_ok hs (Nat.min_le_left s.buf.length n)
      exact ⟨c', by simp [h0, h1], h2, h3⟩
    · have he : s.buf.content = [] := List.length_eq_zero_iff.mp (by simp; omega)
      exact ⟨s.buf, by simp [h0, he], hs, by simp [he]⟩
  obtain ⟨buf, h1, h2, h3⟩ := hr
  simp only [h1]
  have hol : (s.buf.content.take (min s.buf.length n)).length = min s.buf.length n := by simp
  simp only [hol]
  by_cases hle : n ≤ s.buf.length
  · have hm : min s.buf.length n = n := by omega
    simp only [hm, Nat.sub_self, if_true]
    refine .inl ⟨{ s with buf := buf }, ?_, by simp [StreamSt.pend]; omega, h2, ?_, rfl, Quiet.refl _⟩
    · simp only [StreamSt.pend]
      rw [List.take_append_of_le_length (by simpa using hle)]
    · simp only [StreamSt.pend, h3, hm]
      rw [List.drop_append_of_le_length (by simpa using hle)]
  · have hm : min s.buf.length n = s.buf.length := by omega
    have hc : s.buf.content.take s.buf.length = s.buf.content := List.take_of_length_le (by simp)
    have hc' : buf.content = [] := by rw [h3, hm]; exact List.drop_of_length_le (by simp)
    rw [hm, hc, if_neg (by omega)]
    rcases Src.readExact_any (n - s.buf.length) s.src with ⟨src, g1, g2, g3, g4⟩ | ⟨e, src, k, g1, g2, g3, g4⟩
    · simp only [g1]
      refine .inl ⟨{ s with buf := buf, src := src }, ?_, by simp [StreamSt.pend]; omega, h2, ?_, rfl, g4⟩
      · simp only [StreamSt.pend]
        rw [List.take_append, List.take_of_length_le (l := s.buf.content) (by simp; omega)]
        simp
      · simp only [StreamSt.pend, hc', g3, List.nil_append]
        rw [List.drop_append, List.drop_of_length_le (l := s.buf.content) (by simp; try omega)]
        simp
    · simp only [g1]
      refine .inr ⟨e, _, s.buf.length + k, rfl, h2, ?_, rfl, ?_, g4⟩
      · simp only [StreamSt.pend, hc', g2, List.nil_append]
        rw [List.drop_append, List.drop_of_length_le (l := s.buf.content) (by simp; try omega)]
        simp
      · rcases g3 with ⟨ge, gp, gq⟩ | ⟨k', rfl, gq⟩
        · refine .inl ⟨ge, ?_, gq⟩
          rcases gp with gp | gp
          · left; simp [StreamSt.pend]; omega
          · exact .inr gp
        · exact .inr ⟨k', rfl, gq⟩

/-- `read_bytes` of a stream reader, on any source: the next `n` bytes, or an
error for a reason. -/
theorem streamRead_any {grow : Nat → Nat} (hg : ∀ n, n ≤ grow n) (n : Nat) (s : StreamSt) (hs : s.buf.Inv) :
    (∃ s', streamRead grow n s = (.ok (s.pend.take n), s') ∧ n ≤ s.pend.length ∧ s'.buf.Inv ∧
      s'.pend = s.pend.drop n ∧ s'.buffering = s.buffering ∧ Quiet s.src.evs s'.src.evs) ∨
    (∃ e s' k, streamRead grow n s = (.error e, s') ∧ s'.buf.Inv ∧ s'.pend = s.pend.drop k ∧
      s'.buffering = s.buffering ∧ StreamFails s.pend s.src.evs s'.src.evs n e ∧
      (s.buffering = false → e ≠ .io .interrupted)) := by
  unfold streamRead
  by_cases hle : s.buf.length ≥ n
  · simp only [hle, if_true]
    obtain ⟨c', h1, h2, h3, _⟩ := CBuf.consumeInto_ok hs hle
    simp only [h1]
    refine .inl ⟨{ s with buf := c' }, ?_, by simp [StreamSt.pend]; omega, h2, ?_, rfl, Quiet.refl _⟩
    · simp only [StreamSt.pend]
      rw [List.take_append_of_le_length (by simpa using hle)]
    · simp only [StreamSt.pend, h3]
      rw [List.drop_append_of_le_length (by simpa using hle)]
  · simp only [hle, if_false]
    unfold streamReadSlow
    by_cases hb : s.buffering && decide (n < s.buf.capacity)
    · simp only [hb, if_true]
      simp only [Bool.and_eq_true, decide_eq_true_eq] at hb
      have hlc := hs.len_le
      rcases streamFill_any hg n (s.buf.capacity + 1) s hs hb.2 (by omega) (by omega) with
        ⟨s1, g1, g2, g3, g4, g5, g6⟩ | ⟨e, s1, g1, g2, g3, g4, g5⟩
      · simp only [g1]
        rcases streamTake_any n s1 g2 with ⟨s2, f1, f2, f3, f4, f5, f6⟩ | ⟨e, s2, k, f1, f2, f3, f4, f5, f6⟩
        · rw [g3] at f1 f2 f4
          exact .inl ⟨s2, f1, f2, f3, f4, f5.trans g5, g6.trans f6⟩
        · rw [g3] at f3 f5
          refine .inr ⟨e, s2, k, f1, f2, f3, f4.trans g5, ?_, fun _ => f6⟩
          rcases f5 with ⟨ge, gp, gq⟩ | ⟨k', rfl, gq⟩
          · exact .inl ⟨ge, gp.imp_right g6.mem, g6.trans gq⟩
          · exact .inr ⟨k', rfl, g6.trans gq⟩
      · simp only [g1]
        exact .inr ⟨e, s1, 0, rfl, g2, by simpa using g3, g4, g5, fun hh => by rw [hb.1] at hh; cases hh⟩
    · simp only [hb, if_false, Bool.false_eq_true]
      rcases streamTake_any n s hs with ⟨s2, f1, f2, f3, f4, f5, f6⟩ | ⟨e, s2, k, f1, f2, f3, f4, f5, f6⟩
      · exact .inl ⟨s2, f1, f2, f3, f4, f5, f6⟩
      · exact .inr ⟨e, s2, k, f1, f2, f3, f4, f5, fun _ => f6⟩

theorem streamPeekFill_any {grow : Nat → Nat} (hg : ∀ n, n ≤ grow n) (n fuel : Nat) (s : StreamSt) (hs : s.buf.Inv)
    (hf : n < s.buf.length + fuel) (hf0 : 0 < fuel) :
    (∃ s', streamPeekFill grow n fuel s = (.ok (), s') ∧ s'.buf.Inv ∧ s'.pend = s.pend ∧
      n ≤ s'.buf.length ∧ s'.buffering = s.buffering ∧ Quiet s.src.evs s'.src.evs) ∨
    (∃ e s', streamPeekFill grow n fuel s = (.error e, s') ∧ s'.buf.Inv ∧ s'.pend = s.pend ∧
      s'.buffering = s.buffering ∧ StreamFails s.pend s.src.evs s'.src.evs n e) := by
  induction fuel generalizing s with
  | zero => omega
  | succ fuel ih =>
    unfold streamPeekFill
    by_cases hlt : s.buf.length < n
    · simp only [hlt, if_true]
      generalize hch : (if s.buffering = true then max (n - s.buf.length) (s.buf.capacity - s.buf.length)
        else n - s.buf.length) = chunk
      have hpos : 0 < chunk := by subst hch; split <;> omega
      rcases append_any hg hs hpos with
        ⟨w, buf, src, h1, h2, h3, h4, h5, h6, h7, h8, h9, h10⟩ | ⟨k, buf, src, h1, h2, h3, h4, h5, h6, h7⟩
      · simp only [h1]
        by_cases hw : w = 0
        · simp only [hw, if_true]
          refine .inr ⟨_, _, rfl, h2, h3, rfl, .inl ⟨.inl rfl, ?_, h10⟩⟩
          rcases h5 hw with hd | hd
          · left; simp [StreamSt.pend, hd]; exact hlt
          · exact .inr hd
        · simp only [hw, if_false]
          rcases ih { s with buf := buf, src := src } h2 (by simp only; omega) (by omega) with
            ⟨s', g1, g2, g3, g4, g5, g6⟩ | ⟨e, s', g1, g2, g3, g4, g5⟩
          · exact .inl ⟨s', g1, g2, g3.trans h3, g4, g5, h10.trans g6⟩
          · refine .inr ⟨e, s', g1, g2, g3.trans h3, g4, ?_⟩
            have hp : ({ s with buf := buf, src := src } : StreamSt).pend = s.pend := h3
            rw [hp] at g5
            rcases g5 with ⟨ge, gp, gq⟩ | ⟨k', rfl, gq⟩
            · exact .inl ⟨ge, gp.imp_right h10.mem, h10.trans gq⟩
            · exact .inr ⟨k', rfl, h10.trans gq⟩
      · simp only [h1]
        exact .inr ⟨_, _, rfl, h2, by simp [StreamSt.pend, h3, h4], rfl, .inr ⟨k, rfl, ⟨[], h5, by simp⟩⟩⟩
    · simp only [hlt, if_false]
      exact .inl ⟨s, rfl, hs, rfl, by omega, rfl, Quiet.refl _⟩

/-- `peek_bytes` of a stream reader, on any source. -/
theorem streamPeek_any {grow : Nat → Nat} (hg : ∀ n, n ≤ grow n) (n : Nat) (s : StreamSt) (hs : s.buf.Inv) :
    (∃ s', streamPeek grow n s = (.ok (s.pend.take n), s') ∧ n ≤ s.pend.length ∧ s'.buf.Inv ∧
      s'.pend = s.pend ∧ s'.buffering = s.buffering ∧ Quiet s.src.evs s'.src.evs) ∨
    (∃ e s', streamPeek grow n s = (.error e, s') ∧ s'.buf.Inv ∧ s'.pend = s.pend ∧
      s'.buffering = s.buffering ∧ StreamFails s.pend s.src.evs s'.src.evs n e) := by
  unfold streamPeek
  rcases streamPeekFill_any hg n (n + 1) s hs (by omega) (by omega) with
    ⟨s1, g1, g2, g3, g4, g5, g6⟩ | ⟨e, s1, g1, g2, g3, g4, g5⟩
  · simp only [g1]
    obtain ⟨a, b, h1, h2⟩ := CBuf.asSlicesOfLength_ok g2 g4
    simp only [h1, h2]
    refine .inl ⟨s1, ?_, ?_, g2, g3, g5, g6⟩
    · rw [← g3]
      simp only [StreamSt.pend]
      rw [List.take_append_of_le_length (by simpa using g4)]
    · rw [← g3]; simp [StreamSt.pend]; omega
  · simp only [g1]
    exact .inr ⟨e, s1, rfl, g2, g3, g4, g5⟩

/-- `skip_bytes` of a stream reader, on any source. -/
theorem skipLoop_any {grow : Nat → Nat} (hg : ∀ n, n ≤ grow n) (fuel n : Nat) (s : StreamSt) (hs : s.buf.Inv)
    (hf : n < fuel) :
    (∃ s', skipLoop (streamRead grow) fuel n s = (.ok (), s') ∧ n ≤ s.pend.length ∧ s'.buf.Inv ∧
      s'.pend = s.pend.drop n ∧ s'.buffering = s.buffering ∧ Quiet s.src.evs s'.src.evs) ∨
    (∃ e s' k, skipLoop (streamRead grow) fuel n s = (.error e, s') ∧ s'.buf.Inv ∧ s'.pend = s.pend.drop k ∧
      s'.buffering = s.buffering ∧ StreamFails s.pend s.src.evs s'.src.evs n e ∧
      (s.buffering = false → e ≠ .io .interrupted)) := by
  induction fuel generalizing n s with
  | zero => omega
  | succ fuel ih =>
    unfold skipLoop
    by_cases hn : n > 0
    · simp only [hn, if_true]
      generalize hch : (if n < 1024 then n else 1024) = chunk
      have hpos : 0 < chunk ∧ chunk ≤ n := by subst hch; split <;> omega
      rcases streamRead_any hg chunk s hs with ⟨s1, h1, h2, h3, h4, h5, h6⟩ | ⟨e, s1, k, h1, h2, h3, h4, h5, h6⟩
      · simp only [h1]
        rcases ih (n - chunk) s1 h3 (by omega) with ⟨s2, g1, g2, g3, g4, g5, g6⟩ | ⟨e, s2, k, g1, g2, g3, g4, g5, g6⟩
        · rw [h4] at g2 g4
          rw [List.length_drop] at g2
          refine .inl ⟨s2, g1, by omega, g3, ?_, g5.trans h5, h6.trans g6⟩
          rw [g4, List.drop_drop]; congr 1; omega
        · rw [h4] at g3 g5
          refine .inr ⟨e, s2, chunk + k, g1, g2, by rw [g3, List.drop_drop], g4.trans h5, ?_,
            fun hb => g6 (h5.trans hb)⟩
          rcases g5 with ⟨ge, gp, gq⟩ | ⟨k', rfl, gq⟩
          · refine .inl ⟨ge, ?_, h6.trans gq⟩
            rcases gp with gp | gp
            · left; rw [List.length_drop] at gp; omega
            · exact .inr (h6.mem gp)
          · exact .inr ⟨k', rfl, h6.trans gq⟩
      · simp only [h1]
        refine .inr ⟨e, s1, k, rfl, h2, h3, h4, ?_, h6⟩
        rcases h5 with ⟨ge, gp, gq⟩ | h5
        · exact .inl ⟨ge, gp.imp_left (by omega), gq⟩
        · exact .inr h5
    · simp only [hn, if_false]
      have : n = 0 := by omega
      subst this
      exact .inl ⟨s, rfl, by omega, hs, by simp, rfl, Quiet.refl _⟩

end Verif
