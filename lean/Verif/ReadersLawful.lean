import Verif.Readers

/-!
# All readers deliver their input in order
-/

namespace Verif

/-! ## Buffer readers -/

/-- Invariant of the buffer readers. -/
structure BufSt.Inv (h : Host) (s : BufSt) : Prop where
  lo : s.base ≤ s.ptr
  hi : s.ptr ≤ s.stop
  stop_eq : s.stop = s.base + s.buf.length
  fits : s.stop ≤ h.usizeMax
  trace_ok : ∀ a ∈ s.trace, s.base ≤ a.1 ∧ a.1 + a.2 ≤ s.base + s.buf.length

/-- The unread part of the buffer. -/
def BufSt.pend (s : BufSt) : Bytes := s.buf.drop (s.ptr - s.base)

theorem BufSt.init_inv {h : Host} {base : Nat} {buf : Bytes} (hb : base + buf.length ≤ h.usizeMax) :
    (BufSt.init base buf).Inv h :=
  ⟨Nat.le_refl _, by simp [BufSt.init], rfl, hb, by simp [BufSt.init]⟩

theorem BufSt.init_pend (base : Nat) (buf : Bytes) : (BufSt.init base buf).pend = buf := by
  simp [BufSt.pend, BufSt.init]

theorem wsub_eq {h : Host} {a b : Nat} (hab : b ≤ a) (ha : a ≤ h.usizeMax) : wsub h a b = a - b := by
  unfold wsub
  have : a + (h.usizeMax + 1) - b = (a - b) + (h.usizeMax + 1) := by omega
  rw [this, Nat.add_mod_right, Nat.mod_eq_of_lt (by omega)]

theorem BufSt.Inv.wsub {h : Host} {s : BufSt} (hs : s.Inv h) :
    wsub h s.stop s.ptr = s.pend.length := by
  rw [wsub_eq hs.hi hs.fits]
  have := hs.lo; have := hs.hi; have := hs.stop_eq
  simp [BufSt.pend]; omega

theorem bufCanRead_eq {h : Host} {s : BufSt} (hs : s.Inv h) (n : Nat) :
    bufCanRead h n s = some (decide (n ≤ s.pend.length)) := by
  unfold bufCanRead
  rw [hs.wsub]

theorem BufSt.load_eq (s : BufSt) (n : Nat) : s.load s.ptr n = s.pend.take n := rfl

theorem BufSt.advance_inv {h : Host} {s : BufSt} (hs : s.Inv h) {n : Nat} (hn : n ≤ s.pend.length)
    {tr : List (Nat × Nat)} (htr : tr = s.trace ∨ tr = (s.ptr, n) :: s.trace) :
    ({ s with ptr := s.ptr + n, trace := tr } : BufSt).Inv h ∧
    ({ s with ptr := s.ptr + n, trace := tr } : BufSt).pend = s.pend.drop n := by
  obtain ⟨h1, h2, h3, h4, h5⟩ := hs
  simp [BufSt.pend] at hn
  refine ⟨⟨?_, ?_, h3, h4, ?_⟩, ?_⟩
  · simp only; omega
  · simp only; omega
  · rcases htr with rfl | rfl
    · exact h5
    · intro a ha
      simp at ha
      rcases ha with rfl | ha
      · simp only; omega
      · exact h5 a ha
  · simp only [BufSt.pend, List.drop_drop]
    congr 1; omega

theorem BufSt.touch_inv {h : Host} {s : BufSt} (hs : s.Inv h) {n : Nat} (hn : n ≤ s.pend.length) :
    ({ s with trace := (s.ptr, n) :: s.trace } : BufSt).Inv h := by
  obtain ⟨h1, h2, h3, h4, h5⟩ := hs
  simp [BufSt.pend] at hn
  refine ⟨h1, h2, h3, h4, ?_⟩
  intro a ha
  simp at ha
  rcases ha with rfl | ha
  · simp only; omega
  · exact h5 a ha

theorem bufRead_ok {h : Host} {s : BufSt} (hs : s.Inv h) {n : Nat} (hn : n ≤ s.pend.length) :
    ∃ s', bufRead h n s = (.ok (s.pend.take n), s') ∧ s'.Inv h ∧ s'.pend = s.pend.drop n := by
  unfold bufRead
  rw [bufCanRead_eq hs]
  simp only [hn, decide_true, reduceCtorEq, if_false, Option.some.injEq]
  exact ⟨_, rfl, BufSt.advance_inv hs hn (Or.inr rfl)⟩

theorem bufRead_err {h : Host} {s : BufSt} (hs : s.Inv h) {n : Nat} (hn : s.pend.length < n) :
    bufRead h n s = (.error .unexpectedEndOfInput, s) := by
  unfold bufRead
  rw [bufCanRead_eq hs]
  have : ¬ n ≤ s.pend.length := by omega
  simp [this]

theorem bufBorrow_cases {h : Host} {s : BufSt} (hs : s.Inv h) (n : Nat) :
    (n ≤ s.pend.length ∧ ∃ s', bufBorrow h n s = (some (.ok (s.ptr, s.pend.take n)), s') ∧
      s'.Inv h ∧ s'.pend = s.pend.drop n) ∨
    (s.pend.length < n ∧ bufBorrow h n s = (some (.error .unexpectedEndOfInput), s)) := by
  unfold bufBorrow
  rw [bufCanRead_eq hs]
  by_cases hn : n ≤ s.pend.length
  · left
    simp only [hn, decide_true, reduceCtorEq, if_false, Option.some.injEq]
    exact ⟨trivial, _, rfl, BufSt.advance_inv hs hn (Or.inr rfl)⟩
  · right
    simp [hn]; omega

theorem bufBorrowEof_ok {h : Host} {s : BufSt} (hs : s.Inv h) :
    ∃ s', bufBorrowEof h s = (some (s.ptr, s.pend), s') ∧ s'.Inv h ∧ s'.pend = [] := by
  unfold bufBorrowEof
  rw [hs.wsub]
  have := BufSt.advance_inv hs (n := s.pend.length) (Nat.le_refl _) (Or.inr rfl)
  refine ⟨_, ?_, this.1, ?_⟩
  · show (some (s.ptr, s.load s.ptr s.pend.length), _) = _
    rw [BufSt.load_eq, List.take_length]
  · rw [this.2, List.drop_length]

/-- The zero-copy buffer reader is lawful. -/
theorem bufferReader_lawful (h : Host) : Lawful (bufferReader h) (BufSt.Inv h) BufSt.pend where
  read_ok n s hs hn := bufRead_ok hs hn
  read_err n s hs hn := ⟨_, s, bufRead_err hs hn, rfl, hs, Or.inl rfl⟩
  peek_ok n s hs hn := by
    show ∃ s', bufPeek h n s = _ ∧ _
    unfold bufPeek
    rw [bufCanRead_eq hs]
    simp only [hn, decide_true, reduceCtorEq, if_false, Option.some.injEq]
    exact ⟨_, rfl, BufSt.touch_inv hs hn, rfl⟩
  peek_err n s hs hn := by
    refine ⟨.unexpectedEndOfInput, s, ?_, rfl, hs, rfl⟩
    show bufPeek h n s = _
    unfold bufPeek
    rw [bufCanRead_eq hs]
    have : ¬ n ≤ s.pend.length := by omega
    simp [this]
  skip_ok n s hs hn := by
    show ∃ s', bufSkip h n s = _ ∧ _
    unfold bufSkip
    rw [bufCanRead_eq hs]
    simp only [hn, decide_true, reduceCtorEq, if_false, Option.some.injEq]
    exact ⟨_, rfl, BufSt.advance_inv hs hn (Or.inl rfl)⟩
  skip_err n s hs hn := by
    refine ⟨.unexpectedEndOfInput, s, ?_, rfl, hs, 0, rfl⟩
    show bufSkip h n s = _
    unfold bufSkip
    rw [bufCanRead_eq hs]
    have : ¬ n ≤ s.pend.length := by omega
    simp [this]
  canRead n s hs := Or.inr (bufCanRead_eq hs n)
  borrow n s hs := by
    right
    rcases bufBorrow_cases hs n with ⟨hn, s', h1, h2, h3⟩ | ⟨hn, h1⟩
    · exact Or.inl ⟨hn, _, s', h1, h2, h3⟩
    · exact Or.inr ⟨hn, _, s, h1, rfl, hs, Or.inl rfl⟩
  borrowR n s hs := by
    right
    rcases bufBorrow_cases hs n with ⟨hn, s', h1, h2, h3⟩ | ⟨hn, h1⟩
    · exact Or.inl ⟨hn, _, s', h1, h2, h3⟩
    · exact Or.inr ⟨hn, _, s, h1, rfl, hs, Or.inl rfl⟩
  borrowEof s hs := by
    right
    obtain ⟨s', h1, h2, h3⟩ := bufBorrowEof_ok hs
    exact ⟨_, s', h1, h2, h3⟩

/-- The copying buffer reader is lawful. -/
theorem copyingReader_lawful (h : Host) : Lawful (copyingReader h) (BufSt.Inv h) BufSt.pend where
  read_ok := (bufferReader_lawful h).read_ok
  read_err := (bufferReader_lawful h).read_err
  peek_ok := (bufferReader_lawful h).peek_ok
  peek_err := (bufferReader_lawful h).peek_err
  skip_ok := (bufferReader_lawful h).skip_ok
  skip_err := (bufferReader_lawful h).skip_err
  canRead := (bufferReader_lawful h).canRead
  borrow _ _ _ := Or.inl rfl
  borrowR := (bufferReader_lawful h).borrowR
  borrowEof _ _ := Or.inl rfl

/-! ## Stream readers -/

/-- A source that neither fails nor reports a spurious end of file. -/
def Src.Clean (s : Src) : Prop := ∀ ev ∈ s.evs, ∃ m, ev = .give (m + 1)

theorem Src.read_len {n : Nat} {s s' : Src} {d : Bytes} (h : s.read n = (.ok d, s')) : d.length ≤ n := by
  unfold Src.read at h
  split at h
  · injection h with h1 _
    injection h1 with h1
    subst h1; simp; omega
  · injection h with h1 _
    injection h1 with h1
    subst h1; simp; omega
  · injection h with h1 _
    injection h1

/-- A clean source gives some but not too many of its next bytes. -/
theorem Src.read_clean {n : Nat} {s : Src} (hc : s.Clean) (hn : 0 < n) :
    ∃ m s', s.read n = (.ok (s.data.take m), s') ∧ s'.Clean ∧ s'.data = s.data.drop m ∧ 0 < m ∧ m ≤ n ∧
      s'.evs.length ≤ s.evs.length ∧ (s'.evs.length = s.evs.length → m = n) := by
  unfold Src.read
  rcases hev : s.evs with _ | ⟨ev, evs⟩
  · exact ⟨n, ⟨s.data.drop n, []⟩, rfl, by simp [Src.Clean], rfl, hn, Nat.le_refl _, by simp, fun _ => rfl⟩
  · obtain ⟨m, rfl⟩ := hc ev (by simp [hev])
    refine ⟨min (m + 1) n, ⟨s.data.drop (min (m+1) n), evs⟩, rfl, ?_, rfl, by omega, by omega, by simp, by simp⟩
    intro ev hev'
    exact hc ev (by simp [hev]; right; exact hev')

/-- `read_exact` on a clean source. -/
theorem Src.readExactLoop_clean (fuel n : Nat) (acc : Bytes) (s : Src) (hc : s.Clean)
    (hf : s.evs.length + n + 2 ≤ fuel) :
    (n ≤ s.data.length → ∃ s', Src.readExactLoop fuel n acc s = (.ok (acc ++ s.data.take n), s') ∧
      s'.Clean ∧ s'.data = s.data.drop n) ∧
    (s.data.length < n → ∃ s', Src.readExactLoop fuel n acc s = (.error (.io .unexpectedEof), s') ∧
      s'.Clean ∧ s'.data = []) := by
  induction fuel generalizing n acc s with
  | zero => omega
  | succ fuel ih =>
    unfold Src.readExactLoop
    by_cases hn : n = 0
    · subst hn
      simp only [if_true]
      exact ⟨fun _ => ⟨s, by simp, hc, by simp⟩, fun h => absurd h (by omega)⟩
    · simp only [hn, if_false]
      obtain ⟨m, s', h1, h2, h3, h4, h5, h6, h7⟩ := Src.read_clean hc (n := n) (by omega)
      simp only [h1]
      by_cases hd : s.data.take m = []
      · have hd' : s.data = [] := by
          have : (s.data.take m).length = 0 := by rw [hd]; rfl
          simp at this
          rcases this with h | h
          · omega
          · exact h
        simp only [hd, if_true]
        refine ⟨fun h => ?_, fun _ => ⟨s', rfl, h2, by rw [h3, hd']; simp⟩⟩
        rw [hd'] at h; simp at h; omega
      · simp only [hd, if_false]
        have hlen : 0 < (s.data.take m).length := List.length_pos_iff.mpr hd
        have hlen2 : (s.data.take m).length = min m s.data.length := by simp
        have hs'len : s'.data.length = s.data.length - m := by rw [h3]; simp
        obtain ⟨ih1, ih2⟩ := ih (n - (s.data.take m).length) (acc ++ s.data.take m) s' h2 (by omega)
        constructor
        · intro hle
          have hm : min m s.data.length = m := by omega
          obtain ⟨s2, e1, e2, e3⟩ := ih1 (by omega)
          refine ⟨s2, ?_, e2, ?_⟩
          · rw [e1, h3, hlen2, hm, List.append_assoc]
            congr 3
            rw [← List.take_add, Nat.add_sub_cancel' (by omega)]
          · rw [e3, h3, hlen2, hm, List.drop_drop, Nat.add_sub_cancel' (by omega)]
        · intro hlt
          obtain ⟨s2, e1, e2, e3⟩ := ih2 (by omega)
          exact ⟨s2, e1, e2, e3⟩

theorem Src.readExact_clean {n : Nat} {s : Src} (hc : s.Clean) :
    (n ≤ s.data.length → ∃ s', s.readExact n = (.ok (s.data.take n), s') ∧
      s'.Clean ∧ s'.data = s.data.drop n) ∧
    (s.data.length < n → ∃ s', s.readExact n = (.error (.io .unexpectedEof), s') ∧
      s'.Clean ∧ s'.data = []) := by
  have := Src.readExactLoop_clean (s.evs.length + n + 2) n [] s hc (Nat.le_refl _)
  simpa [Src.readExact] using this

/-- Bytes still to be delivered by a stream reader. -/
def StreamSt.pend (s : StreamSt) : Bytes := s.buf.content ++ s.src.data

/-- Invariant of the stream readers, for clean sources. -/
structure StreamSt.Inv (s : StreamSt) : Prop where
  buf : s.buf.Inv
  clean : s.src.Clean

theorem StreamSt.init_inv {b : Bool} {src : Src} (h : src.Clean) : (StreamSt.init b src).Inv :=
  ⟨CBuf.withCapacity_inv _, h⟩

theorem StreamSt.init_pend (b : Bool) (src : Src) : (StreamSt.init b src).pend = src.data := by
  simp [StreamSt.pend, StreamSt.init, CBuf.withCapacity_content]

/-- One successful append from a clean source moves bytes from the source to
the buffer. -/
theorem append_clean {grow : Nat → Nat} (hg : ∀ n, n ≤ grow n) {s : StreamSt} (hs : s.Inv)
    {size : Nat} (hsize : 0 < size) :
    ∃ w buf src, s.buf.tryAppendWith grow size Src.read s.src = .ok (.ok w, buf, src) ∧
      buf.Inv ∧ src.Clean ∧ buf.content ++ src.data = s.buf.content ++ s.src.data ∧
      buf.length = s.buf.length + w ∧ (w = 0 → s.src.data = []) ∧
      (s.buf.length + size ≤ s.buf.capacity → buf.capacity = s.buf.capacity) ∧
      src.data.length + w = s.src.data.length ∧ w ≤ size := by
  obtain ⟨n, hn, hn2, h⟩ := CBuf.tryAppendWith_ok hg hs.buf hsize Src.read (fun n s d s' h => Src.read_len h) s.src
  obtain ⟨m, src', h1, h2, h3, h4, h5, _, _⟩ := Src.read_clean hs.clean hn
  rw [h1] at h
  obtain ⟨c', e1, e2, e3, _, e5⟩ := h
  have hlen : c'.length = s.buf.length + (s.src.data.take m).length := by
    have := congrArg List.length e3
    simpa using this
  refine ⟨_, c', src', e1, e2, h2, ?_, hlen, ?_, e5, ?_, ?_⟩
  · rw [e3, h3, List.append_assoc, List.take_append_drop]
  · intro hw
    simp at hw
    rcases hw with hw | hw
    · omega
    · exact hw
  · rw [h3]; simp; omega
  · simp; omega

/-- The fill loop, on a clean source: it keeps the pending bytes and ends
with enough bytes in the buffer, or with end of input if there are too few. -/
theorem streamFill_clean {grow : Nat → Nat} (hg : ∀ n, n ≤ grow n) (n fuel : Nat) (s : StreamSt) (hs : s.Inv)
    (hn : n < s.buf.capacity) (hlt : s.buf.length < n) (hf : s.buf.capacity < s.buf.length + fuel) :
    (n ≤ s.pend.length → ∃ s', streamFill grow n fuel s = (.ok (), s') ∧ s'.Inv ∧ s'.pend = s.pend ∧
      n ≤ s'.buf.length ∧ s'.buffering = s.buffering) ∧
    (s.pend.length < n → ∃ s', streamFill grow n fuel s = (.error .unexpectedEndOfInput, s') ∧ s'.Inv ∧
      s'.pend = s.pend ∧ s'.buffering = s.buffering) := by
  induction fuel generalizing s with
  | zero => omega
  | succ fuel ih =>
    unfold streamFill
    have hcap : s.buf.length < s.buf.capacity := by omega
    simp only [hcap, if_true]
    obtain ⟨w, buf, src, e1, e2, e3, e4, e5, e6, e7, e8, _⟩ := append_clean hg hs (size := s.buf.capacity - s.buf.length) (by omega)
    simp only [e1]
    have hp : s.pend.length = s.buf.length + s.src.data.length := by simp [StreamSt.pend]
    have hcap' := e7 (by omega)
    by_cases hw : w = 0
    · have hd := e6 hw
      have hp' : s.pend.length = s.buf.length := by rw [hp, hd]; simp
      have : buf.length < n := by omega
      simp only [hw, if_true, this]
      exact ⟨fun h => absurd h (by omega), fun _ => ⟨_, rfl, ⟨e2, e3⟩, e4, rfl⟩⟩
    · simp only [hw, if_false]
      by_cases hge : buf.length ≥ n
      · simp only [hge, if_true]
        refine ⟨fun _ => ⟨_, rfl, ⟨e2, e3⟩, e4, hge, rfl⟩, fun h => absurd h (by omega)⟩
      · simp only [hge, if_false]
        have hpe : ({ s with buf := buf, src := src } : StreamSt).pend = s.pend := e4
        have := ih { s with buf := buf, src := src } ⟨e2, e3⟩ (by simp only; omega) (by simp only; omega) (by simp only; omega)
        rw [hpe] at this
        exact this

theorem streamTake_clean {n : Nat} {s : StreamSt} (hs : s.Inv) :
    (n ≤ s.pend.length → ∃ s', streamTake n s = (.ok (s.pend.take n), s') ∧ s'.Inv ∧
      s'.pend = s.pend.drop n ∧ s'.buffering = s.buffering) ∧
    (s.pend.length < n → ∃ s', streamTake n s = (.error (.io .unexpectedEof), s') ∧ s'.Inv ∧
      s'.pend = [] ∧ s'.buffering = s.buffering) := by
  unfold streamTake
  have hr : ∃ buf, (if s.buf.length > 0 then s.buf.consumeInto (min s.buf.length n)
      else Except.ok ([], s.buf)) = .ok (s.buf.content.take (min s.buf.length n), buf) ∧ buf.Inv ∧
      buf.content = s.buf.content.drop (min s.buf.length n) := by
    by_cases hz : s.buf.length > 0
    · simp only [hz, if_true]
      obtain ⟨c', h1, h2, h3, _⟩ := CBuf.consumeInto_ok hs.buf (n := min s.buf.length n) (by omega)
      exact ⟨c', h1, h2, h3⟩
    · simp only [hz, if_false]
      have hz' : s.buf.content = [] := by
        have := CBuf.content_length s.buf
        exact List.length_eq_zero_iff.mp (by omega)
      exact ⟨s.buf, by rw [hz']; simp, hs.buf, by rw [hz']; simp⟩
  obtain ⟨buf, h1, h2, h3⟩ := hr
  simp only [h1]
  have hl : (s.buf.content.take (min s.buf.length n)).length = min s.buf.length n := by simp
  rw [hl]
  have hp : s.pend.length = s.buf.length + s.src.data.length := by simp [StreamSt.pend]
  by_cases hle : n ≤ s.buf.length
  · have e0 : min s.buf.length n = n := by omega
    have e1 : n - n = 0 := by omega
    rw [e0] at h3 ⊢
    simp only [e1, if_true]
    refine ⟨fun _ => ⟨{ s with buf := buf }, ?_, ⟨h2, hs.clean⟩, ?_, rfl⟩, fun h => absurd h (by omega)⟩
    · congr 2
      unfold StreamSt.pend
      rw [List.take_append_of_le_length (by simpa using hle)]
    · unfold StreamSt.pend
      rw [h3, List.drop_append_of_le_length (by simpa using hle)]
  · have e0 : min s.buf.length n = s.buf.length := by omega
    rw [e0] at h3 ⊢
    have hd : buf.content = [] := by
      rw [h3]
      apply List.drop_eq_nil_of_le
      simp
    have ht : s.buf.content.take s.buf.length = s.buf.content := List.take_of_length_le (by simp)
    have e1 : ¬ (n - s.buf.length = 0) := by omega
    simp only [e1, if_false]
    obtain ⟨r1, r2⟩ := Src.readExact_clean (n := n - s.buf.length) hs.clean
    constructor
    · intro hn
      obtain ⟨src', a1, a2, a3⟩ := r1 (by omega)
      simp only [a1]
      refine ⟨{ s with buf := buf, src := src' }, ?_, ⟨h2, a2⟩, ?_, rfl⟩
      · congr 2
        unfold StreamSt.pend
        rw [List.take_append, ht, CBuf.content_length]
        congr 1
        rw [List.take_of_length_le (by simp; omega)]
      · simp only [StreamSt.pend, hd, a3, List.nil_append]
        have hz : s.buf.content.drop n = [] := List.drop_eq_nil_of_le (by simp; omega)
        rw [List.drop_append, hz, CBuf.content_length, List.nil_append]
    · intro hn
      obtain ⟨src', a1, a2, a3⟩ := r2 (by omega)
      simp only [a1]
      exact ⟨_, rfl, ⟨h2, a2⟩, by simp [StreamSt.pend, hd, a3], rfl⟩

theorem streamReadSlow_clean {grow : Nat → Nat} (hg : ∀ n, n ≤ grow n) {n : Nat} {s : StreamSt} (hs : s.Inv)
    (hlt : s.buf.length < n) :
    (n ≤ s.pend.length → ∃ s', streamReadSlow grow n s = (.ok (s.pend.take n), s') ∧ s'.Inv ∧
      s'.pend = s.pend.drop n ∧ s'.buffering = s.buffering) ∧
    (s.pend.length < n → ∃ e s', streamReadSlow grow n s = (.error e, s') ∧ e.isEof = true ∧ s'.Inv ∧
      (s'.pend = s.pend ∨ s'.pend = []) ∧ s'.buffering = s.buffering) := by
  unfold streamReadSlow
  by_cases hb : s.buffering && decide (n < s.buf.capacity)
  · simp only [hb, if_true]
    simp at hb
    obtain ⟨f1, f2⟩ := streamFill_clean hg n (s.buf.capacity + 1) s hs hb.2 hlt (by omega)
    constructor
    · intro hn
      obtain ⟨s1, a1, a2, a3, a4, a5⟩ := f1 hn
      simp only [a1]
      obtain ⟨t1, _⟩ := streamTake_clean (n := n) a2
      rw [a3, a5] at t1
      exact t1 hn
    · intro hn
      obtain ⟨s1, a1, a2, a3, a4⟩ := f2 hn
      simp only [a1]
      exact ⟨_, s1, rfl, rfl, a2, Or.inl a3, a4⟩
  · simp only [hb]
    obtain ⟨t1, t2⟩ := streamTake_clean (n := n) hs
    refine ⟨t1, fun hn => ?_⟩
    obtain ⟨s1, a1, a2, a3, a4⟩ := t2 hn
    exact ⟨_, s1, a1, rfl, a2, Or.inr a3, a4⟩

theorem streamRead_clean {grow : Nat → Nat} (hg : ∀ n, n ≤ grow n) {n : Nat} {s : StreamSt} (hs : s.Inv) :
    (n ≤ s.pend.length → ∃ s', streamRead grow n s = (.ok (s.pend.take n), s') ∧ s'.Inv ∧
      s'.pend = s.pend.drop n ∧ s'.buffering = s.buffering) ∧
    (s.pend.length < n → ∃ e s', streamRead grow n s = (.error e, s') ∧ e.isEof = true ∧ s'.Inv ∧
      (s'.pend = s.pend ∨ s'.pend = []) ∧ s'.buffering = s.buffering) := by
  unfold streamRead
  by_cases hle : s.buf.length ≥ n
  · simp only [hle, if_true]
    obtain ⟨c', h1, h2, h3, _⟩ := CBuf.consumeInto_ok hs.buf hle
    simp only [h1]
    have hp : s.pend.length = s.buf.length + s.src.data.length := by simp [StreamSt.pend]
    refine ⟨fun _ => ⟨{ s with buf := c' }, ?_, ⟨h2, hs.clean⟩, ?_, rfl⟩, fun h => absurd h (by omega)⟩
    · congr 2
      unfold StreamSt.pend
      rw [List.take_append_of_le_length (by simpa using hle)]
    · unfold StreamSt.pend
      rw [h3, List.drop_append_of_le_length (by simpa using hle)]
  · simp only [hle, if_false]
    exact streamReadSlow_clean hg hs (by omega)

theorem streamPeekFill_clean {grow : Nat → Nat} (hg : ∀ n, n ≤ grow n) (n fuel : Nat) (s : StreamSt) (hs : s.Inv)
    (hf : n < s.buf.length + fuel) (hf0 : 0 < fuel) :
    (n ≤ s.pend.length → ∃ s', streamPeekFill grow n fuel s = (.ok (), s') ∧ s'.Inv ∧ s'.pend = s.pend ∧
      n ≤ s'.buf.length ∧ s'.buffering = s.buffering) ∧
    (s.pend.length < n → ∃ s', streamPeekFill grow n fuel s = (.error .unexpectedEndOfInput, s') ∧ s'.Inv ∧
      s'.pend = s.pend ∧ s'.buffering = s.buffering) := by
  induction fuel generalizing s with
  | zero => omega
  | succ fuel ih =>
    have hp : s.pend.length = s.buf.length + s.src.data.length := by simp [StreamSt.pend]
    unfold streamPeekFill
    by_cases hlt : s.buf.length < n
    · simp only [hlt, if_true]
      generalize hch : (if s.buffering then max (n - s.buf.length) (s.buf.capacity - s.buf.length)
        else n - s.buf.length) = chunk
      have hchunk : 0 < chunk := by subst hch; split <;> omega
      obtain ⟨w, buf, src, e1, e2, e3, e4, e5, e6, e7, e8, _⟩ := append_clean hg hs hchunk
      simp only [e1]
      by_cases hw : w = 0
      · have hd := e6 hw
        have hp' : s.pend.length = s.buf.length := by rw [hp, hd]; simp
        simp only [hw, if_true]
        exact ⟨fun h => absurd h (by omega), fun _ => ⟨_, rfl, ⟨e2, e3⟩, e4, rfl⟩⟩
      · simp only [hw, if_false]
        have hpe : ({ s with buf := buf, src := src } : StreamSt).pend = s.pend := e4
        have := ih { s with buf := buf, src := src } ⟨e2, e3⟩ (by simp only; omega) (by omega)
        rw [hpe] at this
        exact this
    · simp only [hlt, if_false]
      exact ⟨fun _ => ⟨s, rfl, hs, rfl, by omega, rfl⟩, fun h => absurd h (by omega)⟩

theorem streamPeek_clean {grow : Nat → Nat} (hg : ∀ n, n ≤ grow n) {n : Nat} {s : StreamSt} (hs : s.Inv) :
    (n ≤ s.pend.length → ∃ s', streamPeek grow n s = (.ok (s.pend.take n), s') ∧ s'.Inv ∧
      s'.pend = s.pend ∧ s'.buffering = s.buffering) ∧
    (s.pend.length < n → ∃ e s', streamPeek grow n s = (.error e, s') ∧ e.isEof = true ∧ s'.Inv ∧
      s'.pend = s.pend ∧ s'.buffering = s.buffering) := by
  unfold streamPeek
  obtain ⟨f1, f2⟩ := streamPeekFill_clean hg n (n + 1) s hs (by omega) (by omega)
  constructor
  · intro hn
    obtain ⟨s1, a1, a2, a3, a4, a5⟩ := f1 hn
    simp only [a1]
    obtain ⟨a, b, h1, h2⟩ := CBuf.asSlicesOfLength_ok a2.buf a4
    simp only [h1, h2]
    refine ⟨s1, ?_, a2, a3, a5⟩
    congr 2
    rw [← a3]
    unfold StreamSt.pend
    rw [List.take_append_of_le_length (by simpa using a4)]
  · intro hn
    obtain ⟨s1, a1, a2, a3, a4⟩ := f2 hn
    simp only [a1]
    exact ⟨_, s1, rfl, rfl, a2, a3, a4⟩

theorem skipLoop_clean {grow : Nat → Nat} (hg : ∀ n, n ≤ grow n) (fuel n : Nat) (s : StreamSt) (hs : s.Inv)
    (hf : n < fuel) :
    (n ≤ s.pend.length → ∃ s', skipLoop (streamRead grow) fuel n s = (.ok (), s') ∧ s'.Inv ∧
      s'.pend = s.pend.drop n ∧ s'.buffering = s.buffering) ∧
    (s.pend.length < n → ∃ e s', skipLoop (streamRead grow) fuel n s = (.error e, s') ∧ e.isEof = true ∧ s'.Inv ∧
      (∃ k, s'.pend = s.pend.drop k) ∧ s'.buffering = s.buffering) := by
  induction fuel generalizing n s with
  | zero => omega
  | succ fuel ih =>
    unfold skipLoop
    by_cases hn : n > 0
    · simp only [hn, if_true]
      generalize hch : (if n < 1024 then n else 1024) = chunk
      have hc1 : 0 < chunk ∧ chunk ≤ n := by subst hch; split <;> omega
      obtain ⟨r1, r2⟩ := streamRead_clean hg (n := chunk) hs
      by_cases hle : chunk ≤ s.pend.length
      · obtain ⟨s1, a1, a2, a3, a4⟩ := r1 hle
        simp only [a1]
        obtain ⟨i1, i2⟩ := ih (n - chunk) s1 a2 (by omega)
        rw [a3, List.length_drop, a4] at i1 i2
        constructor
        · intro h
          obtain ⟨s2, b1, b2, b3, b4⟩ := i1 (by omega)
          refine ⟨s2, b1, b2, ?_, b4⟩
          rw [b3, List.drop_drop]; congr 1; omega
        · intro h
          obtain ⟨e, s2, b1, b2, b3, ⟨k, b4⟩, b5⟩ := i2 (by omega)
          exact ⟨e, s2, b1, b2, b3, ⟨chunk + k, by rw [b4, List.drop_drop]⟩, b5⟩
      · obtain ⟨e, s1, a1, a2, a3, a4, a5⟩ := r2 (by omega)
        simp only [a1]
        refine ⟨fun h => absurd h (by omega), fun _ => ⟨e, s1, rfl, a2, a3, ?_, a5⟩⟩
        rcases a4 with a4 | a4
        · exact ⟨0, by simpa using a4⟩
        · exact ⟨s.pend.length, by rw [a4, List.drop_length]⟩
    · simp only [hn, if_false]
      have : n = 0 := by omega
      subst this
      exact ⟨fun _ => ⟨s, rfl, hs, by simp, rfl⟩, fun h => absurd h (by omega)⟩

/-- The stream readers, buffered or not, are lawful on clean sources,
whatever the sizes of the pieces in which the data arrives. -/
theorem streamReader_lawful {grow : Nat → Nat} (hg : ∀ n, n ≤ grow n) :
    Lawful (streamReader grow) StreamSt.Inv StreamSt.pend where
  read_ok n s hs hn := by
    obtain ⟨s', h1, h2, h3, _⟩ := (streamRead_clean hg hs).1 hn
    exact ⟨s', h1, h2, h3⟩
  read_err n s hs hn := by
    obtain ⟨e, s', h1, h2, h3, h4, _⟩ := (streamRead_clean hg hs).2 hn
    exact ⟨e, s', h1, h2, h3, h4⟩
  peek_ok n s hs hn := by
    obtain ⟨s', h1, h2, h3, _⟩ := (streamPeek_clean hg hs).1 hn
    exact ⟨s', h1, h2, h3⟩
  peek_err n s hs hn := by
    obtain ⟨e, s', h1, h2, h3, h4, _⟩ := (streamPeek_clean hg hs).2 hn
    exact ⟨e, s', h1, h2, h3, h4⟩
  skip_ok n s hs hn := by
    obtain ⟨s', h1, h2, h3, _⟩ := (skipLoop_clean hg (n+1) n s hs (by omega)).1 hn
    exact ⟨s', h1, h2, h3⟩
  skip_err n s hs hn := by
    obtain ⟨e, s', h1, h2, h3, h4, _⟩ := (skipLoop_clean hg (n+1) n s hs (by omega)).2 hn
    exact ⟨e, s', h1, h2, h3, h4⟩
  canRead _ _ _ := Or.inl rfl
  borrow _ _ _ := Or.inl rfl
  borrowR _ _ _ := Or.inl rfl
  borrowEof _ _ := Or.inl rfl

end Verif
