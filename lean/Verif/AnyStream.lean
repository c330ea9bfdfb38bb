import Verif.PropsUninit

/-!
# Any implementation of `Read` replayed

Elsewhere a stream is a `Src`: bytes, and what happens when it is asked for them.  Here it is shown that this is no loss of
generality.  Each implementation of `Read` is made to record what it does; the `Src` so recorded behaves alike.
-/

namespace Verif

/-- `D`, recording the bytes it delivers and what its calls return. -/
def Device.recorded {σ : Type} (D : Device σ) : Device (σ × Src) where
  read sl s := match D.read sl s.1 with
    | (.ok n, sl', s') => (.ok n, sl', (s', ⟨s.2.data ++ sl'.take n, s.2.evs ++ [.give n]⟩))
    | (.error k, sl', s') => (.error k, sl', (s', ⟨s.2.data, s.2.evs ++ [.fault k]⟩))
  readExact sl s := match D.readExact sl s.1 with
    | (.ok _, sl', s') => (.ok (), sl', (s', ⟨s.2.data ++ sl', s.2.evs ++ [.give sl.length]⟩))
    | (.error k, sl', s') => (.error k, sl', (s', ⟨s.2.data, s.2.evs ++ [.fault k]⟩))
  read_len sl s := by
    have := D.read_len sl s.1
    split <;> (rename_i h; rw [h] at this; exact this)
  exact_len sl s := by
    have := D.exact_len sl s.1
    split <;> (rename_i h; rw [h] at this; exact this)

/-- What a stream may be relied on: `read` does not claim more bytes than the slice has, and `read_exact` continues when
interrupted. -/
structure Device.Counts {σ : Type} (D : Device σ) : Prop where
  read : ∀ sl s n, (D.read sl s).1 = .ok n → n ≤ sl.length
  exact : ∀ sl s, (D.readExact sl s).1 ≠ .error .interrupted

/-- The same state of the reader, but for the stream. -/
structure StLike {σ τ : Type} (s : DevSt σ) (t : DevSt τ) : Prop where
  buf : s.buf.Like t.buf
  buffering : s.buffering = t.buffering
  used : s.used = t.used

/-- `r`, the result from `s`, is that of `g` on the stream recorded. -/
def Replay {σ α : Type} (s : DevSt (σ × Src)) (r : α × DevSt (σ × Src)) (g : DevSt Src → α × DevSt Src) : Prop :=
  ∃ data evs, r.2.dev.2 = ⟨s.dev.2.data ++ data, s.dev.2.evs ++ evs⟩ ∧
    ∀ t X Y, t.dev = ⟨data ++ X, evs ++ Y⟩ → StLike s t → (g t).1 = r.1 ∧ (g t).2.dev = ⟨X, Y⟩ ∧ StLike r.2 (g t).2

theorem Replay.here {σ α : Type} {s s' : DevSt (σ × Src)} {a : α} {g : DevSt Src → α × DevSt Src} (hd : s'.dev.2 = s.dev.2)
    (h : ∀ t, StLike s t → (g t).1 = a ∧ (g t).2.dev = t.dev ∧ StLike s' (g t).2) : Replay s (a, s') g :=
  ⟨[], [], by simp [hd], fun t X Y ht hl => by
    obtain ⟨h1, h2, h3⟩ := h t hl
    exact ⟨h1, by rw [h2, ht]; rfl, h3⟩⟩

/-- First `f`, then what depends on its result. -/
theorem Replay.bind {σ α β : Type} {s : DevSt (σ × Src)} {r : α × DevSt (σ × Src)} {q : β × DevSt (σ × Src)}
    {g : DevSt Src → α × DevSt Src} {k : α → DevSt Src → β × DevSt Src} (h : Replay s r g) (h' : Replay r.2 q (k r.1)) :
    Replay s q fun t => k (g t).1 (g t).2 := by
  obtain ⟨d, ev, h1, h2⟩ := h
  obtain ⟨d', ev', g1, g2⟩ := h'
  refine ⟨d ++ d', ev ++ ev', by rw [g1, h1]; simp, ?_⟩
  intro t X Y ht hl
  obtain ⟨a1, a2, a3⟩ := h2 t (d' ++ X) (ev' ++ Y) (by rw [ht]; simp) hl
  obtain ⟨b1, b2, b3⟩ := g2 (g t).2 X Y a2 a3
  simp only
  rw [a1]
  exact ⟨b1, b2, b3⟩

theorem Replay.then {σ α β : Type} {s : DevSt (σ × Src)} {r : α × DevSt (σ × Src)} {q : β × DevSt (σ × Src)}
    {g : DevSt Src → α × DevSt Src} {G : DevSt Src → β × DevSt Src} (h : Replay s r g) (k : α → DevSt Src → β × DevSt Src)
    (hG : ∀ t, G t = k (g t).1 (g t).2) (h' : Replay r.2 q (k r.1)) : Replay s q G := by
  rw [show G = fun t => k (g t).1 (g t).2 from funext hG]
  exact h.bind h'

section
variable {σ : Type} {D : Device σ} (hD : D.Counts) {junk junk' : Nat → UInt8} {grow : Nat → Nat} (hg : ∀ n, n ≤ grow n)
include hD hg

theorem append_replay (size : Nat) {s : DevSt (σ × Src)} (hs : s.buf.Inv) :
    ∃ r, s.append D.recorded junk grow size = .ok r ∧ ∃ data evs,
      r.2.dev.2 = ⟨s.dev.2.data ++ data, s.dev.2.evs ++ evs⟩ ∧ ∀ t X Y, t.dev = ⟨data ++ X, evs ++ Y⟩ → StLike s t →
        ∃ t', t.append srcDevice junk' grow size = .ok (r.1, t') ∧ t'.dev = ⟨X, Y⟩ ∧ StLike r.2 t' := by
  obtain ⟨c, h1, h2, h3, h4, h5, h6, h7⟩ := CBuf.reserveOn_ok (fresh_length junk s.used) hg hs size
  have hsz : c.length + size ≤ c.capacity := by rw [h5]; exact h4
  obtain ⟨r1, r2, r3, _, _⟩ := emptyRange_spec h2 size hsz
  have k1 := fun sl n hl hn => CBuf.stored (sl := sl) (n := n) h2 hsz hl hn
  generalize hrg : emptyRange c.position c.length c.capacity size = rg at *
  obtain ⟨rg, rb⟩ := rg
  simp only at r1 r2 r3 k1
  have e1 : sliceOf c.buffer rg = .ok ((c.buffer.drop rg.start).take rg.len) := by
    unfold sliceOf; rw [if_pos ⟨r1, r2⟩]
  have l1 : ((c.buffer.drop rg.start).take rg.len).length = rg.len := by
    simp [Rng.len]; unfold CBuf.capacity at r2; omega
  generalize (c.buffer.drop rg.start).take rg.len = a at *
  -- the other side
  have other : ∀ t : DevSt Src, StLike s t → ∃ (d : CBuf) (b : Bytes), t.buf.reserveOn (fresh junk' t.used) grow size = .ok d ∧
      c.position = d.position ∧ c.length = d.length ∧ c.capacity = d.capacity ∧ c.content = d.content ∧
      sliceOf d.buffer rg = .ok b ∧ b.length = rg.len ∧
      (∀ sl n, sl.length = rg.len → n ≤ sl.length → CBuf.Inv ⟨overwrite d.buffer rg.start sl, d.position, d.length + n⟩ ∧
        (⟨overwrite d.buffer rg.start sl, d.position, d.length + n⟩ : CBuf).content = d.content ++ sl.take n ∧
        (⟨overwrite d.buffer rg.start sl, d.position, d.length + n⟩ : CBuf).capacity = d.capacity) ∧
      s.used + (if s.buf.capacity ≥ s.buf.length + size then 0 else grow (s.buf.length + size)) =
        t.used + (if t.buf.capacity ≥ t.buf.length + size then 0 else grow (t.buf.length + size)) := by
    intro t h
    obtain ⟨d, g1, g2, g3, g4, g5, g6, g7⟩ := CBuf.reserveOn_ok (fresh_length junk' t.used) hg h.buf.inv' size
    have hpos : c.position = d.position := by rw [h6, g6, h.buf.position, h.buf.length, h.buf.capacity]
    have hlen : c.length = d.length := by rw [h5, g5, h.buf.length]
    have hcap : c.capacity = d.capacity := by rw [h7, g7, h.buf.length, h.buf.capacity]
    have ht : d.length + size ≤ d.capacity := by rw [g5]; exact g4
    have hr : emptyRange d.position d.length d.capacity size = (rg, rb) := by rw [← hrg, hpos, hlen, hcap]
    have k2 := fun sl n hl hn => CBuf.stored (sl := sl) (n := n) g2 ht hl hn
    rw [hr] at k2
    refine ⟨d, (d.buffer.drop rg.start).take rg.len, g1, hpos, hlen, hcap, ?_, ?_, ?_, k2, ?_⟩
    · rw [h3, g3, h.buf.content]
    · unfold sliceOf; rw [if_pos ⟨r1, by have := hcap ▸ r2; exact this⟩]
    · rw [hcap] at r2
      simp [Rng.len]; unfold CBuf.capacity at r2; omega
    · rw [h.used, h.buf.length, h.buf.capacity]
  have m1 := D.read_len a s.dev.1
  have m2 := hD.read a s.dev.1
  unfold DevSt.append
  simp only [h1, bind, Except.bind, hrg, e1, Device.recorded]
  generalize D.read a s.dev.1 = ra at *
  obtain ⟨x, a', s1⟩ := ra
  simp only at m1 m2
  cases x with
  | error k =>
    refine ⟨_, rfl, [], [.fault k], by simp, ?_⟩
    intro t X Y hdev hl
    obtain ⟨d, b, g1, hpos, hlen, hcap, hcon, e2, l2, k2, hused⟩ := other t hl
    obtain ⟨i1, i2, i3⟩ := k1 a' 0 (by omega) (by omega)
    obtain ⟨j1, j2, j3⟩ := k2 b 0 (by omega) (by omega)
    have hr : emptyRange d.position d.length d.capacity size = (rg, rb) := by rw [← hrg, hpos, hlen, hcap]
    simp only [g1, hr, e2, hdev, List.nil_append, List.cons_append, srcDevice_read, Src.read]
    refine ⟨_, rfl, rfl, ⟨i1, j1, hpos, hlen, i3.trans (hcap.trans j3.symm), ?_⟩, hl.buffering, hused⟩
    simp only [List.take_zero, List.append_nil] at i2 j2
    exact i2.trans (hcon.trans j2.symm)
  | ok n =>
    have hn := m2 n rfl
    refine ⟨_, rfl, a'.take n, [.give n], by simp, ?_⟩
    intro t X Y hdev hl
    obtain ⟨d, b, g1, hpos, hlen, hcap, hcon, e2, l2, k2, hused⟩ := other t hl
    have hl1 : (a'.take n).length = n := by simp; omega
    have hr : emptyRange d.position d.length d.capacity size = (rg, rb) := by rw [← hrg, hpos, hlen, hcap]
    have hrd : srcDevice.read b t.dev = (.ok n, a'.take n ++ b.drop n, ⟨X, Y⟩) := by
      simp only [srcDevice_read, hdev, List.singleton_append, Src.read]
      rw [Nat.min_eq_left (by omega), List.take_left' hl1, List.drop_left' hl1, hl1]
    obtain ⟨i1, i2, i3⟩ := k1 a' n (by omega) (by omega)
    obtain ⟨j1, j2, j3⟩ := k2 (a'.take n ++ b.drop n) n (by simp; omega) (by simp; omega)
    simp only [g1, hr, e2, hrd]
    refine ⟨_, rfl, rfl, ⟨i1, j1, hpos, by simp only [hlen], i3.trans (hcap.trans j3.symm), ?_⟩, hl.buffering, hused⟩
    rw [List.take_left' hl1, ← hcon] at j2
    exact i2.trans j2.symm

omit hD hg in
theorem StLike.refl {s : DevSt σ} {τ : Type} {dev : τ} (hs : s.buf.Inv) : StLike s ⟨dev, s.buf, s.buffering, s.used⟩ :=
  ⟨⟨hs, hs, rfl, rfl, rfl, rfl⟩, rfl, rfl⟩

omit hD hg in
theorem Replay.inv {α : Type} {s : DevSt (σ × Src)} {r : α × DevSt (σ × Src)} {g : DevSt Src → α × DevSt Src} (h : Replay s r g)
    (hs : s.buf.Inv) : r.2.buf.Inv := by
  obtain ⟨d, ev, _, h2⟩ := h
  exact (h2 _ [] [] rfl (StLike.refl hs)).2.2.buf.inv

theorem devFill_replay (n : Nat) : ∀ (fuel : Nat) {s : DevSt (σ × Src)}, s.buf.Inv →
    Replay s (devFill D.recorded junk grow n fuel s) (devFill srcDevice junk' grow n fuel)
  | 0, _, _ => Replay.here rfl fun t h => ⟨rfl, rfl, h⟩
  | fuel + 1, s, hs => by
    unfold devFill
    by_cases hc : s.buf.length < s.buf.capacity
    · rw [if_pos hc]
      obtain ⟨⟨x, s1⟩, h1, d, ev, h2, h3⟩ := append_replay (junk := junk) (junk' := junk') hD hg (s.buf.capacity - s.buf.length) hs
      have hs1 : s1.buf.Inv := by
        obtain ⟨t', _, _, h⟩ := h3 _ [] [] rfl (StLike.refl hs)
        exact h.buf.inv
      have ih := devFill_replay n fuel hs1
      simp only [h1]
      have start : ∀ {q : Except Err Unit × DevSt (σ × Src)} {k : DevSt Src → Except Err Unit × DevSt Src}, Replay s1 q k →
          (∀ t t', StLike s t → StLike s1 t' → t.append srcDevice junk' grow (s.buf.capacity - s.buf.length) = .ok (x, t') →
            devFill srcDevice junk' grow n (fuel + 1) t = k t') → Replay s q (devFill srcDevice junk' grow n (fuel + 1)) := by
        rintro q k ⟨d', ev', g1, g2⟩ hk
        refine ⟨d ++ d', ev ++ ev', by rw [g1, h2]; simp, ?_⟩
        intro t X Y ht hl
        obtain ⟨t', a1, a2, a3⟩ := h3 t (d' ++ X) (ev' ++ Y) (by rw [ht]; simp) hl
        rw [hk t t' hl a3 a1]
        exact g2 t' X Y a2 a3
      cases x with
      | error k =>
        refine start (k := fun t => (.error (.io k), t)) (Replay.here rfl fun t h => ⟨rfl, rfl, h⟩) ?_
        intro t t' hl hl' ha
        unfold devFill
        rw [← hl.buf.length, ← hl.buf.capacity, if_pos hc, ha]
      | ok w =>
        by_cases hw : w = 0
        · by_cases hn : s1.buf.length < n
          · simp only [hw, hn, if_true]
            refine start (k := fun t => (.error .unexpectedEndOfInput, t)) (Replay.here rfl fun t h => ⟨rfl, rfl, h⟩) ?_
            intro t t' hl hl' ha
            unfold devFill
            rw [← hl.buf.length, ← hl.buf.capacity, if_pos hc, ha]
            simp only [hw, ← hl'.buf.length, hn, if_true]
          · simp only [hw, hn, if_true, if_false]
            refine start (k := fun t => (.ok (), t)) (Replay.here rfl fun t h => ⟨rfl, rfl, h⟩) ?_
            intro t t' hl hl' ha
            unfold devFill
            rw [← hl.buf.length, ← hl.buf.capacity, if_pos hc, ha]
            simp only [hw, ← hl'.buf.length, hn, if_true, if_false]
        · by_cases hn : s1.buf.length ≥ n
          · simp only [hw, hn, if_true, if_false]
            refine start (k := fun t => (.ok (), t)) (Replay.here rfl fun t h => ⟨rfl, rfl, h⟩) ?_
            intro t t' hl hl' ha
            unfold devFill
            rw [← hl.buf.length, ← hl.buf.capacity, if_pos hc, ha]
            simp only [hw, ← hl'.buf.length, hn, if_true, if_false]
          · simp only [hw, hn, if_false]
            refine start ih ?_
            intro t t' hl hl' ha
            rw [devFill]
            rw [← hl.buf.length, ← hl.buf.capacity, if_pos hc, ha]
            simp only [hw, ← hl'.buf.length, hn, if_false]
    · rw [if_neg hc]
      refine Replay.here rfl fun t h => ?_
      unfold devFill
      rw [← h.buf.length, ← h.buf.capacity, if_neg hc]
      exact ⟨rfl, rfl, h⟩

theorem devPeekFill_replay (n : Nat) : ∀ (fuel : Nat) {s : DevSt (σ × Src)}, s.buf.Inv →
    Replay s (devPeekFill D.recorded junk grow n fuel s) (devPeekFill srcDevice junk' grow n fuel)
  | 0, _, _ => Replay.here rfl fun t h => ⟨rfl, rfl, h⟩
  | fuel + 1, s, hs => by
    unfold devPeekFill
    by_cases hc : s.buf.length < n
    · rw [if_pos hc]
      simp only
      generalize hsz : (if s.buffering then max (n - s.buf.length) (s.buf.capacity - s.buf.length) else n - s.buf.length) = size
      obtain ⟨⟨x, s1⟩, h1, d, ev, h2, h3⟩ := append_replay (junk := junk) (junk' := junk') hD hg size hs
      have hs1 : s1.buf.Inv := by
        obtain ⟨t', _, _, h⟩ := h3 _ [] [] rfl (StLike.refl hs)
        exact h.buf.inv
      have ih := devPeekFill_replay n fuel hs1
      simp only [h1]
      have start : ∀ {q : Except Err Unit × DevSt (σ × Src)} {k : DevSt Src → Except Err Unit × DevSt Src}, Replay s1 q k →
          (∀ t t', StLike s t → t.append srcDevice junk' grow size = .ok (x, t') →
            devPeekFill srcDevice junk' grow n (fuel + 1) t = k t') → Replay s q (devPeekFill srcDevice junk' grow n (fuel + 1)) := by
        rintro q k ⟨d', ev', g1, g2⟩ hk
        refine ⟨d ++ d', ev ++ ev', by rw [g1, h2]; simp, ?_⟩
        intro t X Y ht hl
        obtain ⟨t', a1, a2, a3⟩ := h3 t (d' ++ X) (ev' ++ Y) (by rw [ht]; simp) hl
        rw [hk t t' hl a1]
        exact g2 t' X Y a2 a3
      have size' : ∀ t : DevSt Src, StLike s t →
          (if t.buffering then max (n - t.buf.length) (t.buf.capacity - t.buf.length) else n - t.buf.length) = size := by
        intro t hl
        rw [← hsz, hl.buffering, hl.buf.length, hl.buf.capacity]
      cases x with
      | error k =>
        refine start (k := fun t => (.error (.io k), t)) (Replay.here rfl fun t h => ⟨rfl, rfl, h⟩) ?_
        intro t t' hl ha
        unfold devPeekFill
        rw [if_pos (by rw [← hl.buf.length]; exact hc)]
        simp only [size' t hl, ha]
      | ok w =>
        by_cases hw : w = 0
        · simp only [hw, if_true]
          refine start (k := fun t => (.error .unexpectedEndOfInput, t)) (Replay.here rfl fun t h => ⟨rfl, rfl, h⟩) ?_
          intro t t' hl ha
          unfold devPeekFill
          rw [if_pos (by rw [← hl.buf.length]; exact hc)]
          simp only [size' t hl, ha, hw, if_true]
        · simp only [hw, if_false]
          refine start ih ?_
          intro t t' hl ha
          rw [devPeekFill]
          rw [if_pos (by rw [← hl.buf.length]; exact hc)]
          simp only [size' t hl, ha, hw, if_false]
    · rw [if_neg hc]
      refine Replay.here rfl fun t h => ?_
      unfold devPeekFill
      rw [← h.buf.length, if_neg hc]
      exact ⟨rfl, rfl, h⟩

omit hD hg in
/-- `read_exact` of the recorded stream. -/
theorem srcExact_give {sl a X : Bytes} {Y : List Ev} (h : a.length = sl.length) (hn : sl.length ≠ 0) :
    srcDevice.readExact sl ⟨a ++ X, .give sl.length :: Y⟩ = (.ok (), a, ⟨X, Y⟩) := by
  have h1 : Src.readExact sl.length ⟨a ++ X, .give sl.length :: Y⟩ = (.ok a, ⟨X, Y⟩) := by
    unfold Src.readExact
    rw [Src.readExactLoop, if_neg hn]
    have ha : a ≠ [] := by rintro rfl; simp at h; omega
    simp only [Src.read, Nat.min_self, List.take_left' h, List.drop_left' h, ha, if_false, List.nil_append, h, Nat.sub_self]
    rw [show (List.length (Ev.give sl.length :: Y) + sl.length + 1) = (Y.length + sl.length + 1) + 1 by simp; omega,
      Src.readExactLoop, if_pos rfl]
  simp only [srcDevice, h1]
  rw [List.take_of_length_le (by omega), List.drop_eq_nil_of_le (by omega), List.append_nil]

omit hD hg in
theorem srcExact_fault {sl X : Bytes} {Y : List Ev} {k : IoKind} (hk : k ≠ .interrupted) (hn : sl.length ≠ 0) :
    srcDevice.readExact sl ⟨X, .fault k :: Y⟩ = (.error k, sl, ⟨X, Y⟩) := by
  have h1 : Src.readExact sl.length ⟨X, .fault k :: Y⟩ = (.error (.io k), ⟨X, Y⟩) := by
    unfold Src.readExact
    rw [Src.readExactLoop, if_neg hn]
    simp only [Src.read]
  simp only [srcDevice, h1]

omit hg in
theorem devTake_replay {out out' : Bytes} (hl : out.length = out'.length) {s : DevSt (σ × Src)} (hs : s.buf.Inv) :
    Replay s (devTake D.recorded out s) (devTake srcDevice out') := by
  have key : ∃ d c, (if s.buf.length > 0 then s.buf.consumeInto (min s.buf.length out.length) else .ok ([], s.buf)) = .ok (d, c) ∧
      ∀ t : DevSt Src, StLike s t → ∃ c',
      (if t.buf.length > 0 then t.buf.consumeInto (min t.buf.length out.length) else .ok ([], t.buf)) = .ok (d, c') ∧ c.Like c' := by
    by_cases h0 : s.buf.length > 0
    · obtain ⟨d, c, _, h1, _⟩ := (CBuf.Like.mk hs hs rfl rfl rfl rfl).consumeInto (n := min s.buf.length out.length) (Nat.min_le_left _ _)
      refine ⟨d, c, by rw [if_pos h0, h1], ?_⟩
      intro t h
      obtain ⟨d', e, c', g1, g2, g3, _⟩ := h.buf.consumeInto (n := min s.buf.length out.length) (Nat.min_le_left _ _)
      rw [h1] at g1
      simp only [Except.ok.injEq, Prod.mk.injEq] at g1
      obtain ⟨rfl, rfl⟩ := g1
      exact ⟨c', by rw [← h.buf.length, if_pos h0, g2], g3⟩
    · refine ⟨[], s.buf, by rw [if_neg h0], ?_⟩
      intro t h
      exact ⟨t.buf, by rw [← h.buf.length, if_neg h0], h.buf⟩
  obtain ⟨d, c, h1, h2⟩ := key
  unfold devTake
  simp only [h1]
  by_cases hz : out.length - d.length = 0
  · rw [if_pos hz]
    refine Replay.here rfl fun t h => ?_
    obtain ⟨c', g1, g2⟩ := h2 t h
    simp only [← hl, g1, hz, if_true]
    exact ⟨trivial, trivial, g2, h.buffering, h.used⟩
  · rw [if_neg hz]
    have hne : (out'.drop d.length).length ≠ 0 := by simp; omega
    have m1 := D.exact_len (out.drop d.length) s.dev.1
    have m2 := hD.exact (out.drop d.length) s.dev.1
    simp only [Device.recorded]
    generalize D.readExact (out.drop d.length) s.dev.1 = ra at *
    obtain ⟨x, a, s1⟩ := ra
    simp only at m1 m2
    have hlen : a.length = (out'.drop d.length).length := by rw [m1]; simp [hl]
    cases x with
    | error k =>
      refine ⟨[], [.fault k], by simp, ?_⟩
      intro t X Y ht h
      obtain ⟨c', g1, g2⟩ := h2 t h
      simp only [← hl, g1, hz, if_false, ht, List.nil_append, List.singleton_append,
        srcExact_fault (k := k) (by rintro rfl; exact m2 rfl) hne]
      exact ⟨trivial, trivial, g2, h.buffering, h.used⟩
    | ok u =>
      refine ⟨a, [.give (out'.drop d.length).length], by simp [hl], ?_⟩
      intro t X Y ht h
      obtain ⟨c', g1, g2⟩ := h2 t h
      simp only [← hl, g1, hz, if_false, ht, List.singleton_append, srcExact_give hlen hne]
      exact ⟨trivial, trivial, g2, h.buffering, h.used⟩

theorem devRead_replay (n : Nat) {s : DevSt (σ × Src)} (hs : s.buf.Inv) :
    Replay s (devRead D.recorded junk grow n s) (devRead srcDevice junk' grow n) := by
  let s0 : DevSt (σ × Src) := ⟨s.dev, s.buf, s.buffering, s.used + n⟩
  -- the first step: the output
  have first : ∀ {α : Type} {q : α × DevSt (σ × Src)} {k g : DevSt Src → α × DevSt Src}, Replay s0 q k →
      (∀ t, StLike s t → g t = k ⟨t.dev, t.buf, t.buffering, t.used + n⟩) → Replay s q g := by
    rintro α q k g ⟨d, ev, h1, h2⟩ hk
    refine ⟨d, ev, h1, fun t X Y ht hl => ?_⟩
    rw [hk t hl]
    exact h2 _ X Y ht ⟨hl.buf, hl.buffering, congrArg (· + n) hl.used⟩
  unfold devRead
  simp only
  by_cases hn : s.buf.length ≥ n
  · obtain ⟨d, c, _, h1, _⟩ := (CBuf.Like.mk hs hs rfl rfl rfl rfl).consumeInto hn
    rw [if_pos hn, h1]
    refine Replay.here rfl fun t h => ?_
    obtain ⟨d', e, c', g1, g2, g3, _⟩ := h.buf.consumeInto hn
    rw [h1] at g1
    simp only [Except.ok.injEq, Prod.mk.injEq] at g1
    obtain ⟨rfl, rfl⟩ := g1
    rw [if_pos (by rw [← h.buf.length]; exact hn), g2]
    exact ⟨rfl, rfl, g3, h.buffering, by rw [h.used]⟩
  · rw [if_neg hn]
    by_cases hb : (s.buffering && decide (n < s.buf.capacity)) = true
    · rw [if_pos hb]
      have hf := devFill_replay (junk := junk) (junk' := junk') hD hg n (s.buf.capacity + 1) (s := s0) hs
      have hi := hf.inv hs
      refine first (hf.then (G := fun t => match devFill srcDevice junk' grow n (s.buf.capacity + 1) t with
          | (.error e, t) => (.error e, t)
          | (.ok (), t) => devTake srcDevice (fresh junk' s.used n) t) (fun x t => match x with
          | .error e => (.error e, t)
          | .ok () => devTake srcDevice (fresh junk' s.used n) t) ?_ ?_) ?_
      · intro t
        generalize devFill srcDevice junk' grow n (s.buf.capacity + 1) t = r
        obtain ⟨x, s1⟩ := r
        cases x <;> rfl
      · have hs0 : (⟨s.dev, s.buf, s.buffering, s.used + n⟩ : DevSt (σ × Src)) = s0 := rfl
        rw [hs0]
        generalize devFill D.recorded junk grow n (s.buf.capacity + 1) s0 = r at *
        obtain ⟨x, s1⟩ := r
        cases x with
        | error e => exact Replay.here rfl fun t h => ⟨rfl, rfl, h⟩
        | ok u => exact devTake_replay hD (by simp) hi
      · intro t h
        rw [if_neg (by rw [← h.buf.length]; exact hn), if_pos (by rw [← h.buffering, ← h.buf.capacity]; exact hb), h.used,
          h.buf.capacity]
        generalize devFill srcDevice junk' grow n (t.buf.capacity + 1) _ = r
        obtain ⟨x, t1⟩ := r
        cases x <;> rfl
    · rw [if_neg hb]
      refine first (devTake_replay hD (out' := fresh junk' s.used n) (by simp) hs) ?_
      intro t h
      rw [if_neg (by rw [← h.buf.length]; exact hn), if_neg (by rw [← h.buffering, ← h.buf.capacity]; exact hb), h.used]

theorem devPeek_replay (n : Nat) {s : DevSt (σ × Src)} (hs : s.buf.Inv) :
    Replay s (devPeek D.recorded junk grow n s) (devPeek srcDevice junk' grow n) := by
  have hf := devPeekFill_replay (junk := junk) (junk' := junk') hD hg n (n + 1) hs
  have hi := hf.inv hs
  refine hf.then (fun (x : Except Err Unit) (t : DevSt Src) => match x with
        | .error e => (.error e, t)
        | .ok () => match t.buf.asSlicesOfLength n with
          | .error p => (.error (.panic p), t)
          | .ok (a, b) => match copyOut n a b with
            | .error p => (.error (.panic p), t)
            | .ok out => (.ok out, t)) ?_ ?_
  · intro t
    unfold devPeek
    generalize devPeekFill srcDevice junk' grow n (n + 1) t = r
    obtain ⟨x, t1⟩ := r
    cases x <;> rfl
  · unfold devPeek
    generalize devPeekFill D.recorded junk grow n (n + 1) s = r at *
    obtain ⟨x, s1⟩ := r
    cases x with
    | error e => exact Replay.here rfl fun t h => ⟨rfl, rfl, h⟩
    | ok u =>
      simp only
      by_cases hn : n ≤ s1.buf.length
      · obtain ⟨a, b, e1, e2⟩ := CBuf.asSlicesOfLength_ok hi hn
        simp only at e1 e2
        simp only [e1, e2]
        refine Replay.here rfl fun t h => ?_
        obtain ⟨a', b', f1, f2⟩ := CBuf.asSlicesOfLength_ok h.buf.inv' (n := n) (by rw [← h.buf.length]; exact hn)
        simp only [f1, f2, h.buf.content]
        exact ⟨trivial, trivial, h⟩
      · have e1 : s1.buf.asSlicesOfLength n = .error .assertFailed := by unfold CBuf.asSlicesOfLength; rw [if_neg hn]
        simp only [e1]
        refine Replay.here rfl fun t h => ?_
        have f1 : t.buf.asSlicesOfLength n = .error .assertFailed := by
          unfold CBuf.asSlicesOfLength; rw [if_neg (by rw [← h.buf.length]; exact hn)]
        simp only [f1]
        exact ⟨trivial, trivial, h⟩

theorem devSkip_replay : ∀ (fuel n : Nat) {s : DevSt (σ × Src)}, s.buf.Inv →
    Replay s (skipLoop (devRead D.recorded junk grow) fuel n s) (skipLoop (devRead srcDevice junk' grow) fuel n)
  | 0, _, _, _ => Replay.here rfl fun t h => ⟨rfl, rfl, h⟩
  | fuel + 1, n, s, hs => by
    by_cases h0 : n > 0
    · have hr := devRead_replay (junk := junk) (junk' := junk') hD hg (if n < 1024 then n else 1024) hs
      have hi := hr.inv hs
      refine hr.then (fun (x : Except Err Bytes) (t : DevSt Src) => match x with
            | .error e => (.error e, t)
            | .ok _ => skipLoop (devRead srcDevice junk' grow) fuel (n - if n < 1024 then n else 1024) t) ?_ ?_
      · intro t
        rw [skipLoop, if_pos h0]
        simp only
        generalize devRead srcDevice junk' grow _ t = r
        obtain ⟨x, t1⟩ := r
        cases x <;> rfl
      · rw [skipLoop, if_pos h0]
        simp only
        generalize devRead D.recorded junk grow _ s = r at *
        obtain ⟨x, s1⟩ := r
        cases x with
        | error er => exact Replay.here rfl fun t h => ⟨rfl, rfl, h⟩
        | ok u => exact devSkip_replay fuel _ hi
    · have e : skipLoop (devRead srcDevice junk' grow) (fuel + 1) n = fun t => (.ok (), t) := by
        funext t; rw [skipLoop, if_neg h0]
      rw [e, skipLoop, if_neg h0]
      exact Replay.here rfl fun t h => ⟨rfl, rfl, h⟩

theorem run_replay {α : Type} (p : Prog α) : ∀ {s : DevSt (σ × Src)}, s.buf.Inv →
    Replay s (p.run (devReader D.recorded junk grow) s) (p.run (devReader srcDevice junk' grow)) := by
  induction p with
  | ret a => intro s hs; exact Replay.here rfl fun t h => ⟨rfl, rfl, h⟩
  | read n k ih =>
    intro s hs
    have hr := devRead_replay (junk := junk) (junk' := junk') hD hg n hs
    exact hr.bind (k := fun x t => (k x).run (devReader srcDevice junk' grow) t) (ih _ (hr.inv hs))
  | peek n k ih =>
    intro s hs
    have hr := devPeek_replay (junk := junk) (junk' := junk') hD hg n hs
    exact hr.bind (k := fun x t => (k x).run (devReader srcDevice junk' grow) t) (ih _ (hr.inv hs))
  | skip n k ih =>
    intro s hs
    have hr := devSkip_replay (junk := junk) (junk' := junk') hD hg (n + 1) n hs
    exact hr.bind (k := fun x t => (k x).run (devReader srcDevice junk' grow) t) (ih _ (hr.inv hs))
  | canRead n k ih => intro s hs; exact ih none hs
  | borrow n k ih => intro s hs; exact ih none hs
  | borrowR n k ih => intro s hs; exact ih none hs
  | borrowEof k ih => intro s hs; exact ih none hs
  | alloc n m k ih => intro s hs; exact ih hs

end
end Verif
