import Verif.Readers
import Verif.ReadersLawful

/-!
# Streams and uninitialised memory

The stream reader gives the `std::io::Read` of the user slices of memory which has not been initialised.  Here a stream is any
implementation of the (safe) trait `Read`: it sees what is in the slices it is to fill, and may return any number.  `junk` is what
uninitialised memory happens to contain: its `i`-th byte is `junk i`, in the order of use.
-/

namespace Verif

/-- An implementation of `std::io::Read`: `read` and `read_exact` get a slice (its contents) and return a result and
the new contents of the slice. -/
structure Device (σ : Type) where
  read : Bytes → σ → Except IoKind Nat × Bytes × σ
  readExact : Bytes → σ → Except IoKind Unit × Bytes × σ
  read_len : ∀ sl s, (read sl s).2.1.length = sl.length
  exact_len : ∀ sl s, (readExact sl s).2.1.length = sl.length

/-- `n` bytes of uninitialised memory. -/
def fresh (junk : Nat → UInt8) (used n : Nat) : Bytes := (List.range n).map fun i => junk (used + i)

@[simp] theorem fresh_length (junk : Nat → UInt8) (used n : Nat) : (fresh junk used n).length = n := by simp [fresh]

/-- `reserve_impl` with `is_exact = false` — src/circular_buffer.rs:252-287.  `new` is the memory of the new vector
(`set_len` without initialisation, lines 274-276), of `grow n` bytes. -/
def CBuf.reserveOn (new : Nat → Bytes) (grow : Nat → Nat) (c : CBuf) (size : Nat) : Except Panic CBuf :=
  let newCapacity := c.length + size
  if c.capacity ≥ newCapacity then .ok c
  else do
    let newBuffer : Bytes := new (grow newCapacity)
    let (a, b) := occupied c.position c.length c.capacity
    let sa ← sliceOf c.buffer a
    let newBuffer := overwrite newBuffer 0 sa
    match b with
    | none => .ok ⟨newBuffer, 0, c.length⟩
    | some b =>
      let sb ← sliceOf c.buffer b
      .ok ⟨overwrite newBuffer a.len sb, 0, c.length⟩

/-- State of `StreamReader` — src/readable.rs:291-297; `used`: how much uninitialised memory has been used (ghost). -/
structure DevSt (σ : Type) where
  dev : σ
  buf : CBuf
  buffering : Bool
  used : Nat

section
variable {σ : Type} (D : Device σ) (junk : Nat → UInt8) (grow : Nat → Nat)

/-- `try_append_with( size, |chunk| reader.read( chunk ) )` — src/circular_buffer.rs:289-297.  (The addition to `length` is not
checked in a release build; here it does not wrap around.) -/
def DevSt.append (size : Nat) (s : DevSt σ) : Except Panic (Except IoKind Nat × DevSt σ) := do
  let c ← s.buf.reserveOn (fresh junk s.used) grow size
  let used := s.used + if s.buf.capacity ≥ s.buf.length + size then 0 else grow (s.buf.length + size)
  let (range, _) := emptyRange c.position c.length c.capacity size
  let sl ← sliceOf c.buffer range
  match D.read sl s.dev with
  | (.error k, sl, dev) => .ok (.error k, ⟨dev, ⟨overwrite c.buffer range.start sl, c.position, c.length⟩, s.buffering, used⟩)
  | (.ok n, sl, dev) => .ok (.ok n, ⟨dev, ⟨overwrite c.buffer range.start sl, c.position, c.length + n⟩, s.buffering, used⟩)

/-- The loop of `read_bytes_slow` — src/readable.rs:304-324.  (A stream which returns too large numbers may be asked more often
than the fuel allows.) -/
def devFill (n : Nat) : Nat → DevSt σ → Except Err Unit × DevSt σ
  | 0, s => (.error .diverge, s)
  | fuel + 1, s =>
    if s.buf.length < s.buf.capacity then
      match s.append D junk grow (s.buf.capacity - s.buf.length) with
      | .error p => (.error (.panic p), s)
      | .ok (.error k, s) => (.error (.io k), s)
      | .ok (.ok w, s) =>
        if w = 0 then
          if s.buf.length < n then (.error .unexpectedEndOfInput, s) else (.ok (), s)
        else if s.buf.length ≥ n then (.ok (), s)
        else devFill n fuel s
    else (.ok (), s)

/-- Second half of `read_bytes_slow` — src/readable.rs:326-340; `out` is the output, whose first bytes are taken from the
buffer; `read_exact` is given the rest as it is. -/
def devTake (out : Bytes) (s : DevSt σ) : Except Err Bytes × DevSt σ :=
  let length := min s.buf.length out.length
  let r : Except Panic (Bytes × CBuf) :=
    if s.buf.length > 0 then s.buf.consumeInto length else .ok ([], s.buf)
  match r with
  | .error p => (.error (.panic p), s)
  | .ok (d, buf) =>
    let s := { s with buf := buf }
    if out.length - d.length = 0 then (.ok d, s)
    else match D.readExact (out.drop d.length) s.dev with
      | (.error k, _, dev) => (.error (.io k), { s with dev := dev })
      | (.ok _, rest, dev) => (.ok (d ++ rest), { s with dev := dev })

/-- `read_bytes` — src/readable.rs:301-354, with an uninitialised output of `n` bytes (`MaybeUninit::uninit()`,
src/reader.rs:119-503; `Vec::with_capacity`, src/reader.rs:519-545). -/
def devRead (n : Nat) (s : DevSt σ) : Except Err Bytes × DevSt σ :=
  let out := fresh junk s.used n
  let s := { s with used := s.used + n }
  if s.buf.length ≥ n then
    match s.buf.consumeInto n with
    | .error p => (.error (.panic p), s)
    | .ok (d, buf) => (.ok d, { s with buf := buf })
  else if s.buffering && decide (n < s.buf.capacity) then
    match devFill D junk grow n (s.buf.capacity + 1) s with
    | (.error e, s) => (.error e, s)
    | (.ok (), s) => devTake D out s
  else devTake D out s

/-- The loop of `peek_bytes` — src/readable.rs:357-377. -/
def devPeekFill (n : Nat) : Nat → DevSt σ → Except Err Unit × DevSt σ
  | 0, s => (.error .diverge, s)
  | fuel + 1, s =>
    if s.buf.length < n then
      let chunk := n - s.buf.length
      let chunk := if s.buffering then max chunk (s.buf.capacity - s.buf.length) else chunk
      match s.append D junk grow chunk with
      | .error p => (.error (.panic p), s)
      | .ok (.error k, s) => (.error (.io k), s)
      | .ok (.ok w, s) =>
        if w = 0 then (.error .unexpectedEndOfInput, s)
        else devPeekFill n fuel s
    else (.ok (), s)

/-- `peek_bytes` — src/readable.rs:356-387. -/
def devPeek (n : Nat) (s : DevSt σ) : Except Err Bytes × DevSt σ :=
  match devPeekFill D junk grow n (n + 1) s with
  | (.error e, s) => (.error e, s)
  | (.ok (), s) =>
    match s.buf.asSlicesOfLength n with
    | .error p => (.error (.panic p), s)
    | .ok (a, b) =>
      match copyOut n a b with
      | .error p => (.error (.panic p), s)
      | .ok out => (.ok out, s)

/-- `impl Reader for StreamReader` — src/readable.rs:344-396, and the defaults of the trait (src/reader.rs:76-112). -/
def devReader : ReaderOps (DevSt σ) where
  read := devRead D junk grow
  peek := devPeek D junk grow
  skip := fun n s => skipLoop (devRead D junk grow) (n + 1) n s
  canRead := fun _ _ => none
  borrow := fun _ s => (none, s)
  borrowR := fun _ s => (none, s)
  borrowEof := fun s => (none, s)

/-- `StreamReader::deserialize` — src/readable.rs:401-417, with `CircularBuffer::with_capacity`
(src/circular_buffer.rs:217-231, a release build). -/
def DevSt.init (buffering : Bool) (dev : σ) : DevSt σ :=
  let n := if buffering then 8 * 1024 else 0
  ⟨dev, ⟨fresh junk 0 n, 0, 0⟩, buffering, n⟩

end

/-! ## Two runs -/

/-- Circular buffers which differ in unoccupied memory only. -/
structure CBuf.Like (c d : CBuf) : Prop where
  inv : c.Inv
  inv' : d.Inv
  position : c.position = d.position
  length : c.length = d.length
  capacity : c.capacity = d.capacity
  content : c.content = d.content

theorem CBuf.reserveOn_ok {new : Nat → Bytes} (hn : ∀ n, (new n).length = n) {grow : Nat → Nat} (hg : ∀ n, n ≤ grow n) {c : CBuf}
    (hc : c.Inv) (size : Nat) :
    ∃ c', c.reserveOn new grow size = .ok c' ∧ c'.Inv ∧ c'.content = c.content ∧
      c.length + size ≤ c'.capacity ∧ c'.length = c.length ∧
      c'.position = (if c.capacity ≥ c.length + size then c.position else 0) ∧
      c'.capacity = (if c.capacity ≥ c.length + size then c.capacity else grow (c.length + size)) := by
  unfold CBuf.reserveOn
  by_cases h : c.capacity ≥ c.length + size
  · simp only [h, if_true]
    exact ⟨c, rfl, hc, rfl, by omega, rfl, rfl, rfl⟩
  · simp only [h, if_false]
    have h0 := hg (c.length + size)
    obtain ⟨a, b, h1, h2, h3⟩ := CBuf.asSlices_ok hc
    have hlen : a.length + (b.getD []).length = c.length := by
      have := congrArg List.length h2
      simpa using this
    unfold CBuf.asSlices at h1
    generalize hocc : occupied c.position c.length c.capacity = ab at h1
    obtain ⟨ra, rb⟩ := ab
    simp only [bind, Except.bind] at h1 ⊢
    cases hsa : sliceOf c.buffer ra with
    | error e => rw [hsa] at h1; simp at h1
    | ok sa =>
      rw [hsa] at h1
      simp only at h1 ⊢
      have hra : sa.length = ra.len := by
        unfold sliceOf at hsa
        split at hsa
        · injection hsa with hsa
          subst hsa
          simp [Rng.len]; omega
        · exact absurd hsa (by simp)
      have hnew := hn (grow (c.length + size))
      generalize new (grow (c.length + size)) = nb at hnew
      cases rb with
      | none =>
        simp only [Except.ok.injEq, Prod.mk.injEq] at h1
        obtain ⟨rfl, rfl⟩ := h1
        simp only [Option.getD_none, List.append_nil, List.length_nil, Nat.add_zero] at h2 hlen
        have hl : (overwrite nb 0 sa).length = grow (c.length + size) := by
          rw [overwrite_length] <;> omega
        refine ⟨_, rfl, ⟨?_, ?_, ?_⟩, ?_, ?_, rfl, rfl, hl⟩
        · simp only [CBuf.capacity, hl]; omega
        · simp
        · simp
        · apply list_ext_getD
          · simp
          · intro i hi
            simp at hi
            rw [CBuf.content_getD (by simpa using hi), ← h2]
            simp only [CBuf.capacity, Nat.zero_add]
            rw [Nat.mod_eq_of_lt (by rw [hl]; omega), overwrite_getD (by omega), if_pos (by omega), Nat.sub_zero]
        · simp only [CBuf.capacity, hl]; omega
      | some rb =>
        cases hsb : sliceOf c.buffer rb with
        | error e => simp [hsb] at h1
        | ok sb =>
          simp only [hsb, Except.ok.injEq, Prod.mk.injEq] at h1 ⊢
          obtain ⟨rfl, rfl⟩ := h1
          simp only [Option.getD_some] at h2 hlen
          have hl1 : (overwrite nb 0 sa).length = grow (c.length + size) := by
            rw [overwrite_length] <;> omega
          have hl : (overwrite (overwrite nb 0 sa) ra.len sb).length
              = grow (c.length + size) := by
            rw [overwrite_length, hl1]; rw [hl1]; omega
          refine ⟨_, rfl, ⟨?_, ?_, ?_⟩, ?_, ?_, rfl, rfl, hl⟩
          · simp only [CBuf.capacity, hl]; omega
          · simp
          · simp
          · apply list_ext_getD
            · simp
            · intro i hi
              simp at hi
              rw [CBuf.content_getD (by simpa using hi), ← h2, append_getD]
              simp only [CBuf.capacity, hl, Nat.zero_add]
              rw [Nat.mod_eq_of_lt (by omega), overwrite_getD (by rw [hl1]; omega)]
              by_cases hi2 : i < sa.length
              · rw [if_neg (by omega), overwrite_getD (by omega), if_pos (by omega), if_pos hi2, Nat.sub_zero]
              · rw [if_pos (by omega), if_neg hi2, hra]
          · simp only [CBuf.capacity, hl]; omega

theorem CBuf.content_take {b : Bytes} {p l m : Nat} (h : m ≤ l) :
    (⟨b, p, m⟩ : CBuf).content = (⟨b, p, l⟩ : CBuf).content.take m := by
  simp only [CBuf.content, CBuf.capacity]
  rw [← List.map_take, List.take_range, Nat.min_eq_left h]

/-- A stream which has stored bytes in the offered range, and says how many. -/
theorem CBuf.stored {c : CBuf} (hc : c.Inv) {size n : Nat} (hs : c.length + size ≤ c.capacity) {sl : Bytes}
    (hl : sl.length = (emptyRange c.position c.length c.capacity size).1.len) (hn : n ≤ sl.length) :
    let c' : CBuf := ⟨overwrite c.buffer (emptyRange c.position c.length c.capacity size).1.start sl, c.position, c.length + n⟩
    c'.Inv ∧ c'.content = c.content ++ sl.take n ∧ c'.capacity = c.capacity := by
  intro c'
  obtain ⟨h1, h2, h3, h4, h5⟩ := emptyRange_spec hc size hs
  have hadd : (emptyRange c.position c.length c.capacity size).1.start + sl.length ≤ c.capacity := by
    rw [hl]; simp only [Rng.len]; omega
  obtain ⟨g1, g2, g3⟩ := CBuf.append_content hc (d := sl) hadd (by omega) h4 (by
    cases sl with
    | nil => exact .inr rfl
    | cons _ _ => exact .inl (by simp))
  refine ⟨⟨?_, ?_, ?_⟩, ?_, g3⟩
  · have := g1.len_le
    simp only [CBuf.capacity, c'] at this ⊢
    omega
  · intro h
    exact hc.pos_zero (by simp only [c'] at h; omega)
  · exact g1.pos_lt
  · simp only [c']
    rw [CBuf.content_take (l := c.length + sl.length) (by omega)]
    rw [g2, List.take_append, List.take_of_length_le (by simp)]
    simp

theorem CBuf.consumeInto_pos {c c' : CBuf} {n : Nat} {out : Bytes} (hn : n ≤ c.length) (h : c.consumeInto n = .ok (out, c')) :
    c'.length = c.length - n ∧
    c'.position = (if c.position + n < c.capacity then (if c.length - n = 0 then 0 else c.position + n)
      else if n = 0 then c.position else if c.length - n = 0 then 0 else (c.position + n) % c.capacity) := by
  unfold CBuf.consumeInto at h
  rw [Nat.min_eq_right hn] at h
  by_cases h1 : c.position + n < c.capacity
  · simp only [h1, if_true, bind, Except.bind] at h
    split at h <;> simp only [Except.ok.injEq, Prod.mk.injEq, reduceCtorEq] at h
    obtain ⟨_, rfl⟩ := h
    simp [h1]
  · simp only [h1, if_false, CBuf.consumeIntoSlow] at h
    by_cases h2 : n = 0
    · simp only [h2, if_true, Except.ok.injEq, Prod.mk.injEq] at h
      obtain ⟨_, rfl⟩ := h
      subst h2
      simp only [Nat.add_zero, Nat.sub_zero] at h1 ⊢
      simp [h1]
    · simp only [h2, if_false, hn, if_true, bind, Except.bind] at h
      cases h3 : c.asSlicesOfLength n with
      | error p => simp [h3] at h
      | ok ab =>
        cases h4 : copyOut n ab.1 ab.2 with
        | error p => simp [h3, h4] at h
        | ok o =>
          cases h5 : c.consume n with
          | error p => simp [h3, h4, h5] at h
          | ok d =>
            simp only [h3, h4, h5, Except.ok.injEq, Prod.mk.injEq] at h
            obtain ⟨_, rfl⟩ := h
            unfold CBuf.consume at h5
            simp only [hn, if_true] at h5
            split at h5
            · simp at h5
            · simp only [Except.ok.injEq] at h5
              subst h5
              simp [h1, h2]

theorem CBuf.Like.consumeInto {c d : CBuf} (h : c.Like d) {n : Nat} (hn : n ≤ c.length) :
    ∃ out c' d', c.consumeInto n = .ok (out, c') ∧ d.consumeInto n = .ok (out, d') ∧ c'.Like d' ∧ out.length = n := by
  obtain ⟨c', h1, h2, h3, h4⟩ := CBuf.consumeInto_ok h.inv hn
  obtain ⟨d', g1, g2, g3, g4⟩ := CBuf.consumeInto_ok h.inv' (n := n) (by rw [← h.length]; exact hn)
  obtain ⟨p1, p2⟩ := CBuf.consumeInto_pos hn h1
  obtain ⟨q1, q2⟩ := CBuf.consumeInto_pos (by rw [← h.length]; exact hn) g1
  refine ⟨_, c', d', h1, by rw [g1, h.content], ⟨h2, g2, ?_, ?_, ?_, ?_⟩, by simp; omega⟩
  · rw [p2, q2, h.position, h.length, h.capacity]
  · rw [p1, q1, h.length]
  · rw [h4, g4, h.capacity]
  · rw [h3, g3, h.content]

/-- A stream which keeps the contract of `Read`: what it does does not depend on what is in the slice, and `Ok( n )` means that it
has stored `n` bytes in the slice, `Ok(())` of `read_exact` that it has filled it. -/
structure Device.Honest {σ : Type} (D : Device σ) : Prop where
  read : ∀ a b s, a.length = b.length → (D.read a s).1 = (D.read b s).1 ∧ (D.read a s).2.2 = (D.read b s).2.2 ∧
    ∀ n, (D.read a s).1 = .ok n → n ≤ a.length ∧ (D.read a s).2.1.take n = (D.read b s).2.1.take n
  exact : ∀ a b s, a.length = b.length → (D.readExact a s).1 = (D.readExact b s).1 ∧
    (D.readExact a s).2.2 = (D.readExact b s).2.2 ∧ ((D.readExact a s).1 = .ok () → (D.readExact a s).2.1 = (D.readExact b s).2.1)

/-- States which differ in unoccupied memory only. -/
structure DevSt.Like {σ : Type} (s t : DevSt σ) : Prop where
  dev : s.dev = t.dev
  buf : s.buf.Like t.buf
  buffering : s.buffering = t.buffering
  used : s.used = t.used

/-- The same result, and such states. -/
def AlikeRes {σ α : Type} (r r' : α × DevSt σ) : Prop := r.1 = r'.1 ∧ r.2.Like r'.2

section
variable {σ : Type} {D : Device σ} (hD : D.Honest) {junk junk' : Nat → UInt8} {grow : Nat → Nat} (hg : ∀ n, n ≤ grow n)
include hD hg

theorem append_like {s t : DevSt σ} (h : s.Like t) (size : Nat) :
    ∃ r r', s.append D junk grow size = .ok r ∧ t.append D junk' grow size = .ok r' ∧ AlikeRes r r' := by
  obtain ⟨c, h1, h2, h3, h4, h5, h6, h7⟩ := CBuf.reserveOn_ok (fresh_length junk s.used) hg h.buf.inv size
  obtain ⟨d, g1, g2, g3, g4, g5, g6, g7⟩ := CBuf.reserveOn_ok (fresh_length junk' t.used) hg h.buf.inv' size
  have hpos : c.position = d.position := by rw [h6, g6, h.buf.position, h.buf.length, h.buf.capacity]
  have hlen : c.length = d.length := by rw [h5, g5, h.buf.length]
  have hcap : c.capacity = d.capacity := by rw [h7, g7, h.buf.length, h.buf.capacity]
  have hused : s.used + (if s.buf.capacity ≥ s.buf.length + size then 0 else grow (s.buf.length + size)) =
      t.used + (if t.buf.capacity ≥ t.buf.length + size then 0 else grow (t.buf.length + size)) := by
    rw [h.used, h.buf.length, h.buf.capacity]
  have hs : c.length + size ≤ c.capacity := by rw [h5]; exact h4
  have ht : d.length + size ≤ d.capacity := by rw [g5]; exact g4
  obtain ⟨r1, r2, r3, _, _⟩ := emptyRange_spec h2 size hs
  have hr : emptyRange d.position d.length d.capacity size = emptyRange c.position c.length c.capacity size := by
    rw [hpos, hlen, hcap]
  have k1 := fun sl n hl hn => CBuf.stored (sl := sl) (n := n) h2 hs hl hn
  have k2 := fun sl n hl hn => CBuf.stored (sl := sl) (n := n) g2 ht hl hn
  rw [hr] at k2
  unfold DevSt.append
  simp only [h1, g1, bind, Except.bind, hr]
  generalize emptyRange c.position c.length c.capacity size = rg at *
  obtain ⟨rg, rb⟩ := rg
  simp only at *
  have e1 : sliceOf c.buffer rg = .ok ((c.buffer.drop rg.start).take rg.len) := by
    unfold sliceOf; rw [if_pos ⟨r1, r2⟩]
  have e2 : sliceOf d.buffer rg = .ok ((d.buffer.drop rg.start).take rg.len) := by
    unfold sliceOf; rw [if_pos ⟨r1, by have := hcap ▸ r2; exact this⟩]
  have l1 : ((c.buffer.drop rg.start).take rg.len).length = rg.len := by
    simp [Rng.len]; unfold CBuf.capacity at r2; omega
  have l2 : ((d.buffer.drop rg.start).take rg.len).length = rg.len := by
    rw [hcap] at r2
    simp [Rng.len]; unfold CBuf.capacity at r2; omega
  rw [e1, e2]
  simp only
  generalize (c.buffer.drop rg.start).take rg.len = a at *
  generalize (d.buffer.drop rg.start).take rg.len = b at *
  obtain ⟨d1, d2, d3⟩ := hD.read a b s.dev (by rw [l1, l2])
  have m1 := D.read_len a s.dev
  have m2 := D.read_len b s.dev
  rw [← h.dev]
  generalize D.read a s.dev = ra at *
  generalize D.read b s.dev = rb' at *
  obtain ⟨x, a', s1⟩ := ra
  obtain ⟨y, b', s2⟩ := rb'
  simp only at d1 d2 d3 m1 m2
  subst d1
  subst d2
  cases x with
  | error k =>
    obtain ⟨i1, i2, i3⟩ := k1 a' 0 (by omega) (by omega)
    obtain ⟨j1, j2, j3⟩ := k2 b' 0 (by omega) (by omega)
    refine ⟨_, _, rfl, rfl, rfl, ⟨rfl, ⟨i1, j1, hpos, hlen, ?_, ?_⟩, h.buffering, hused⟩⟩
    · exact i3.trans (hcap.trans j3.symm)
    · simp only [List.take_zero, List.append_nil] at i2 j2
      exact i2.trans ((h3.trans (h.buf.content.trans g3.symm)).trans j2.symm)
  | ok n =>
    obtain ⟨n1, n2⟩ := d3 n rfl
    obtain ⟨i1, i2, i3⟩ := k1 a' n (by omega) (by omega)
    obtain ⟨j1, j2, j3⟩ := k2 b' n (by omega) (by omega)
    refine ⟨_, _, rfl, rfl, rfl, ⟨rfl, ⟨i1, j1, hpos, by simp only [hlen], ?_, ?_⟩, h.buffering, hused⟩⟩
    · exact i3.trans (hcap.trans j3.symm)
    · rw [n2, h3, h.buf.content, ← g3] at i2
      exact i2.trans j2.symm

theorem devFill_like (n : Nat) : ∀ (fuel : Nat) {s t : DevSt σ}, s.Like t →
    AlikeRes (devFill D junk grow n fuel s) (devFill D junk' grow n fuel t)
  | 0, _, _, h => ⟨rfl, h⟩
  | fuel + 1, s, t, h => by
    unfold devFill
    rw [← h.buf.length, ← h.buf.capacity]
    split
    · obtain ⟨⟨r, s1⟩, ⟨r', t1⟩, h1, h2, h3, h4⟩ := append_like (junk := junk) (junk' := junk') hD hg h (s.buf.capacity - s.buf.length)
      simp only at h3 h4
      subst h3
      rw [h1, h2]
      cases r with
      | error k => exact ⟨rfl, h4⟩
      | ok w =>
        simp only
        rw [← h4.buf.length]
        split
        · split <;> exact ⟨rfl, h4⟩
        · split
          · exact ⟨rfl, h4⟩
          · exact devFill_like n fuel h4
    · exact ⟨rfl, h⟩

theorem devPeekFill_like (n : Nat) : ∀ (fuel : Nat) {s t : DevSt σ}, s.Like t →
    AlikeRes (devPeekFill D junk grow n fuel s) (devPeekFill D junk' grow n fuel t)
  | 0, _, _, h => ⟨rfl, h⟩
  | fuel + 1, s, t, h => by
    unfold devPeekFill
    rw [← h.buf.length, ← h.buf.capacity, ← h.buffering]
    split
    · obtain ⟨⟨r, s1⟩, ⟨r', t1⟩, h1, h2, h3, h4⟩ := append_like (junk := junk) (junk' := junk') hD hg h
        (if s.buffering then max (n - s.buf.length) (s.buf.capacity - s.buf.length) else n - s.buf.length)
      simp only at h3 h4
      subst h3
      simp only [h1, h2]
      cases r with
      | error k => exact ⟨rfl, h4⟩
      | ok w =>
        simp only
        split
        · exact ⟨rfl, h4⟩
        · exact devPeekFill_like n fuel h4
    · exact ⟨rfl, h⟩

omit hg in
theorem devTake_like {out out' : Bytes} (hl : out.length = out'.length) {s t : DevSt σ} (h : s.Like t) :
    AlikeRes (devTake D out s) (devTake D out' t) := by
  have key : ∃ d c c', (if s.buf.length > 0 then s.buf.consumeInto (min s.buf.length out.length) else .ok ([], s.buf)) = .ok (d, c) ∧
      (if t.buf.length > 0 then t.buf.consumeInto (min t.buf.length out'.length) else .ok ([], t.buf)) = .ok (d, c') ∧ c.Like c' := by
    rw [← h.buf.length, ← hl]
    split
    · obtain ⟨d, c, c', h1, h2, h3, _⟩ := h.buf.consumeInto (n := min s.buf.length out.length) (Nat.min_le_left _ _)
      exact ⟨d, c, c', h1, h2, h3⟩
    · exact ⟨[], _, _, rfl, rfl, h.buf⟩
  obtain ⟨d, c, c', h1, h2, h3⟩ := key
  unfold devTake
  simp only [h1, h2]
  rw [← hl]
  split
  · exact ⟨rfl, h.dev, h3, h.buffering, h.used⟩
  · obtain ⟨e1, e2, e3⟩ := hD.exact (out.drop d.length) (out'.drop d.length) s.dev (by simp [hl])
    rw [← h.dev]
    generalize D.readExact (out.drop d.length) s.dev = r at *
    generalize D.readExact (out'.drop d.length) s.dev = r' at *
    obtain ⟨x, a, s1⟩ := r
    obtain ⟨y, b, s2⟩ := r'
    simp only at e1 e2 e3
    subst e1
    subst e2
    cases x with
    | error k => exact ⟨rfl, rfl, h3, h.buffering, h.used⟩
    | ok u => exact ⟨by rw [e3 rfl], rfl, h3, h.buffering, h.used⟩

theorem devRead_like (n : Nat) {s t : DevSt σ} (h : s.Like t) : AlikeRes (devRead D junk grow n s) (devRead D junk' grow n t) := by
  have h' : DevSt.Like ⟨s.dev, s.buf, s.buffering, s.used + n⟩ ⟨t.dev, t.buf, s.buffering, t.used + n⟩ :=
    ⟨h.dev, h.buf, rfl, by rw [h.used]⟩
  unfold devRead
  simp only
  by_cases hn : s.buf.length ≥ n
  · obtain ⟨d, c, c', h1, h2, h3, _⟩ := h.buf.consumeInto hn
    rw [if_pos hn, if_pos (show t.buf.length ≥ n by rw [← h.buf.length]; exact hn), h1, h2]
    exact ⟨rfl, h.dev, h3, h.buffering, by rw [h.used]⟩
  · rw [if_neg hn, if_neg (show ¬ t.buf.length ≥ n by rw [← h.buf.length]; exact hn), ← h.buffering, ← h.buf.capacity]
    split
    · obtain ⟨h1, h2⟩ := devFill_like (junk := junk) (junk' := junk') hD hg n (s.buf.capacity + 1) h'
      generalize devFill D junk grow n (s.buf.capacity + 1) _ = r at *
      generalize devFill D junk' grow n (s.buf.capacity + 1) _ = r' at *
      obtain ⟨x, s1⟩ := r
      obtain ⟨y, t1⟩ := r'
      simp only at h1 h2
      subst h1
      cases x with
      | error e => exact ⟨rfl, h2⟩
      | ok u => exact devTake_like hD (by simp) h2
    · exact devTake_like hD (by simp) h'

theorem devPeek_like (n : Nat) {s t : DevSt σ} (h : s.Like t) : AlikeRes (devPeek D junk grow n s) (devPeek D junk' grow n t) := by
  unfold devPeek
  obtain ⟨h1, h2⟩ := devPeekFill_like (junk := junk) (junk' := junk') hD hg n (n + 1) h
  generalize devPeekFill D junk grow n (n + 1) s = r at *
  generalize devPeekFill D junk' grow n (n + 1) t = r' at *
  obtain ⟨x, s1⟩ := r
  obtain ⟨y, t1⟩ := r'
  simp only at h1 h2
  subst h1
  cases x with
  | error e => exact ⟨rfl, h2⟩
  | ok u =>
    simp only
    by_cases hn : n ≤ s1.buf.length
    · obtain ⟨a, b, e1, e2⟩ := CBuf.asSlicesOfLength_ok h2.buf.inv hn
      obtain ⟨a', b', f1, f2⟩ := CBuf.asSlicesOfLength_ok h2.buf.inv' (n := n) (by rw [← h2.buf.length]; exact hn)
      simp only [e1, f1, e2, f2, h2.buf.content]
      exact ⟨rfl, h2⟩
    · have e1 : s1.buf.asSlicesOfLength n = .error .assertFailed := by unfold CBuf.asSlicesOfLength; rw [if_neg hn]
      have f1 : t1.buf.asSlicesOfLength n = .error .assertFailed := by
        unfold CBuf.asSlicesOfLength; rw [if_neg (by rw [← h2.buf.length]; exact hn)]
      simp only [e1, f1]
      exact ⟨rfl, h2⟩

theorem devSkip_like : ∀ (fuel n : Nat) {s t : DevSt σ}, s.Like t →
    AlikeRes (skipLoop (devRead D junk grow) fuel n s) (skipLoop (devRead D junk' grow) fuel n t)
  | 0, _, _, _, h => ⟨rfl, h⟩
  | fuel + 1, n, s, t, h => by
    unfold skipLoop
    split
    · obtain ⟨h1, h2⟩ := devRead_like (junk := junk) (junk' := junk') hD hg (if n < 1024 then n else 1024) h
      simp only
      generalize devRead D junk grow _ s = r at *
      generalize devRead D junk' grow _ t = r' at *
      obtain ⟨x, s1⟩ := r
      obtain ⟨y, t1⟩ := r'
      simp only at h1 h2
      subst h1
      cases x with
      | error e => exact ⟨rfl, h2⟩
      | ok u => exact devSkip_like fuel _ h2
    · exact ⟨rfl, h⟩

theorem run_like {α : Type} (p : Prog α) : ∀ {s t : DevSt σ}, s.Like t →
    AlikeRes (p.run (devReader D junk grow) s) (p.run (devReader D junk' grow) t) := by
  induction p with
  | ret a => intro s t h; exact ⟨rfl, h⟩
  | read n k ih =>
    intro s t h
    obtain ⟨h1, h2⟩ := devRead_like (junk := junk) (junk' := junk') hD hg n h
    show AlikeRes ((k (devRead D junk grow n s).1).run _ (devRead D junk grow n s).2)
      ((k (devRead D junk' grow n t).1).run _ (devRead D junk' grow n t).2)
    rw [h1]; exact ih _ h2
  | peek n k ih =>
    intro s t h
    obtain ⟨h1, h2⟩ := devPeek_like (junk := junk) (junk' := junk') hD hg n h
    show AlikeRes ((k (devPeek D junk grow n s).1).run _ (devPeek D junk grow n s).2)
      ((k (devPeek D junk' grow n t).1).run _ (devPeek D junk' grow n t).2)
    rw [h1]; exact ih _ h2
  | skip n k ih =>
    intro s t h
    obtain ⟨h1, h2⟩ := devSkip_like (junk := junk) (junk' := junk') hD hg (n + 1) n h
    show AlikeRes ((k (skipLoop (devRead D junk grow) (n + 1) n s).1).run _ (skipLoop (devRead D junk grow) (n + 1) n s).2)
      ((k (skipLoop (devRead D junk' grow) (n + 1) n t).1).run _ (skipLoop (devRead D junk' grow) (n + 1) n t).2)
    rw [h1]; exact ih _ h2
  | canRead n k ih => intro s t h; exact ih none h
  | borrow n k ih => intro s t h; exact ih none h
  | borrowR n k ih => intro s t h; exact ih none h
  | borrowEof k ih => intro s t h; exact ih none h
  | alloc n m k ih => intro s t h; exact ih h

end

theorem init_like {σ : Type} (junk junk' : Nat → UInt8) (b : Bool) (dev : σ) :
    (DevSt.init junk b dev).Like (DevSt.init junk' b dev) := by
  have hi : ∀ j, (DevSt.init j b dev).buf.Inv := fun j => ⟨Nat.zero_le _, fun _ => rfl, .inr rfl⟩
  exact ⟨rfl, ⟨hi _, hi _, rfl, rfl, by simp [DevSt.init, CBuf.capacity], by simp [DevSt.init, CBuf.content]⟩, rfl, rfl⟩

end Verif
