import Verif.Custom
import Verif.PropsWrite

/-!
# C71: hand-written implementations of `Writable`
-/

namespace Verif

/-! ## Specification -/

/-- What the program does if it writes to a list of bytes: the result, what has been written (after `got`), and the context.  `limit` is the
number of bytes there is space for.  A write which does not fit is refused and changes nothing. -/
def Custom.meaning {γ : Type} (en : γ → Endian) (limit : Option Nat) : Custom γ → γ → Bytes → Except Err Unit × Bytes × γ
  | .done r, c, got => (r, got, c)
  | .bytes bs k, c, got =>
    if limit.all (got.length + bs.length ≤ ·) then (k (.ok ())).meaning en limit c (got ++ bs)
    else (k (.error .unexpectedEndOfOutputBuffer)).meaning en limit c got
  | .num n v k, c, got =>
    if limit.all (got.length + n ≤ ·) then (k (.ok ())).meaning en limit c (got ++ (en c).bytes n v)
    else (k (.error .unexpectedEndOfOutputBuffer)).meaning en limit c got
  | .ask n k, c, got => (k (limit.map fun l => decide (got.length + n ≤ l))).meaning en limit c got
  | .look k, c, got => (k c).meaning en limit c got
  | .change f k, c, got => k.meaning en limit (f c) got

/-- The numbers given to `can_write_at_least` are of the type `usize`. -/
inductive Custom.Sized {γ : Type} (h : Host) : Custom γ → Prop
  | done (r) : Custom.Sized h (.done r)
  | bytes {bs k} (hk : ∀ r, Custom.Sized h (k r)) : Custom.Sized h (.bytes bs k)
  | num {n v k} (hk : ∀ r, Custom.Sized h (k r)) : Custom.Sized h (.num n v k)
  | ask {n k} (hn : n ≤ h.usizeMax) (hk : ∀ r, Custom.Sized h (k r)) : Custom.Sized h (.ask n k)
  | look {k} (hk : ∀ r, Custom.Sized h (k r)) : Custom.Sized h (.look k)
  | change {f k} (hk : Custom.Sized h k) : Custom.Sized h (.change f k)

/-! ## The buffer -/

/-- What is written stays, and it is within the limit. -/
theorem meaning_grows {γ : Type} {en : γ → Endian} {limit : Option Nat} (p : Custom γ) (c : γ) (got : Bytes)
    (h : limit.all (got.length ≤ ·) = true) :
    (∃ more, (p.meaning en limit c got).2.1 = got ++ more) ∧ limit.all ((p.meaning en limit c got).2.1.length ≤ ·) = true := by
  induction p generalizing c got with
  | done r => exact ⟨⟨[], by simp [Custom.meaning]⟩, h⟩
  | bytes bs k ih =>
    simp only [Custom.meaning]
    split
    · rename_i hf
      obtain ⟨⟨m, h1⟩, h2⟩ := ih (.ok ()) c (got ++ bs) (by simpa using hf)
      exact ⟨⟨bs ++ m, by rw [h1, List.append_assoc]⟩, h2⟩
    · exact ih _ c got h
  | num n v k ih =>
    simp only [Custom.meaning]
    split
    · rename_i hf
      obtain ⟨⟨m, h1⟩, h2⟩ := ih (.ok ()) c (got ++ (en c).bytes n v) (by simpa using hf)
      exact ⟨⟨(en c).bytes n v ++ m, by rw [h1, List.append_assoc]⟩, h2⟩
    · exact ih _ c got h
  | ask n k ih => exact ih _ c got h
  | look k ih => exact ih _ c got h
  | change f k ih => exact ih _ got h

theorem write_fits {got rest bs : Bytes} (h : got.length + bs.length ≤ (got ++ rest).length) :
    BufC.write bs ⟨got ++ rest, got.length⟩ = (.ok (), ⟨(got ++ bs) ++ rest.drop bs.length, (got ++ bs).length⟩) := by
  unfold BufC.write
  rw [if_pos h]
  simp [List.drop_append]

theorem write_refused {got rest bs : Bytes} (h : ¬ got.length + bs.length ≤ (got ++ rest).length) :
    BufC.write bs ⟨got ++ rest, got.length⟩ = (.error .unexpectedEndOfOutputBuffer, ⟨got ++ rest, got.length⟩) := by
  unfold BufC.write
  rw [if_neg h]

theorem canWriteWrap_eq {h : Host} {n : Nat} {s : BufC} (hn : n ≤ h.usizeMax) (hp : s.pos ≤ s.buf.length) (hb : s.buf.length ≤ h.usizeMax) :
    BufC.canWriteWrap h n s = some (decide (s.pos + n ≤ s.buf.length)) := by
  unfold BufC.canWriteWrap Host.wrap
  congr 1
  rw [decide_eq_decide]
  have hm : 0 < h.usizeMax + 1 := by omega
  by_cases hlt : s.pos + n < h.usizeMax + 1
  · rw [Nat.mod_eq_of_lt hlt]
    omega
  · have h1 : (s.pos + n) % (h.usizeMax + 1) = s.pos + n - (h.usizeMax + 1) := by
      rw [Nat.mod_eq_sub_mod (by omega)]
      exact Nat.mod_eq_of_lt (by omega)
    rw [h1]
    omega

/-- A buffer of `got.length + rest.length` bytes, of which `got` are written. -/
theorem run_anyBuffer {γ : Type} {h : Host} {en : γ → Endian} {p : Custom γ} (hp : p.Sized h) : ∀ (c : γ) (got rest : Bytes),
    (got ++ rest).length ≤ h.usizeMax →
    p.run (CtxWriter.anyBuffer h en) c ⟨got ++ rest, got.length⟩ =
      (let m := p.meaning en (some (got ++ rest).length) c got
       (m.1, m.2.2, ⟨m.2.1 ++ (got ++ rest).drop m.2.1.length, m.2.1.length⟩)) := by
  have key : ∀ (bs : Bytes) (k : Except Err Unit → Custom γ) (c : γ) (got rest : Bytes), (got ++ rest).length ≤ h.usizeMax →
      (∀ r (c : γ) (got rest : Bytes), (got ++ rest).length ≤ h.usizeMax →
        (k r).run (CtxWriter.anyBuffer h en) c ⟨got ++ rest, got.length⟩ =
          (let m := (k r).meaning en (some (got ++ rest).length) c got
           (m.1, m.2.2, ⟨m.2.1 ++ (got ++ rest).drop m.2.1.length, m.2.1.length⟩))) →
      (k (BufC.write bs ⟨got ++ rest, got.length⟩).1).run (CtxWriter.anyBuffer h en) c (BufC.write bs ⟨got ++ rest, got.length⟩).2 =
        (let m := if got.length + bs.length ≤ (got ++ rest).length then (k (.ok ())).meaning en (some (got ++ rest).length) c (got ++ bs)
           else (k (.error .unexpectedEndOfOutputBuffer)).meaning en (some (got ++ rest).length) c got
         (m.1, m.2.2, ⟨m.2.1 ++ (got ++ rest).drop m.2.1.length, m.2.1.length⟩)) := by
    intro bs k c got rest hl ih
    by_cases hf : got.length + bs.length ≤ (got ++ rest).length
    · rw [write_fits hf, if_pos hf]
      have hlen : (got ++ bs ++ rest.drop bs.length).length = (got ++ rest).length := by
        simp only [List.length_append, List.length_drop] at hf ⊢; omega
      rw [ih _ _ _ _ (by rw [hlen]; exact hl), hlen]
      obtain ⟨⟨m, h1⟩, _⟩ := meaning_grows (en := en) (limit := some (got ++ rest).length) (k (.ok ())) c (got ++ bs) (by
        simpa using hf)
      generalize (k (.ok ())).meaning en (some (got ++ rest).length) c (got ++ bs) = r at h1
      have hd : (got ++ bs ++ rest.drop bs.length).drop r.2.1.length = (got ++ rest).drop r.2.1.length := by
        rw [h1]
        simp only [List.drop_append, List.length_append, List.drop_drop]
        rw [List.drop_eq_nil_of_le (as := got) (by omega), List.drop_eq_nil_of_le (as := bs) (by omega)]
        simp only [List.nil_append]
        congr 1; omega
      simp only [hd]
    · rw [write_refused hf, if_neg hf, ih _ _ _ _ hl]
  induction hp with
  | done r => intro c got rest hl; simp [Custom.run, Custom.meaning]
  | bytes hk ih =>
    intro c got rest hl
    simp only [Custom.run, Custom.meaning, Option.all_some, decide_eq_true_eq]
    exact key _ _ c got rest hl ih
  | @num n v k hk ih =>
    intro c got rest hl
    have := key (numBytes h (en c) n v) k c got rest hl ih
    rw [numBytes_length, numBytes_eq] at this
    simp only [Custom.run, Custom.meaning, Option.all_some, decide_eq_true_eq]
    rw [← this]
    simp only [CtxWriter.anyBuffer, defaultOps, numBytes_eq]
  | ask hn hk ih =>
    intro c got rest hl
    simp only [Custom.run, Custom.meaning, Option.map_some]
    rw [← ih _ c got rest hl]
    simp only [CtxWriter.anyBuffer, defaultOps]
    rw [canWriteWrap_eq hn (by simp) hl]
  | look hk ih =>
    intro c got rest hl
    simp only [Custom.run, Custom.meaning]
    rw [← ih _ c got rest hl]
    simp [CtxWriter.anyBuffer]
  | change hk ih =>
    intro c got rest hl
    simp only [Custom.run, Custom.meaning]
    rw [← ih _ got rest hl]
    simp [CtxWriter.anyBuffer]

/-- **C71**: whatever `bytes_needed` and `write_to` do, `write_to_vec` returns the bytes which were written successfully, all of them and in
order, and nothing of the uninitialised memory `junk`; no more than `bytes_needed` said. -/
theorem C71_vec {γ : Type} {h : Host} (hh : h.Ok) {en : γ → Endian} {p : Custom γ} (hp : p.Sized h) (c : γ) (junk : Nat → UInt8) :
    (∀ er, Custom.writeVec h en (.error er) p c junk = (.error er, c)) ∧
    (∀ n, h.isizeMax < n → Custom.writeVec h en (.ok n) p c junk = (.error (.panic .capacityOverflow), c)) ∧
    (∀ n, n ≤ h.isizeMax → Custom.writeVec h en (.ok n) p c junk =
      ((p.meaning en (some n) c []).1.map (fun _ => (p.meaning en (some n) c []).2.1), (p.meaning en (some n) c []).2.2)) ∧
    (∀ n, (p.meaning en (some n) c []).2.1.length ≤ n) := by
  refine ⟨fun _ => rfl, fun n hn => ?_, fun n hn => ?_, fun n => ?_⟩
  · unfold Custom.writeVec
    simp only [gt_iff_lt, if_pos hn]
  · have hu := hh.isize
    unfold Custom.writeVec
    simp only [gt_iff_lt, if_neg (Nat.not_lt.2 hn)]
    have h1 := run_anyBuffer (en := en) hp c [] ((List.range n).map junk) (by simp; omega)
    simp only [List.nil_append, List.length_nil, List.length_map, List.length_range] at h1
    rw [h1]
    rcases hm : p.meaning en (some n) c [] with ⟨r, bs, c'⟩
    cases r <;> simp [Except.map]
  · simpa using (meaning_grows (en := en) (limit := some n) p c [] (by simp)).2

/-- **C71**: `write_to_buffer` changes exactly the bytes which were written, at the beginning of the buffer, also if it fails. -/
theorem C71_buffer {γ : Type} {h : Host} {en : γ → Endian} {p : Custom γ} (hp : p.Sized h) (c : γ) (buf : Bytes) (hb : buf.length ≤ h.usizeMax) :
    (∀ er, Custom.writeBuffer h en (.error er) p c buf = (.error er, c, buf)) ∧
    (∀ n, buf.length < n → Custom.writeBuffer h en (.ok n) p c buf = (.error (.outputBufferIsTooSmall buf.length n), c, buf)) ∧
    (∀ n, n ≤ buf.length → (p.meaning en (some n) c []).2.1.length ≤ n ∧ Custom.writeBuffer h en (.ok n) p c buf =
      ((p.meaning en (some n) c []).1, (p.meaning en (some n) c []).2.2,
        (p.meaning en (some n) c []).2.1 ++ buf.drop (p.meaning en (some n) c []).2.1.length)) := by
  refine ⟨fun _ => rfl, fun n hn => ?_, fun n hn => ?_⟩
  · unfold Custom.writeBuffer
    simp only [if_neg (Nat.not_le.2 hn)]
  · have hle : (p.meaning en (some n) c []).2.1.length ≤ n := by
      simpa using (meaning_grows (en := en) (limit := some n) p c [] (by simp)).2
    refine ⟨hle, ?_⟩
    unfold Custom.writeBuffer
    simp only [if_pos hn]
    have h1 := run_anyBuffer (en := en) hp c [] (buf.take n) (by simp; omega)
    simp only [List.nil_append, List.length_nil, List.length_take, Nat.min_eq_left hn] at h1
    rw [h1]
    generalize p.meaning en (some n) c [] = m at hle
    simp only [List.append_assoc, Prod.mk.injEq, true_and]
    congr 1
    rw [List.drop_take]
    conv => rhs; rw [← List.take_append_drop (n - m.2.1.length) (buf.drop m.2.1.length)]
    rw [List.drop_drop]
    congr 2; omega

/-- **C71**: `can_write_at_least(n)` tells whether writing `n` bytes is going to work; a write which does not is reported and changes
nothing. -/
theorem C71_can_write {h : Host} {s : BufC} (hp : s.pos ≤ s.buf.length) (hb : s.buf.length ≤ h.usizeMax) {n : Nat} (hn : n ≤ h.usizeMax)
    {bs : Bytes} (hbs : bs.length = n) :
    BufC.canWriteWrap h n s = some (decide ((BufC.write bs s).1 = .ok ())) ∧
    ((BufC.write bs s).1 ≠ .ok () → BufC.write bs s = (.error .unexpectedEndOfOutputBuffer, s)) := by
  subst hbs
  rw [canWriteWrap_eq hn hp hb]
  unfold BufC.write
  split <;> rename_i hf <;> simp [hf]

/-! ## The stream and the size calculator -/

/-- No call of `can_write_at_least`. -/
inductive Custom.Silent {γ : Type} : Custom γ → Prop
  | done (r) : Custom.Silent (.done r)
  | bytes {bs k} (hk : ∀ r, Custom.Silent (k r)) : Custom.Silent (.bytes bs k)
  | num {n v k} (hk : ∀ r, Custom.Silent (k r)) : Custom.Silent (.num n v k)
  | look {k} (hk : ∀ r, Custom.Silent (k r)) : Custom.Silent (.look k)
  | change {f k} (hk : Custom.Silent k) : Custom.Silent (.change f k)

/-- No call of `context` and `context_mut`. -/
inductive Custom.Blind {γ : Type} : Custom γ → Prop
  | done (r) : Custom.Blind (.done r)
  | bytes {bs k} (hk : ∀ r, Custom.Blind (k r)) : Custom.Blind (.bytes bs k)
  | num {n v k} (hk : ∀ r, Custom.Blind (k r)) : Custom.Blind (.num n v k)
  | ask {n k} (hk : ∀ r, Custom.Blind (k r)) : Custom.Blind (.ask n k)

theorem sink_write {s : Sink} (hw : s.Works) (bs : Bytes) :
    (Sink.write bs s).1 = .ok () ∧ (Sink.write bs s).2.got = s.got ++ bs ∧ (Sink.write bs s).2.Works := by
  obtain ⟨_, h2, h3, h4⟩ := writeAll_prefix s.evs s.got bs
  have h5 : (Sink.writeAll s.evs s.got bs).1 = .ok () := by
    cases hr : (Sink.writeAll s.evs s.got bs).1 with
    | ok u => rfl
    | error er =>
      rcases h3 er hr with ⟨_, h⟩ | ⟨k, _, hk, h⟩
      · rcases hw _ h with ⟨m, h⟩ | h <;> simp at h
      · rcases hw _ h with ⟨m, h⟩ | h
        · simp at h
        · simp at h; exact absurd h hk
  exact ⟨h5, h2 h5, fun ev he => hw ev (h4 ev he)⟩

/-- **C71**: `write_to_stream` does what the program says, and `bytes_needed` is not asked. -/
theorem C71_stream {γ : Type} {h : Host} {en : γ → Endian} (p : Custom γ) (c : γ) (s : Sink) (hw : s.Works) :
    (Custom.writeStream h en p c s).1 = (p.meaning en none c []).1 ∧
    (Custom.writeStream h en p c s).2.got = s.got ++ (p.meaning en none c []).2.1 := by
  have key : ∀ (c : γ) (s : Sink) (pre got : Bytes), s.Works → s.got = pre ++ got →
      (p.run (CtxWriter.stream h en) c s).1 = (p.meaning en none c got).1 ∧
      (p.run (CtxWriter.stream h en) c s).2.2.got = pre ++ (p.meaning en none c got).2.1 := by
    induction p with
    | done r => intro c s pre got _ hg; exact ⟨rfl, hg⟩
    | bytes bs k ih =>
      intro c s pre got hw hg
      obtain ⟨h1, h2, h3⟩ := sink_write hw bs
      simp only [Custom.run, Custom.meaning, Option.all_none, if_true, CtxWriter.stream, writingCollector, defaultOps]
      rw [h1]
      exact ih _ c _ pre _ h3 (by rw [h2, hg, List.append_assoc])
    | num n v k ih =>
      intro c s pre got hw hg
      obtain ⟨h1, h2, h3⟩ := sink_write hw (numBytes h (en c) n v)
      simp only [Custom.run, Custom.meaning, Option.all_none, if_true, CtxWriter.stream, writingCollector, defaultOps]
      rw [h1]
      exact ih _ c _ pre _ h3 (by rw [h2, hg, List.append_assoc, numBytes_eq])
    | ask n k ih => intro c s pre got hw hg; exact ih _ c s pre got hw hg
    | look k ih => intro c s pre got hw hg; exact ih _ c s pre got hw hg
    | change f k ih => intro c s pre got hw hg; exact ih _ s pre got hw hg
  have := key c s s.got [] hw (by simp)
  unfold Custom.writeStream
  exact this

/-- **C71**: if the promised size is enough, `write_to_vec` returns what a stream gets, unless the program asks how much it may write. -/
theorem C71_enough {γ : Type} {en : γ → Endian} {p : Custom γ} (hp : p.Silent) (c : γ) {n : Nat}
    (hn : (p.meaning en none c []).2.1.length ≤ n) : p.meaning en (some n) c [] = p.meaning en none c [] := by
  have key : ∀ (c : γ) (got : Bytes), (p.meaning en none c got).2.1.length ≤ n → p.meaning en (some n) c got = p.meaning en none c got := by
    clear hn
    induction hp with
    | done r => intro c got _; rfl
    | @bytes bs k hk ih =>
      intro c got hl
      simp only [Custom.meaning, Option.all_none, if_true, Option.all_some, decide_eq_true_eq] at hl ⊢
      obtain ⟨⟨m, h1⟩, _⟩ := meaning_grows (en := en) (limit := none) (k (.ok ())) c (got ++ bs) rfl
      rw [if_pos (by rw [h1] at hl; simp at hl; omega)]
      exact ih _ c _ hl
    | @num w v k hk ih =>
      intro c got hl
      simp only [Custom.meaning, Option.all_none, if_true, Option.all_some, decide_eq_true_eq] at hl ⊢
      obtain ⟨⟨m, h1⟩, _⟩ := meaning_grows (en := en) (limit := none) (k (.ok ())) c (got ++ (en c).bytes w v) rfl
      rw [if_pos (by rw [h1] at hl; simp at hl; omega)]
      exact ih _ c _ hl
    | look hk ih => intro c got hl; exact ih _ c got hl
    | change hk ih => intro c got hl; exact ih _ got hl
  exact key c [] hn

/-- **C71**: the default of `bytes_needed` is the number of bytes a stream gets, if the program does not ask for the context. -/
theorem C71_default {γ : Type} {h : Host} {en : γ → Endian} {p : Custom γ} (hp : p.Blind) (c : γ)
    (hmax : (p.meaning en none c []).2.1.length ≤ h.usizeMax) :
    p.defaultNeeded h c = (p.meaning en none c []).1.map (fun _ => (p.meaning en none c []).2.1.length) := by
  have key : ∀ (got : Bytes), (p.meaning en none c got).2.1.length ≤ h.usizeMax →
      ∃ c', p.run (CtxWriter.size h) c got.length = ((p.meaning en none c got).1, c', (p.meaning en none c got).2.1.length) := by
    clear hmax
    induction hp with
    | done r => intro got _; exact ⟨c, rfl⟩
    | @bytes bs k hk ih =>
      intro got hl
      simp only [Custom.meaning, Option.all_none, if_true] at hl ⊢
      obtain ⟨⟨m, h1⟩, _⟩ := meaning_grows (en := en) (limit := none) (k (.ok ())) c (got ++ bs) rfl
      obtain ⟨c', h2⟩ := ih _ (got ++ bs) hl
      refine ⟨c', ?_⟩
      rw [← h2]
      simp only [Custom.run, CtxWriter.size, sizeCalculator]
      rw [Host.wrap_of_le (by rw [h1] at hl; simp at hl; omega), List.length_append]
    | @num w v k hk ih =>
      intro got hl
      simp only [Custom.meaning, Option.all_none, if_true] at hl ⊢
      obtain ⟨⟨m, h1⟩, _⟩ := meaning_grows (en := en) (limit := none) (k (.ok ())) c (got ++ (en c).bytes w v) rfl
      obtain ⟨c', h2⟩ := ih _ (got ++ (en c).bytes w v) hl
      refine ⟨c', ?_⟩
      rw [← h2]
      simp only [Custom.run, CtxWriter.size, sizeCalculator]
      rw [Host.wrap_of_le (by rw [h1] at hl; simp at hl; omega)]
      simp
    | ask hk ih => intro got hl; exact ih _ got hl
  obtain ⟨c', h1⟩ := key [] hmax
  unfold Custom.defaultNeeded
  simp only [List.length_nil] at h1
  rw [h1]
  cases (p.meaning en none c []).1 <;> rfl

/-- **C71**: with the default of `bytes_needed`, a program which asks for nothing gives the same bytes everywhere. -/
theorem C71_default_vec {γ : Type} {h : Host} (hh : h.Ok) {en : γ → Endian} {p : Custom γ} (hp : p.Blind) (hs : p.Silent) (c : γ)
    (hmax : (p.meaning en none c []).2.1.length ≤ h.isizeMax) (junk : Nat → UInt8) :
    (Custom.writeVec h en (p.defaultNeeded h c) p c junk).1 = (Custom.writeStream h en p c ⟨[], []⟩).1.map
      (fun _ => (Custom.writeStream h en p c ⟨[], []⟩).2.got) := by
  have hsz : p.Sized h := by
    clear hmax hp
    induction hs with
    | done r => exact .done r
    | bytes _ ih => exact .bytes ih
    | num _ ih => exact .num ih
    | look _ ih => exact .look ih
    | change _ ih => exact .change ih
  obtain ⟨h1, h2⟩ := C71_stream (h := h) (en := en) p c ⟨[], []⟩ (by simp [Sink.Works])
  rw [h1, h2, C71_default (en := en) hp c (by have := hh.isize; omega)]
  obtain ⟨v1, _, v3, _⟩ := C71_vec hh (en := en) hsz c junk
  have h3 := C71_enough hs c (en := en) (Nat.le_refl _)
  cases hr : (p.meaning en none c []).1 with
  | error er => simp [Except.map, v1]
  | ok u =>
    simp only [Except.map]
    rw [v3 _ hmax, h3, hr]
    simp [Except.map]

/-! ## Values which change -/

theorem call_run {γ σ : Type} {W : CtxWriter γ σ} {k : Except Err Unit → Custom γ} {c : γ} : ∀ (p : WProg) (s : σ),
    (Custom.call p k).run W c s = (let r := p.run (W.ops (W.endianness c)) s; (k r.1).run W c r.2)
  | .done r, s => rfl
  | .bytes bs q, s => by
    simp only [Custom.call, Custom.run, WProg.run]
    rcases (W.ops (W.endianness c)).bytes bs s with ⟨r, s'⟩
    cases r
    · rfl
    · exact call_run q s'
  | .num n v q, s => by
    simp only [Custom.call, Custom.run, WProg.run]
    rcases (W.ops (W.endianness c)).num n v s with ⟨r, s'⟩
    cases r
    · rfl
    · exact call_run q s'
  | .room n q, s => by
    simp only [Custom.call, Custom.run, WProg.run]
    split
    · rfl
    · exact call_run q s

theorem call_sized {γ : Type} {h : Host} {e : Endian} (h9 : 9 ≤ h.usizeMax) {k : Except Err Unit → Custom γ} (hk : ∀ r, (k r).Sized h) :
    ∀ (p : WProg), RoomOk h e p → (Custom.call p k).Sized h
  | .done r, _ => hk r
  | .bytes bs q, hr => by
    refine .bytes fun r => ?_
    cases r
    · exact hk _
    · exact call_sized h9 hk q hr
  | .num n v q, hr => by
    refine .num fun r => ?_
    cases r
    · exact hk _
    · exact call_sized h9 hk q hr
  | .room n q, hr => by
    refine .ask (Nat.le_trans hr.1.1 h9) fun r => ?_
    split
    · exact hk _
    · exact call_sized h9 hk q hr.2

/-- What the limit does to a program of one of speedy's types. -/
theorem call_meaning {h : Host} {e : Endian} {n : Nat} : ∀ (p : WProg) (got : Bytes), RoomOk h e p → (p.out h e).2 = .ok () → got.length ≤ n →
    (got.length + (p.out h e).1.length ≤ n → ((Custom.call p Custom.done).meaning id (some n) e got).1 = .ok () ∧
      ((Custom.call p Custom.done).meaning id (some n) e got).2.1 = got ++ (p.out h e).1) ∧
    (n < got.length + (p.out h e).1.length →
      ((Custom.call p Custom.done).meaning id (some n) e got).1 = .error .unexpectedEndOfOutputBuffer)
  | .done r, got, _, hok, hg => by
    simp only [WProg.out] at hok
    subst hok
    exact ⟨fun _ => ⟨rfl, by simp [Custom.call, Custom.meaning, WProg.out]⟩, fun h => by simp [WProg.out] at h; omega⟩
  | .bytes bs q, got, hr, hok, hg => by
    have ih := call_meaning (n := n) q (got ++ bs) hr hok
    simp only [Custom.call, Custom.meaning, WProg.out, Option.all_some, decide_eq_true_eq, List.length_append, List.append_assoc] at ih ⊢
    by_cases hf : got.length + bs.length ≤ n
    · rw [if_pos hf]
      simpa only [Nat.add_assoc] using ih hf
    · rw [if_neg hf]
      exact ⟨fun _ => by omega, fun _ => rfl⟩
  | .num w v q, got, hr, hok, hg => by
    have ih := call_meaning (n := n) q (got ++ e.bytes w v) hr hok
    simp only [Custom.call, Custom.meaning, WProg.out, Option.all_some, decide_eq_true_eq, List.length_append, List.append_assoc, numBytes_eq,
      id, Endian.bytes_length] at ih ⊢
    by_cases hf : got.length + w ≤ n
    · rw [if_pos hf]
      simpa only [Nat.add_assoc] using ih hf
    · rw [if_neg hf]
      exact ⟨fun _ => by omega, fun _ => rfl⟩
  | .room w q, got, hr, hok, hg => by
    have ih := call_meaning (n := n) q got hr.2 hok hg
    simp only [Custom.call, Custom.meaning, WProg.out, Option.map_some, Option.some.injEq, decide_eq_false_iff_not] at ih ⊢
    by_cases hf : got.length + w ≤ n
    · rw [if_neg (by simpa using hf)]
      exact ih
    · rw [if_pos hf]
      exact ⟨fun _ => by have := hr.1.2; omega, fun _ => rfl⟩

/-- A program which ends with an error does so with every limit. -/
theorem call_error {h : Host} {e : Endian} {n : Nat} {er : Err} : ∀ (p : WProg) (got : Bytes), (p.out h e).2 = .error er →
    ∃ er', ((Custom.call p Custom.done).meaning id (some n) e got).1 = .error er'
  | .done r, got, hok => by
    simp only [WProg.out] at hok
    subst hok
    exact ⟨er, rfl⟩
  | .bytes bs q, got, hok => by
    simp only [Custom.call, Custom.meaning]
    split
    · exact call_error q _ hok
    · exact ⟨_, rfl⟩
  | .num w v q, got, hok => by
    simp only [Custom.call, Custom.meaning]
    split
    · exact call_error q _ hok
    · exact ⟨_, rfl⟩
  | .room w q, got, hok => by
    simp only [Custom.call, Custom.meaning]
    split
    · exact ⟨_, rfl⟩
    · exact call_error q _ hok

/-- **C71**: if a value changes from `v` to `w` between the calls of `bytes_needed` and `write_to`, `write_to_vec` returns the complete encoding
of `w`, which a stream would get, if it is not longer than promised for `v`, and otherwise fails with `UnexpectedEndOfOutputBuffer`. -/
theorem C71_changed {T : Target} (hT : T.Ok) (e : Endian) (t : Ty) {v w : Val} {n : Nat} (hn : bytesNeeded T t v = .ok n) (hm : n ≤ T.isizeMax)
    (junk : Nat → UInt8) :
    (∀ s, writeToStream T e t w ⟨[], []⟩ = (.ok (), s) → writeChanging T e t v w junk =
      if s.got.length ≤ n then .ok s.got else .error .unexpectedEndOfOutputBuffer) ∧
    (∀ er s, writeToStream T e t w ⟨[], []⟩ = (.error er, s) → ∃ er', writeChanging T e t v w junk = .error er') := by
  have h9 : 9 ≤ T.usizeMax := Nat.le_trans (by decide) hT.lower
  have hsz : (Custom.encode T e t w).Sized T.toHost := call_sized (e := e) h9 (fun r => .done r) _ (encode_room t Cx.std w)
  have h1 := (C71_vec hT.toOk (en := id) hsz e junk).2.2.1 n hm
  obtain ⟨h2, h3⟩ := works_run (T := T) (e := e) (s := ⟨[], []⟩) (by simp [Sink.Works]) (encode T e t Cx.std w)
  unfold writeChanging writeToStream
  rw [hn, h1]
  constructor
  · intro s hs
    rw [hs] at h2 h3
    simp only [List.nil_append] at h3
    obtain ⟨h4, h5⟩ := call_meaning (n := n) (encode T e t Cx.std w) [] (encode_room t Cx.std w) h2.symm (by simp)
    rw [← h3] at h4 h5
    simp only [List.nil_append, List.length_nil, Nat.zero_add] at h4 h5
    split
    · rename_i hf
      obtain ⟨h6, h7⟩ := h4 hf
      simp only [Custom.encode]
      rw [h6, h7]
      rfl
    · rename_i hf
      simp only [Custom.encode]
      rw [h5 (by omega)]
      rfl
  · intro er s hs
    rw [hs] at h2
    obtain ⟨er', h4⟩ := call_error (n := n) (encode T e t Cx.std w) [] h2.symm
    refine ⟨er', ?_⟩
    simp only [Custom.encode]
    rw [h4]
    rfl

/-! ## Examples -/

/-- Writes a number, then four more bytes even if there is no space for them, then a byte if told that there is space. -/
def stubborn : Custom Endian :=
  .num 2 0x0102 fun _ => .bytes [3, 4, 5, 6] fun r => match r with
    | .ok _ => .done (.ok ())
    | .error _ => .change (fun _ => .big) (.num 2 0x0708 fun _ => .ask 1 fun a => if a = some true then .bytes [9] .done else .done (.ok ()))

theorem stubborn_sized : stubborn.Sized Samples.x64.toHost := by
  refine .num fun _ => .bytes fun r => ?_
  cases r
  · refine .change (.num fun _ => .ask (by decide) fun a => ?_)
    split
    · exact .bytes fun r => .done r
    · exact .done _
  · exact .done _

open Samples in
/-- Five bytes were promised: the four do not fit, the others do. -/
example (junk : Nat → UInt8) : Custom.writeVec x64.toHost id (.ok 5) stubborn .little junk = (.ok [2, 1, 7, 8, 9], .big) := by
  rw [(C71_vec x64_ok.toOk (en := id) stubborn_sized .little junk).2.2.1 5 (by decide)]
  rfl

open Samples in
/-- Too many were promised: the vector is shorter. -/
example (junk : Nat → UInt8) : Custom.writeVec x64.toHost id (.ok 9) stubborn .little junk = (.ok [2, 1, 3, 4, 5, 6], .little) := by
  rw [(C71_vec x64_ok.toOk (en := id) stubborn_sized .little junk).2.2.1 9 (by decide)]
  rfl

open Samples in
/-- Four were promised, the buffer has more. -/
example : Custom.writeBuffer x64.toHost id (.ok 4) stubborn .little [91, 92, 93, 94, 95, 96] = (.ok (), .big, [2, 1, 7, 8, 95, 96]) := by
  rw [((C71_buffer (en := id) stubborn_sized .little [91, 92, 93, 94, 95, 96] (by decide)).2.2 4 (by decide)).2]
  rfl

open Samples in
example : BufC.canWriteWrap x64.toHost 3 ⟨[1, 2, 3, 4], 2⟩ = some false := by
  rw [(C71_can_write (h := x64.toHost) (s := ⟨[1, 2, 3, 4], 2⟩) (by decide) (by decide) (n := 3) (by decide) (bs := [1, 2, 3]) rfl).1]
  rfl

open Samples in
/-- `can_write_at_least(usize::MAX)`. -/
example : BufC.canWriteWrap x64.toHost (2 ^ 64 - 1) ⟨[1, 2, 3, 4], 2⟩ = some false := by decide

open Samples in
example : (Custom.writeStream x64.toHost id stubborn .little ⟨[1], [.accept 1]⟩).2.got = [1, 2, 1, 3, 4, 5, 6] :=
  (C71_stream stubborn .little ⟨[1], [.accept 1]⟩ (by simp [Sink.Works])).2

/-- Two numbers, the second one even if the first fails. -/
def twoNumbers : Custom Endian := .num 2 0x0102 fun _ => .num 4 0x03040506 .done

theorem twoNumbers_silent : twoNumbers.Silent := .num fun _ => .num fun r => .done r
theorem twoNumbers_blind : twoNumbers.Blind := .num fun _ => .num fun r => .done r

example : twoNumbers.meaning id (some 7) .big [] = twoNumbers.meaning id none .big [] := C71_enough twoNumbers_silent .big (by decide)

open Samples in
example : twoNumbers.defaultNeeded x64.toHost .big = .ok 6 := C71_default (en := id) twoNumbers_blind .big (by decide)

open Samples in
example (junk : Nat → UInt8) :
    (Custom.writeVec x64.toHost id (twoNumbers.defaultNeeded x64.toHost .big) twoNumbers .big junk).1 = .ok [1, 2, 3, 4, 5, 6] :=
  C71_default_vec x64_ok.toOk (en := id) twoNumbers_blind twoNumbers_silent .big (by decide) junk

/-- C71: a program which asks how much it may write does not write the same everywhere. -/
theorem C71_false_ask : ∃ p : Custom Endian, p.Blind ∧ ∀ junk,
    (Custom.writeVec Samples.x64.toHost id (p.defaultNeeded Samples.x64.toHost .little) p .little junk).1 = .error .unexpectedEndOfOutputBuffer ∧
    Custom.writeStream Samples.x64.toHost id p .little ⟨[], []⟩ = (.ok (), ⟨[], []⟩) := by
  refine ⟨.ask 0 fun a => if a = some true then .bytes [1] .done else .done (.ok ()), .ask fun a => ?_, fun junk => ⟨by rfl, by rfl⟩⟩
  split
  · exact .bytes fun r => .done r
  · exact .done _

/-- C71: the default of `bytes_needed` panics if the program looks at the context. -/
theorem C71_false_context : ∃ p : Custom Endian, p.Silent ∧
    p.defaultNeeded Samples.x64.toHost .little = .error (.panic .notImplemented) ∧
    Custom.writeStream Samples.x64.toHost id p .little ⟨[], []⟩ = (.ok (), ⟨[1], []⟩) :=
  ⟨.look fun _ => .bytes [1] .done, .look fun _ => .bytes fun r => .done r, rfl, rfl⟩

open Samples in
/-- A value which changes: from a list of two numbers to another one. -/
example (junk : Nat → UInt8) : writeChanging x64 .little (.seq .vec (.prim .u8)) (.list [.num 1, .num 2]) (.list [.num 3, .num 4]) junk =
    .ok [2, 0, 0, 0, 3, 4] :=
  (C71_changed x64_ok .little (.seq .vec (.prim .u8)) (v := .list [.num 1, .num 2]) (n := 6) rfl (by decide) junk).1
    ⟨[2, 0, 0, 0, 3, 4], []⟩ rfl

open Samples in
/-- From a list of two numbers to one of three. -/
example (junk : Nat → UInt8) : writeChanging x64 .little (.seq .vec (.prim .u8)) (.list [.num 1, .num 2]) (.list [.num 3, .num 4, .num 5]) junk =
    .error .unexpectedEndOfOutputBuffer :=
  (C71_changed x64_ok .little (.seq .vec (.prim .u8)) (v := .list [.num 1, .num 2]) (n := 6) rfl (by decide) junk).1
    ⟨[3, 0, 0, 0, 3, 4, 5], []⟩ rfl

end Verif
