import Verif.AnyStream
import Verif.PropsAgree
import Verif.PropsStream

/-!
# Any stream: C61

What `read_from_stream_*` returns depends on the stream only through the bytes which it delivered, in which pieces, and the errors
which it reported.  The other theorems about streams are about such `Src`; so they hold for all implementations of `Read`.
-/

namespace Verif

/-! ## Recording changes nothing -/

/-- Without what was recorded. -/
def DevSt.forget {σ : Type} (s : DevSt (σ × Src)) : DevSt σ := ⟨s.dev.1, s.buf, s.buffering, s.used⟩

section
variable {σ : Type} (D : Device σ) (junk : Nat → UInt8) (grow : Nat → Nat)

theorem append_forget (size : Nat) (s : DevSt (σ × Src)) :
    s.forget.append D junk grow size =
      (s.append D.recorded junk grow size).map fun r => (r.1, r.2.forget) := by
  unfold DevSt.append
  simp only [DevSt.forget, bind, Except.bind, Device.recorded]
  cases s.buf.reserveOn (fresh junk s.used) grow size with
  | error p => rfl
  | ok c =>
    simp only
    cases sliceOf c.buffer (emptyRange c.position c.length c.capacity size).1 with
    | error p => rfl
    | ok sl =>
      simp only
      generalize D.read sl s.dev.1 = r
      obtain ⟨x, sl', s'⟩ := r
      cases x <;> rfl

theorem devFill_forget (n : Nat) : ∀ (fuel : Nat) (s : DevSt (σ × Src)),
    devFill D junk grow n fuel s.forget =
      ((devFill D.recorded junk grow n fuel s).1, (devFill D.recorded junk grow n fuel s).2.forget)
  | 0, _ => rfl
  | fuel + 1, s => by
    unfold devFill
    show (if s.buf.length < s.buf.capacity then _ else _) = _
    split
    · rw [append_forget]
      show (match ((s.append D.recorded junk grow (s.buf.capacity - s.buf.length)).map fun r => (r.1, r.2.forget)) with
        | .error p => _ | .ok (.error k, s) => _ | .ok (.ok w, s) => _) = _
      cases s.append D.recorded junk grow (s.buf.capacity - s.buf.length) with
      | error p => rfl
      | ok r =>
        obtain ⟨x, s1⟩ := r
        cases x with
        | error k => rfl
        | ok w =>
          have ih := devFill_forget n fuel s1
          simp only [Except.map]
          rw [show s1.forget.buf = s1.buf from rfl]
          split
          · split <;> rfl
          · split
            · rfl
            · exact ih
    · rfl

theorem devPeekFill_forget (n : Nat) : ∀ (fuel : Nat) (s : DevSt (σ × Src)),
    devPeekFill D junk grow n fuel s.forget =
      ((devPeekFill D.recorded junk grow n fuel s).1, (devPeekFill D.recorded junk grow n fuel s).2.forget)
  | 0, _ => rfl
  | fuel + 1, s => by
    unfold devPeekFill
    rw [show s.forget.buf = s.buf from rfl, show s.forget.buffering = s.buffering from rfl]
    split
    · simp only
      generalize (if s.buffering then max (n - s.buf.length) (s.buf.capacity - s.buf.length) else n - s.buf.length) = size
      rw [append_forget]
      cases s.append D.recorded junk grow size with
      | error p => rfl
      | ok r =>
        obtain ⟨x, s1⟩ := r
        cases x with
        | error k => rfl
        | ok w =>
          have ih := devPeekFill_forget n fuel s1
          simp only [Except.map]
          split
          · rfl
          · exact ih
    · rfl

theorem devTake_forget (out : Bytes) (s : DevSt (σ × Src)) :
    devTake D out s.forget = ((devTake D.recorded out s).1, (devTake D.recorded out s).2.forget) := by
  unfold devTake
  rw [show s.forget.buf = s.buf from rfl, show s.forget.dev = s.dev.1 from rfl]
  by_cases h : s.buf.length > 0
  · simp only [h, if_true]
    cases s.buf.consumeInto (min s.buf.length out.length) with
    | error p => rfl
    | ok r =>
      obtain ⟨d, c⟩ := r
      by_cases hz : out.length - d.length = 0
      · simp only [hz, if_true]; rfl
      · simp only [hz, if_false, Device.recorded]
        generalize D.readExact (out.drop d.length) s.dev.1 = r
        obtain ⟨x, sl', s'⟩ := r
        cases x <;> rfl
  · simp only [h, if_false]
    by_cases hz : out.length - ([] : Bytes).length = 0
    · simp only [hz, if_true]; rfl
    · simp only [hz, if_false, Device.recorded]
      generalize D.readExact (out.drop ([] : Bytes).length) s.dev.1 = r
      obtain ⟨x, sl', s'⟩ := r
      cases x <;> rfl

theorem devRead_forget (n : Nat) (s : DevSt (σ × Src)) :
    devRead D junk grow n s.forget = ((devRead D.recorded junk grow n s).1, (devRead D.recorded junk grow n s).2.forget) := by
  unfold devRead
  simp only
  rw [show s.forget.buf = s.buf from rfl, show s.forget.buffering = s.buffering from rfl, show s.forget.used = s.used from rfl]
  split
  · cases s.buf.consumeInto n with
    | error p => rfl
    | ok r => rfl
  · split
    · have h := devFill_forget D junk grow n (s.buf.capacity + 1) ⟨s.dev, s.buf, s.buffering, s.used + n⟩
      show (match devFill D junk grow n (s.buf.capacity + 1) (DevSt.forget ⟨s.dev, s.buf, s.buffering, s.used + n⟩) with
        | (.error e, s) => _ | (.ok (), s1) => _) = _
      rw [h]
      generalize devFill D.recorded junk grow n (s.buf.capacity + 1) _ = r
      obtain ⟨x, s1⟩ := r
      cases x with
      | error e => rfl
      | ok u => exact devTake_forget D _ s1
    · exact devTake_forget D _ ⟨s.dev, s.buf, s.buffering, s.used + n⟩

theorem devPeek_forget (n : Nat) (s : DevSt (σ × Src)) :
    devPeek D junk grow n s.forget = ((devPeek D.recorded junk grow n s).1, (devPeek D.recorded junk grow n s).2.forget) := by
  unfold devPeek
  rw [devPeekFill_forget]
  generalize devPeekFill D.recorded junk grow n (n + 1) s = r
  obtain ⟨x, s1⟩ := r
  cases x with
  | error e => rfl
  | ok u =>
    simp only
    rw [show s1.forget.buf = s1.buf from rfl]
    cases s1.buf.asSlicesOfLength n with
    | error p => rfl
    | ok ab =>
      simp only
      cases copyOut n ab.1 ab.2 <;> rfl

theorem devSkip_forget : ∀ (fuel n : Nat) (s : DevSt (σ × Src)),
    skipLoop (devRead D junk grow) fuel n s.forget =
      ((skipLoop (devRead D.recorded junk grow) fuel n s).1, (skipLoop (devRead D.recorded junk grow) fuel n s).2.forget)
  | 0, _, _ => rfl
  | fuel + 1, n, s => by
    unfold skipLoop
    split
    · simp only
      rw [devRead_forget]
      generalize devRead D.recorded junk grow _ s = r
      obtain ⟨x, s1⟩ := r
      cases x with
      | error e => rfl
      | ok u => exact devSkip_forget fuel _ s1
    · rfl

theorem run_forget {α : Type} (p : Prog α) : ∀ s : DevSt (σ × Src), p.run (devReader D junk grow) s.forget =
    ((p.run (devReader D.recorded junk grow) s).1, (p.run (devReader D.recorded junk grow) s).2.forget) := by
  induction p with
  | ret a => intro s; rfl
  | read n k ih =>
    intro s
    show (k (devRead D junk grow n s.forget).1).run _ (devRead D junk grow n s.forget).2 = _
    rw [devRead_forget]; exact ih _ _
  | peek n k ih =>
    intro s
    show (k (devPeek D junk grow n s.forget).1).run _ (devPeek D junk grow n s.forget).2 = _
    rw [devPeek_forget]; exact ih _ _
  | skip n k ih =>
    intro s
    show (k (skipLoop (devRead D junk grow) (n + 1) n s.forget).1).run _ (skipLoop (devRead D junk grow) (n + 1) n s.forget).2 = _
    rw [devSkip_forget]; exact ih _ _
  | canRead n k ih => intro s; exact ih none s
  | borrow n k ih => intro s; exact ih none s
  | borrowR n k ih => intro s; exact ih none s
  | borrowEof k ih => intro s; exact ih none s
  | alloc n m k ih => intro s; exact ih s

end

/-! ## C61 -/

section
variable {σ : Type} (D : Device σ) (junk : Nat → UInt8) (grow : Nat → Nat)

/-- What the stream does while `p` reads from it: the bytes which it delivers, and what its calls return. -/
def recordOf {α : Type} (p : M α) (buffered : Bool) (dev : σ) : Src :=
  (p.run (devReader D.recorded junk grow) (DevSt.init junk buffered (dev, ⟨[], []⟩))).2.dev.2

variable {D grow} (hD : D.Counts) (hg : ∀ n, n ≤ grow n)
include hD hg

/-- **C61**, any implementation of `Readable`: the result is that of reading from the bytes and errors recorded, all of which are
used. -/
theorem C61_replay {α : Type} (p : M α) (buffered : Bool) (dev : σ) :
    ∃ st, p.run (streamReader grow) (StreamSt.init buffered (recordOf D junk grow p buffered dev)) =
        ((p.run (devReader D junk grow) (DevSt.init junk buffered dev)).1, st) ∧ st.src = ⟨[], []⟩ ∧
      st.buf.content = (p.run (devReader D junk grow) (DevSt.init junk buffered dev)).2.buf.content := by
  let s0 : DevSt (σ × Src) := DevSt.init junk buffered (dev, ⟨[], []⟩)
  have hf : p.run (devReader D junk grow) (DevSt.init junk buffered dev) = _ := run_forget D junk grow p s0
  have hs0 : s0.buf.Inv := (init_like junk junk buffered (dev, (⟨[], []⟩ : Src))).buf.inv
  obtain ⟨data, evs, h1, h2⟩ := run_replay (junk := junk) (junk' := fun _ => 0) hD hg p hs0
  have hrec : recordOf D junk grow p buffered dev = ⟨data, evs⟩ := by
    show (p.run (devReader D.recorded junk grow) s0).2.dev.2 = _
    rw [h1]; simp [s0, DevSt.init]
  have hl : StLike s0 (DevSt.init (fun _ => 0) buffered (⟨data, evs⟩ : Src)) := by
    have := (init_like junk (fun _ => 0) buffered (dev, (⟨[], []⟩ : Src))).buf
    exact ⟨this, rfl, rfl⟩
  obtain ⟨g1, g2, g3⟩ := h2 (DevSt.init (fun _ => 0) buffered (⟨data, evs⟩ : Src)) [] [] (by simp [DevSt.init]) hl
  have hi : SameSt (DevSt.init (fun _ => 0) buffered (⟨data, evs⟩ : Src)) (StreamSt.init buffered ⟨data, evs⟩) :=
    ⟨rfl, by simp [DevSt.init, StreamSt.init, CBuf.withCapacity, fresh, List.map_const'], rfl⟩
  obtain ⟨k1, k2⟩ := run_same hg p hi (CBuf.withCapacity_inv _)
  rw [hrec, hf]
  refine ⟨_, Prod.ext ?_ rfl, ?_, ?_⟩
  · rw [← k1, g1]
  · rw [← k2.dev, g2]
  · rw [← k2.buf, ← g3.buf.content]; rfl

/-- **C61**: what is read from any stream is what is read from the bytes and errors recorded. -/
theorem C61_read (T : Target) (e : Endian) (t : Ty) (buffered : Bool) (dev : σ) :
    ∃ st, readFromStream T e t grow buffered (recordOf D junk grow (decode T e t Cx.std) buffered dev) =
      ((readFromDevice T e t grow D buffered dev junk).1, st) ∧ st.src = ⟨[], []⟩ := by
  obtain ⟨st, h1, h2, _⟩ := C61_replay junk hD hg (decode T e t Cx.std) buffered dev
  exact ⟨st, h1, h2⟩

/-- **C61**, values: a value read from any stream, in whatever pieces and with whatever errors in between, is the value which
`read_from_buffer` returns for the bytes delivered.

Full claim: all types.  Missing: the types for which the ways of reading disagree (C11). -/
theorem C61_value_partial {T : Target} (hT : T.Ok) {e : Endian} {t : Ty} (ha : Agreeable T e t) (hn : noRefs t = true)
    (buffered : Bool) (dev : σ) {v : Val} (h : (readFromDevice T e t grow D buffered dev junk).1 = .ok v) {base : Nat}
    (hm : InMem T base (recordOf D junk grow (decode T e t Cx.std) buffered dev).data) :
    readFromBuffer T e t base (recordOf D junk grow (decode T e t Cx.std) buffered dev).data = .ok v := by
  obtain ⟨st, h1, _⟩ := C61_read junk hD hg T e t buffered dev
  rw [h] at h1
  obtain ⟨st', h2, _⟩ := C42_no_wrong_value ha.strict hg buffered _ h1
  exact (stream_agrees hT ha hg buffered (Src.perfect_clean _) hm hn v).mp (by rw [h2])

/-- **C61**, values: without buffering the stream has been asked for no byte more than the value needs.

Full claim: all types.  Missing: as above, and enums with `peek_tag` (C13). -/
theorem C61_exact_partial {T : Target} (hT : T.Ok) {e : Endian} {t : Ty} (ha : Agreeable T e t) (hn : noRefs t = true)
    (hk : noPeek t = true) (dev : σ) {v : Val} (h : (readFromDevice T e t grow D false dev junk).1 = .ok v) {base : Nat}
    (hm : InMem T base (recordOf D junk grow (decode T e t Cx.std) false dev).data) :
    readWithLengthFromBuffer T e t base (recordOf D junk grow (decode T e t Cx.std) false dev).data =
      (.ok v, (recordOf D junk grow (decode T e t Cx.std) false dev).data.length) := by
  obtain ⟨st, h1, h1s⟩ := C61_read junk hD hg T e t false dev
  rw [h] at h1
  obtain ⟨st', h2, h3⟩ := C42_no_wrong_value ha.strict hg false _ h1
  have h4 := run_direct grow (decode_noPeek (T := T) (e := e) t Cx.std hk) _
    (StreamSt.init_direct (recordOf D junk grow (decode T e t Cx.std) false dev))
  have h1' : (decode T e t Cx.std).run (streamReader grow) _ = _ := h1
  rw [h1'] at h4
  have hp : st'.pend = [] := by rw [h3, h4.pend, h1s]
  have ho := stream_outcome hT ha.layout (e := e) hg (b := false) (Src.perfect_clean
    (recordOf D junk grow (decode T e t Cx.std) false dev)) hm.fits hn
  have hp' := ha.inv hT ho (v := v) (by
    show (readFromStream T e t grow false _).1 = _
    rw [h2])
  refine (ha.buffer_iff hT hm v _).mpr ⟨[], ?_, by simp⟩
  rw [h2, hp] at hp'
  exact hp'

/-- **C61**, errors: where reading fails, it is since the bytes delivered do not encode a value, or the stream said that it has
ended, or the error is the one which the stream reported last. -/
theorem C61_error {T : Target} {e : Endian} {t : Ty} (he : ends false true t = true) (buffered : Bool) (dev : σ) {er : Err}
    (h : (readFromDevice T e t grow D buffered dev junk).1 = .error er) :
    let rec' := recordOf D junk grow (decode T e t Cx.std) buffered dev
    (∃ er', (readFromStream T e t grow buffered rec'.perfect).1 = .error er' ∧ er.Alike er') ∨
    (er.isEof = true ∧ .give 0 ∈ rec'.evs) ∨
    (∃ k before, er = .io k ∧ rec'.evs = before ++ [.fault k] ∧ ∀ k', .fault k' ∈ before → k' = .interrupted) := by
  obtain ⟨st, h1, h2⟩ := C61_read junk hD hg T e t buffered dev
  rw [h] at h1
  rcases C42_cause he hg buffered _ h1 with h3 | h3 | ⟨k, before, h3, h4, h5⟩
  · exact .inl h3
  · exact .inr (.inl h3)
  · exact .inr (.inr ⟨k, before, h3, by rw [h4, h2], h5⟩)

end

/-- An endless stream, which counts: `read` stores one byte at a time; `read_exact` fills the slice. -/
def counter : Device Nat where
  read sl s := match sl with
    | [] => (.ok 0, [], s)
    | _ :: rest => (.ok 1, UInt8.ofNat s :: rest, s + 1)
  readExact sl s := (.ok (), (List.range sl.length).map fun i => UInt8.ofNat (s + i), s + sl.length)
  read_len sl s := by cases sl <;> rfl
  exact_len sl s := by simp

theorem counter_counts : counter.Counts where
  read sl s n h := by
    cases sl with
    | nil => simp only [counter, Except.ok.injEq] at h; simp [← h]
    | cons a rest => simp only [counter, Except.ok.injEq] at h; simp [← h]
  exact sl s := by simp [counter]

open Samples in
/-- `u32` and `u16` from the endless stream. -/
example : readFromDevice x64 .little (.pair (.prim .u32) (.pair (.prim .u16) .unit)) (· + 100) counter false 7 (fun _ => 0xEE) =
      (.ok (.pair (.num 0x0A090807) (.pair (.num 0x0C0B) .unit)), 13) ∧
    recordOf counter (fun _ => 0xEE) (· + 100) (decode x64 .little (.pair (.prim .u32) (.pair (.prim .u16) .unit)) Cx.std) false 7 =
      ⟨[7, 8, 9, 10, 11, 12], [.give 4, .give 2]⟩ := by
  constructor <;> decide

open Samples in
example (dev : Nat) (junk : Nat → UInt8) {v : Val}
    (h : (readFromDevice x64 .big message (· + 100) counter true dev junk).1 = .ok v)
    (hm : InMem x64 4096 (recordOf counter junk (· + 100) (decode x64 .big message Cx.std) true dev).data) :=
  C61_value_partial junk counter_counts (fun n => by omega) x64_ok (message_agreeable .big) (by decide) true dev h hm

/-! ## Cases -/

section Cases
open Samples

section
open Samples
example (junk : Nat → UInt8) := C61_read junk counter_counts (grow := (· + 100)) (fun n => by omega) x64 .big message true 7
example (junk : Nat → UInt8) := C61_replay junk counter_counts (grow := (· + 100)) (fun n => by omega)
  (.peek 2 fun _ => .read 2 .ret : M Bytes) false 7
end

end Cases

end Verif
