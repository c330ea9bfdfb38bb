import Verif.PropsRoundTrip
import Verif.PropsSafe
import Verif.Structs

/-!
# `length = ..` (C37)
-/

namespace Verif

open Samples

/-! ## Round trip -/

theorem ends_rest {a : Attrs} {t : Ty} (ha : a.len = some .untilEof) (ht : ends false false t = true)
    (hs : t.elemStarts = true) (hc : t.isContainer = true) : ∀ (fs : Fields), endsFields false false fs = true →
    endsFields true false (fs.append (.cons a t .nil)) = true
  | .nil, _ => by
    have : ends true false t = true := by
      cases t <;> simp only [Ty.isContainer, Bool.false_eq_true] at hc <;> simpa only [ends] using ht
    simp [Fields.append, endsFields, Attrs.ends, ha, hs, Fields.isNil, this]
  | .cons b u fs, h => by
    simp only [endsFields, Bool.false_and, Bool.and_eq_true] at h
    simp only [Fields.append, endsFields, Bool.and_eq_true]
    refine ⟨?_, ends_rest ha ht hs hc fs h.2⟩
    have : (fs.append (.cons a t .nil)).isNil = false := by cases fs <;> rfl
    rw [this]
    exact h.1

section
variable {T : Target} (hT : T.Ok) {e : Endian} {d : StructDesc} {fs : Fields} {a : Attrs} {t : Ty} {v : Val} {bs : Bytes}
  {junk : Nat → UInt8} (hl : layoutOk T (.struct d (fs.append (.cons a t .nil))) = true)
  (hd : declOk (.struct d (fs.append (.cons a t .nil))) = true)
  (hr : regular T e (.struct d (fs.append (.cons a t .nil))) = true) (ha : a.len = some .untilEof)
  (hf : endsFields false false fs = true) (ht : ends false false t = true) (hs : t.elemStarts = true)
  (hct : t.isContainer = true) (hv : hasTy T (.struct d (fs.append (.cons a t .nil))) v)
  (hc : canon (Fmt.code T.toHost e) (.struct d (fs.append (.cons a t .nil))) v)
  (hw : writeToVec T e (.struct d (fs.append (.cons a t .nil))) v junk = .ok bs)
include hT hl hd hr ha hf ht hs hct hv hc hw

/-- **C37**: a struct whose last field has `length = ..` is read back if it is the whole input.

Missing: elements which need no bytes (`¬ elemStarts`), for which reading does not end (`C37_false`), and the exceptions
of C01. -/
theorem C37_round_trip_partial {base : Nat} (hm : InMem T base bs) :
    readFromBuffer T e (.struct d (fs.append (.cons a t .nil))) base bs = .ok v :=
  C01_round_trip_partial hT hl hd hr hv hc hw (by simpa only [ends] using ends_rest ha ht hs hct fs hf) hm

/-- C37 for `read_from_buffer_copying_data`. -/
theorem C37_round_trip_copying_partial {base : Nat} (hm : InMem T base bs)
    (hn : noRefs (.struct d (fs.append (.cons a t .nil))) = true) :
    readFromBufferCopying T e (.struct d (fs.append (.cons a t .nil))) base bs = .ok v :=
  C01_round_trip_copying_partial hT hl hd hr hv hc hw (by simpa only [ends] using ends_rest ha ht hs hct fs hf) hn hm

/-- C37 for the stream readers. -/
theorem C37_round_trip_stream_partial {grow : Nat → Nat} (hg : ∀ n, n ≤ grow n) {buffered : Bool} {src : Src}
    (hn : noRefs (.struct d (fs.append (.cons a t .nil))) = true) (hsrc : src.Clean) (hb : src.data = bs) (hfits : Fits T bs) :
    (readFromStream T e (.struct d (fs.append (.cons a t .nil))) grow buffered src).1 = .ok v :=
  C01_round_trip_stream_partial hT hl hd hr hv hc hw hg (by simpa only [ends] using ends_rest ha ht hs hct fs hf) hn hsrc hb
    hfits

end

/-! ## Termination -/

/-- A terminating execution of the loop which reads values until the end of the input, with its result. -/
inductive Loops {σ : Type} (R : ReaderOps σ) (p : M Val) : σ → Except Err (List Val) → σ → Prop where
  | stop {s s' er} : p.run R s = (.error er, s') → er.isEof = true → Loops R p s (.ok []) s'
  | fail {s s' er} : p.run R s = (.error er, s') → er.isEof = false → Loops R p s (.error er) s'
  | next {s s1 s2 v vs} : p.run R s = (.ok v, s1) → Loops R p s1 (.ok vs) s2 → Loops R p s (.ok (v :: vs)) s2
  | nextFail {s s1 s2 v er} : p.run R s = (.ok v, s1) → Loops R p s1 (.error er) s2 → Loops R p s (.error er) s2

/-- A loop ends if every round which succeeds uses at least one byte. -/
theorem loop_ends {σ : Type} {R : ReaderOps σ} {Inv : σ → Prop} {pend : σ → Bytes} {p : M Val}
    (hp : ∀ s v s', Inv s → p.run R s = (.ok v, s') → Inv s' ∧ (pend s').length < (pend s).length) :
    ∀ (n : Nat) (s : σ), Inv s → (pend s).length ≤ n →
      ∃ r s', Loops R p s r s' ∧ ∀ fuel, n < fuel → (readUntilEof fuel p).run R s = (r, s') := by
  intro n
  induction n with
  | zero =>
    intro s hs hn
    rcases h : p.run R s with ⟨er | v, s'⟩
    · cases he : er.isEof
      · refine ⟨.error er, s', .fail h he, fun fuel hf => ?_⟩
        obtain ⟨k, rfl⟩ : ∃ k, fuel = k + 1 := ⟨fuel - 1, by omega⟩
        unfold readUntilEof
        rw [Prog.run_bind, h]
        simp [he, M.fail, Prog.run]
      · refine ⟨.ok [], s', .stop h he, fun fuel hf => ?_⟩
        obtain ⟨k, rfl⟩ : ∃ k, fuel = k + 1 := ⟨fuel - 1, by omega⟩
        unfold readUntilEof
        rw [Prog.run_bind, h]
        simp [he, M.pure, Prog.run]
    · have := (hp s v s' hs h).2
      omega
  | succ n ih =>
    intro s hs hn
    rcases h : p.run R s with ⟨er | v, s'⟩
    · cases he : er.isEof
      · refine ⟨.error er, s', .fail h he, fun fuel hf => ?_⟩
        obtain ⟨k, rfl⟩ : ∃ k, fuel = k + 1 := ⟨fuel - 1, by omega⟩
        unfold readUntilEof
        rw [Prog.run_bind, h]
        simp [he, M.fail, Prog.run]
      · refine ⟨.ok [], s', .stop h he, fun fuel hf => ?_⟩
        obtain ⟨k, rfl⟩ : ∃ k, fuel = k + 1 := ⟨fuel - 1, by omega⟩
        unfold readUntilEof
        rw [Prog.run_bind, h]
        simp [he, M.pure, Prog.run]
    · obtain ⟨h1, h2⟩ := hp s v s' hs h
      obtain ⟨r, s2, h3, h4⟩ := ih s' h1 (by omega)
      cases r with
      | error er =>
        refine ⟨.error er, s2, .nextFail h h3, fun fuel hf => ?_⟩
        obtain ⟨k, rfl⟩ : ∃ k, fuel = k + 1 := ⟨fuel - 1, by omega⟩
        unfold readUntilEof
        rw [Prog.run_bind, h]
        exact M.run_bind_err (h4 k (by omega))
      | ok vs =>
        refine ⟨.ok (v :: vs), s2, .next h h3, fun fuel hf => ?_⟩
        obtain ⟨k, rfl⟩ : ∃ k, fuel = k + 1 := ⟨fuel - 1, by omega⟩
        unfold readUntilEof
        rw [Prog.run_bind, h]
        exact M.run_bind_ok (h4 k (by omega))

section
variable {T : Target} (hT : T.Ok) {e : Endian} {σ : Type} {x : Bool} {R : ReaderOps σ} {Inv : σ → Prop} {pend : σ → Bytes}
  (O : Orderly x R Inv pend)
include hT O

theorem decode_step {t : Ty} (hl : layoutOk T t = true) (hd : declOk t = true) (hs : sane T t) (hm : minOk T t = true)
    {s s' : σ} {v : Val} (hi : Inv s) (h : (decode T e t Cx.std).run R s = (.ok v, s')) :
    Inv s' ∧ minBytes T t + (pend s').length ≤ (pend s).length := by
  refine ⟨?_, C08_minimum_reader_partial hT hl hd hs hm O hi h⟩
  have := (O.run (p := decode T e t Cx.std) hi
    (decode_uses (e := e) hT hl hd hs hm (pend s).length x _ (Nat.le_refl _))).1
  rwa [h] at this

/-- **C37**: reading values until the end of the input (`Vec`, sets, …) ends, for every reader which delivers its bytes in
order, also streams which fail: there is a terminating execution of the loop, and the bound on the number of rounds which the model has
does not matter.

Missing: elements which may be read from nothing (`minBytes T t = 0`), for some of which reading does not end (`C37_false`). -/
theorem C37_terminates_partial {t : Ty} (hl : layoutOk T t = true) (hd : declOk t = true) (hs : sane T t)
    (hm : minOk T t = true) (h0 : minBytes T t ≠ 0) {s : σ} (hi : Inv s) :
    ∃ r s', Loops R (decode T e t Cx.std) s r s' ∧
      ∀ fuel, (pend s).length < fuel → (readUntilEof fuel (decode T e t Cx.std)).run R s = (r, s') :=
  loop_ends (fun s v s' hi h => by
    obtain ⟨h1, h2⟩ := decode_step hT O hl hd hs hm hi h
    exact ⟨h1, by omega⟩) _ s hi (Nat.le_refl _)

/-- C37 for maps: the entries. -/
theorem C37_terminates_map_partial {k t : Ty} (hlk : layoutOk T k = true) (hdk : declOk k = true) (hsk : sane T k)
    (hmk : minOk T k = true) (hl : layoutOk T t = true) (hd : declOk t = true) (hs : sane T t) (hm : minOk T t = true)
    (h0 : minBytes T k + minBytes T t ≠ 0) {s : σ} (hi : Inv s) :
    ∃ r s', Loops R (readPair (elemOf T k (decode T e k Cx.std)) (elemOf T t (decode T e t Cx.std))) s r s' ∧
      ∀ fuel, (pend s).length < fuel →
        (readUntilEof fuel (readPair (elemOf T k (decode T e k Cx.std)) (elemOf T t (decode T e t Cx.std)))).run R s = (r, s') :=
  loop_ends (fun s v s' hi h => by
    obtain ⟨a, s1, h1, h2⟩ := M.run_bind_inv h
    obtain ⟨b, s2, h3, h4⟩ := M.run_bind_inv h2
    simp only [M.pure, Prog.run, Prod.mk.injEq] at h4
    obtain ⟨g1, g2⟩ := decode_step hT O hlk hdk hsk hmk hi h1
    obtain ⟨g3, g4⟩ := decode_step hT O hl hd hs hm g1 h3
    rw [← h4.2]
    exact ⟨g3, by omega⟩) _ s hi (Nat.le_refl _)

end

/-- No execution of the loop ends if every round succeeds. -/
theorem no_end {σ : Type} {R : ReaderOps σ} {p : M Val} (hp : ∀ s, ∃ v s', p.run R s = (.ok v, s')) {s s' : σ}
    {r : Except Err (List Val)} (h : Loops R p s r s') : False := by
  induction h with
  | stop h _ => obtain ⟨v, s1, h1⟩ := hp _; rw [h] at h1; simp at h1
  | fail h _ => obtain ⟨v, s1, h1⟩ := hp _; rw [h] at h1; simp at h1
  | next _ _ ih => exact ih
  | nextFail _ _ ih => exact ih

/-- **C37 is false** for elements which need no bytes, as `struct Empty;`: `struct Rest { #[speedy(length = ..)] all: Vec<Empty> }` is
written, but reading it does not end, with any reader, in any state: no terminating execution of the loop exists, and the model reports
`diverge` whatever its bound. -/
theorem C37_false {σ : Type} (R : ReaderOps σ) (s : σ) (fuel : Nat) :
    writeToVec x64 .little restOfEmpty (.pair (.list [.unit]) .unit) (fun _ => 0) = .ok [] ∧
      (∀ r s', ¬ Loops R (decode x64 .little empty Cx.std) s r s') ∧
      (readUntilEof fuel (decode x64 .little empty Cx.std)).run R s = (.error .diverge, s) := by
  have he : ∀ s, (decode x64 .little empty Cx.std).run R s = (.ok .unit, s) := fun s => rfl
  refine ⟨by decide, fun r s' h => no_end (fun s => ⟨_, _, he s⟩) h, ?_⟩
  induction fuel with
  | zero => rfl
  | succ n ih =>
    unfold readUntilEof
    rw [Prog.run_bind, he]
    exact M.run_bind_err ih

/-! ## Examples -/

/-- `struct Rest { n: u8, #[speedy(length = ..)] all: Vec<u16> }` -/
def restOf : Ty := .struct ⟨.rust, 32, 8, [24, 0], true⟩
  ((Fields.cons {} (.prim .u8) .nil).append (.cons { len := some .untilEof } (.seq .vec (.prim .u16)) .nil))

example : readFromBuffer x64 .big restOf 4096 [7, 0, 1, 0, 2] =
    .ok (.pair (.num 7) (.pair (.list [.num 1, .num 2]) .unit)) :=
  C37_round_trip_partial x64_ok (junk := fun _ => 0) (by decide) (by decide) (by decide) rfl rfl rfl rfl rfl
    (by simp [hasTy, hasTyFields, Fields.append, Prim.size, sizeOf]; decide) (by simp [canon, canonFields, Fields.append]) (by decide)
    ⟨by decide, by decide, by decide⟩

example : ∃ r s', Loops (bufferReader Host.x64) (decode x64 .little (.prim .u16) Cx.std) (BufSt.init 4096 [1, 2, 3]) r s' ∧
    ∀ fuel, (BufSt.init 4096 [1, 2, 3]).pend.length < fuel →
      (readUntilEof fuel (decode x64 .little (.prim .u16) Cx.std)).run (bufferReader Host.x64) (BufSt.init 4096 [1, 2, 3]) = (r, s') :=
  C37_terminates_partial x64_ok (bufferReader_orderly Host.x64) (by decide) (by decide) (by simp [sane]) (by decide) (by decide)
    (BufSt.init_inv (by decide))

/-! ## Cases -/

section Cases
open Samples

example : readFromBufferCopying x64 .big restOf 4096 [7, 0, 1, 0, 2] =
    .ok (.pair (.num 7) (.pair (.list [.num 1, .num 2]) .unit)) :=
  C37_round_trip_copying_partial x64_ok (junk := fun _ => 0) (by decide) (by decide) (by decide) rfl rfl rfl rfl rfl
    (by simp [hasTy, hasTyFields, Fields.append, Prim.size, sizeOf]; decide) (by simp [canon, canonFields, Fields.append]) (by decide)
    ⟨by decide, by decide, by decide⟩ (by decide)

example : (readFromStream x64 .big restOf (· + 100) true ⟨[7, 0, 1, 0, 2], [.give 2]⟩).1 =
    .ok (.pair (.num 7) (.pair (.list [.num 1, .num 2]) .unit)) :=
  C37_round_trip_stream_partial x64_ok (junk := fun _ => 0) (by decide) (by decide) (by decide) rfl rfl rfl rfl rfl
    (by simp [hasTy, hasTyFields, Fields.append, Prim.size, sizeOf]; decide) (by simp [canon, canonFields, Fields.append]) (by decide)
    (fun n => by omega) (by decide) (by simp [Src.Clean]) rfl ⟨by decide, by decide⟩

/-- A map from `u16` to `u8`, the third entry of which is cut short. -/
example := C37_terminates_map_partial x64_ok (e := .little) (bufferReader_orderly Host.x64) (k := .prim .u16) (t := .prim .u8)
  (by decide) (by decide) (by simp [sane]) (by decide) (by decide) (by decide) (by simp [sane]) (by decide) (by decide)
  (BufSt.init_inv (base := 4096) (buf := [1, 0, 5, 2, 0, 6, 3]) (by decide))

end Cases

end Verif
