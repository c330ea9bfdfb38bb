import Verif.Lent
import Verif.File

/-!
# References only come from readers which lend them: C82
-/

namespace Verif

theorem reference_never {T : Target} {e : Endian} {t : Ty} (cx : Cx)
    (ht : t = .str .ref ∨ (∃ u, t = .seq .ref u) ∨ ∃ n u, t = .refArray n u) : Yield false (fun _ => False) (decode T e t cx) := by
  rcases ht with rfl | ⟨u, rfl⟩ | ⟨n, u, rfl⟩ <;> unfold decode
  · refine yield_then fun len => ?_
    cases len with
    | none => exact yield_borrowRest
    | some n => exact yield_borrowBytes
  · refine yield_ite (fun _ => yield_fail _) fun _ => yield_then fun len => ?_
    cases len with
    | none => exact yield_map (U := fun _ => False) yield_borrowRest fun _ h => h
    | some n => exact yield_map (U := fun _ => False) (yield_ite (fun _ => yield_fail _) fun _ => yield_borrowBytes) fun _ h => h
  · exact yield_ite (fun _ => yield_fail _) fun _ => yield_borrowBytes

theorem lent_refused {T : Target} {e : Endian} : Refused false (fun _ => true) T e := fun _ cx ht _ => reference_never cx ht

/-! ## The property -/

open Samples

/-- **C82**: whatever type is read, and whatever the bytes are, what is read by a reader which does not lend (also a hand-written
one) contains no reference. -/
theorem C82_reader {σ : Type} {R : ReaderOps σ} (hR : Lendless R) {T : Target} {e : Endian} {t : Ty} {cx : Cx} {s : σ} {v : Val}
    (h : ((decode T e t cx).run R s).1 = .ok v) : ¬ lent t v :=
  (decode_unlent lent_refused t cx).run (fun _ => hR) (s := s) v h

/-- **C82** for streams: a stream of any contents which may fail at any time, buffered or not. -/
theorem C82_stream {T : Target} {e : Endian} {t : Ty} {grow : Nat → Nat} {buffered : Bool} {src : Src} {v : Val}
    (h : (readFromStream T e t grow buffered src).1 = .ok v) : ¬ lent t v :=
  C82_reader (streamReader_lendless grow) h

/-- **C82** for `read_from_buffer_copying_data`, which `read_from_file` uses on a mapping it is about to remove. -/
theorem C82_copying {T : Target} {e : Endian} {t : Ty} {base : Nat} {buf : Bytes} {v : Val}
    (h : readFromBufferCopying T e t base buf = .ok v) : ¬ lent t v := by
  unfold readFromBufferCopying readWithLengthFromBufferCopying at h
  split at h
  · cases h
  · exact C82_reader (copyingReader_lendless T.toHost) h

/-- **C82** for `read_from_file`, on every platform: when it returns, the mapping is gone (C53), and nothing points into it. -/
theorem C82_file {T : Target} {e : Endian} {t : Ty} {grow : Nat → Nat} {f : OsFile} {v : Val}
    (h : (readFromFileMapped T e t f).1 = .ok v ∨ readFromFileStreamed T e t grow f = .ok v) : ¬ lent t v := by
  rcases h with h | h
  · unfold readFromFileMapped at h
    split at h
    · cases h
    · split at h
      · cases h
      · split at h
        · cases h
        · split at h
          · cases h
          · split at h
            · cases h
            · exact C82_copying h
  · unfold readFromFileStreamed at h
    split at h
    · cases h
    · exact C82_stream h

/-- **C82**: so references themselves are never read from a stream: it is an error (not an empty slice, and not a leaked copy). -/
theorem C82_stream_refused {T : Target} {e : Endian} {t : Ty} {grow : Nat → Nat} {buffered : Bool} {src : Src}
    (ht : t = .str .ref ∨ (∃ u, t = .seq .ref u) ∨ ∃ n u, t = .refArray n u) :
    ∃ er, (readFromStream T e t grow buffered src).1 = .error er := by
  cases h : (readFromStream T e t grow buffered src).1 with
  | error er => exact ⟨er, rfl⟩
  | ok v => exact ((reference_never Cx.std ht).run (fun _ => streamReader_lendless grow) v h).elim

/-- **C82**: nor are they read from a buffer which is to be copied. -/
theorem C82_copying_refused {T : Target} {e : Endian} {t : Ty} {base : Nat} {buf : Bytes}
    (ht : t = .str .ref ∨ (∃ u, t = .seq .ref u) ∨ ∃ n u, t = .refArray n u) :
    ∃ er, readFromBufferCopying T e t base buf = .error er := by
  cases h : readFromBufferCopying T e t base buf with
  | error er => exact ⟨er, rfl⟩
  | ok v =>
    unfold readFromBufferCopying readWithLengthFromBufferCopying at h
    split at h
    · cases h
    · exact ((reference_never Cx.std ht).run (fun _ => copyingReader_lendless T.toHost) v h).elim

/-- `Cow<[T]>` from a reader which does not lend is owned. -/
theorem C82_cow {σ : Type} {R : ReaderOps σ} (hR : Lendless R) {h : Host} {e : Endian} {el : Elem} {n : Nat} {s : σ} {c : CowVal}
    (hc : ((readCow h e el n).run R s).1 = .ok c) : ∃ vs, c = .owned vs :=
  ((yield_cow (lends := false) (V := fun _ => True) (yield_all (fun _ => trivial) _) (fun _ _ => trivial) trivial).run (fun _ => hR) (s := s) c hc).1 rfl

/-! ## Examples -/

/-- `struct Line<'a> { number: u16, #[speedy(default_on_eof)] text: Option<&'a str> }` -/
def lineTy : Ty := .struct ⟨.rust, 24, 8, [0, 8], true⟩
  (.cons {} (.prim .u16) (.cons { defaultOnEof := true, dflt := .none } (.option (.str .ref)) .nil))

/-- From a buffer it holds a reference, … -/
example : readFromBuffer x64 .little lineTy 4096 [7, 0, 1, 2, 0, 0, 0, 104, 105] =
      .ok (.pair (.num 7) (.pair (.some (.bytes [104, 105])) .unit)) ∧
    lent lineTy (.pair (.num 7) (.pair (.some (.bytes [104, 105])) .unit)) :=
  ⟨by decide, by simp [holdsFields, holds, lineTy]⟩

/-- … from a stream it is an error, … -/
example : (readFromStream x64 .little lineTy id false ⟨[7, 0, 1, 2, 0, 0, 0, 104, 105], [.give 3]⟩).1 = .error .unsized := by decide

/-- … unless there is no text. -/
example : (readFromStream x64 .little lineTy id false ⟨[7, 0, 0], [.give 3]⟩).1 = .ok (.pair (.num 7) (.pair .none .unit)) := by decide

example : ¬ lent lineTy (.pair (.num 7) (.pair .none .unit)) :=
  C82_stream (T := x64) (e := .little) (grow := id) (buffered := false) (src := ⟨[7, 0, 0], [.give 3]⟩) (by decide)

/-! ## Cases -/

section Cases
open Samples

example : ¬ lent lineTy (.pair (.num 7) (.pair .none .unit)) :=
  C82_copying (T := x64) (e := .little) (base := 4096) (buf := [7, 0, 0]) (by decide)
example : ¬ lent lineTy (.pair (.num 7) (.pair .none .unit)) :=
  C82_reader (R := copyingReader Host.x64) (copyingReader_lendless _) (T := x64) (e := .little) (cx := Cx.std) (s := BufSt.init 4096 [7, 0, 0]) (by decide)
example (base : Nat) (buf : Bytes) : ∃ er, readFromBufferCopying x64 .little (.str .ref) base buf = .error er := C82_copying_refused (.inl rfl)
example (src : Src) : ∃ er, (readFromStream x64 .little (.refArray 4 (.prim .u8)) (· + 100) true src).1 = .error er :=
  C82_stream_refused (.inr (.inr ⟨_, _, rfl⟩))

/-- `Cow<[u8]>` from a copy. -/
example : ∃ vs, CowVal.owned [.num 7, .num 8] = .owned vs :=
  C82_cow (R := copyingReader Host.x64) (copyingReader_lendless _) (h := Host.x64) (e := .little)
    (el := elemOf x64 (.prim .u8) (decode x64 .little (.prim .u8) Cx.std)) (n := 2) (s := BufSt.init 4096 [7, 8]) rfl

/-- A file of three bytes. -/
example : ¬ lent lineTy (.pair (.num 7) (.pair .none .unit)) :=
  C82_file (T := x64) (e := .little) (grow := id) (f := { size := 3, src := ⟨[7, 0, 0], [.give 2]⟩, addr := 8192 }) (.inl (by decide))

end Cases

end Verif
