import Verif.PropsBulk
import Verif.PropsCount

/-!
# Zero-copy reading: alignment (C45) and when a `Cow` borrows (C46)

Addresses are numbers; `s.ptr` is the address of the next byte to be read.
-/

namespace Verif

open Samples

/-- `read_cow_until_eof` — src/reader.rs:623-631: always owned. -/
def readCowRest (fuel : Nat) (el : Elem) : M CowVal := M.map .owned (readUntilEof fuel el.read)

/-- `Cow<str>`: the text, and whether it is borrowed (with the address) — src/readable_impl.rs:218-232,
`cow_bytes_to_cow_str` — src/private.rs:41-55. -/
def readCowStr (T : Target) (e : Endian) (n : Nat) : M (Option Nat × Bytes) :=
  M.bind (readCow T.toHost e (u8Elem T e) n) fun
    | .borrowed addr bs _ => if utf8Valid bs then M.pure (some addr, bs) else M.fail .invalidUtf8
    | .owned vs => if utf8Valid (toBytes vs) then M.pure (none, toBytes vs) else M.fail .invalidUtf8

/-- The conditions under which a `Cow<[T]>` at an address need not be copied: `T` is copied in bulk, there is nothing to swap, and
the address is right for `T`. -/
def CanBorrow (T : Target) (e : Endian) (t : Ty) (addr : Nat) : Prop :=
  isPrimitive T t = true ∧ (sizeOf T t = 1 ∨ e.conv T.toHost = false) ∧ (alignOf T t = 1 ∨ alignOf T t ∣ addr)

/-- What is borrowed is a part of the input: of the given position and size. -/
def PartOf (base : Nat) (buf : Bytes) (addr : Nat) (bs : Bytes) : Prop :=
  base ≤ addr ∧ addr + bs.length ≤ base + buf.length ∧ bs = (buf.drop (addr - base)).take bs.length

theorem pend_part {h : Host} {s : BufSt} (hs : s.Inv h) {n : Nat} (hn : n ≤ s.pend.length) :
    PartOf s.base s.buf s.ptr (s.pend.take n) := by
  have hl : (s.pend.take n).length = n := by rw [List.length_take]; omega
  have h1 := hs.lo
  unfold PartOf
  rw [hl]
  refine ⟨h1, ?_, rfl⟩
  simp only [BufSt.pend, List.length_drop] at hn
  have := hs.hi
  have := hs.stop_eq
  omega

section
variable {T : Target} {e : Endian} {t : Ty} {rd : M Val} {s : BufSt}

/-- The run of `read_cow` on a buffer. -/
theorem cow_run (hs : s.Inv T.toHost) {n : Nat} (hz : sizeOf T t ≠ 0) (hn : n * sizeOf T t ≤ s.pend.length)
    (hp : isPrimitive T t = true) (hc : sizeOf T t = 1 ∨ e.conv T.toHost = false) :
    ∃ s', s'.pend = s.pend.drop (n * sizeOf T t) ∧ s'.Inv T.toHost ∧
      (readCow T.toHost e (elemOf T t rd) n).run (bufferReader T.toHost) s =
      ((if alignOf T t = 1 ∨ alignOf T t ∣ s.ptr then
        .ok (.borrowed s.ptr (s.pend.take (n * sizeOf T t)) ((chunks (sizeOf T t) n s.pend).map (ofMem T t)))
      else if n * sizeOf T t > T.isizeMax then .error (.panic .capacityOverflow)
      else .ok (.owned ((chunks (sizeOf T t) n s.pend).map (ofMem T t)))), s') := by
  have hfit : n * sizeOf T t ≤ T.usizeMax := by
    have h1 := hs.fits
    have h2 := hs.stop_eq
    simp only [BufSt.pend, List.length_drop] at hn
    exact Nat.le_trans hn (by omega)
  have hw : wmul T.toHost n (sizeOf T t) = n * sizeOf T t := Nat.mod_eq_of_lt (by omega)
  refine ⟨{ s with ptr := s.ptr + n * sizeOf T t, trace := (s.ptr, n * sizeOf T t) :: s.trace },
    (BufSt.advance_inv hs hn (Or.inr rfl)).2, (BufSt.advance_inv hs hn (Or.inr rfl)).1, ?_⟩
  unfold readCow
  rw [if_pos (by
    simp only [elemOf, hp, Bool.true_and, Bool.or_eq_true, beq_iff_eq, Bool.not_eq_true']
    exact hc)]
  rw [run_borrow]
  have hb : (bufferReader T.toHost).borrow (wmul T.toHost n (elemOf T t rd).size) s =
      (some (.ok (s.ptr, s.pend.take (n * sizeOf T t))),
        { s with ptr := s.ptr + n * sizeOf T t, trace := (s.ptr, n * sizeOf T t) :: s.trace }) := by
    show bufBorrow _ _ _ = _
    unfold bufBorrow
    rw [show (elemOf T t rd).size = sizeOf T t from rfl, hw, bufCanRead_eq hs]
    simp [hn, BufSt.load_eq]
  rw [hb]
  have hl : (s.pend.take (n * sizeOf T t)).length = n * sizeOf T t := by rw [List.length_take]; omega
  simp only [show (elemOf T t rd).size = sizeOf T t from rfl, hw, hl]
  simp only [ne_eq, not_true_eq_false, if_false, elemOf]
  by_cases ha : alignOf T t = 1 ∨ alignOf T t ∣ s.ptr
  · have hb : (alignOf T t == 1 || s.ptr % alignOf T t == 0) = true := by simpa [Nat.dvd_iff_mod_eq_zero] using ha
    simp only [hz, hb, ha, if_true, if_false, Nat.mul_div_cancel n (Nat.pos_of_ne_zero hz), chunks_take (Nat.le_refl _)]
    rfl
  · have hb : (alignOf T t == 1 || s.ptr % alignOf T t == 0) = false := by
      simpa [Nat.dvd_iff_mod_eq_zero] using ha
    simp only [hb, ha, if_false, Bool.false_eq_true, chunks_take (Nat.le_refl _)]
    split <;> rfl

/-! ## C46 -/

/-- **C46**, "when": if a `Cow<[T]>` at the next address can be borrowed, `read_cow` on a buffer borrows it: from that address, the part of
the input which encodes the `n` elements; the elements are those which reading one at a time gives.

Full claim: all lengths, also fields with `length = ..`.  Missing: those, for which it is false (`C46_false`), elements of
size zero (division by zero, `C32_false_empty`), `bulkOk` (`C27_false`). -/
theorem C46_borrows_partial (hT : T.Ok) (hl : layoutOk T t = true) (hb : bulkPlain t = true) (hs : s.Inv T.toHost)
    (hB : s.pend.length ≤ T.isizeMax) (hF : s.pend.length < T.fuel) {n : Nat} (hz : sizeOf T t ≠ 0)
    (hn : n * sizeOf T t ≤ s.pend.length) (hc : CanBorrow T e t s.ptr) :
    ∃ vs s' s'', (readCow T.toHost e (elemOf T t (decode T e t Cx.std)) n).run (bufferReader T.toHost) s =
        (.ok (.borrowed s.ptr (s.pend.take (n * sizeOf T t)) vs), s') ∧
      s'.pend = s.pend.drop (n * sizeOf T t) ∧
      PartOf s.base s.buf s.ptr (s.pend.take (n * sizeOf T t)) ∧
      (repeatM n (decode T e t Cx.std)).run (bufferReader T.toHost) s = (.ok vs, s'') := by
  obtain ⟨hp, hc1, hc2⟩ := hc
  obtain ⟨s', h1, h2, h3⟩ := cow_run (rd := decode T e t Cx.std) hs hz hn hp hc1
  rw [if_pos hc2] at h3
  have hL := bufferReader_lawful T.toHost
  have hd := decode_refines hL hT hB hF (e := e) t Cx.std hl (.inl (prim_noRefs t hp))
  have h4 := refines_repeat hd n s hs (Nat.le_refl _)
  rw [(pRep_prim hp hl hb n s.pend).1 hn] at h4
  have h5 : (chunks (sizeOf T t) n s.pend).map (seqVal T e t) = (chunks (sizeOf T t) n s.pend).map (ofMem T t) :=
    (native_vals hp hl hc1 _ (chunks_mem hn)).symm
  rw [h5] at h4
  refine ⟨_, s', _, h3, h1, pend_part hs hn, Prod.ext h4.1 rfl⟩

/-- **C46**, "only when", and C45 for `Cow`: with any reader, what `read_cow` borrows is aligned, in the right byte order and of a type
which is copied in bulk. -/
theorem C46_only_when {σ : Type} {R : ReaderOps σ} {s s' : σ} {n addr : Nat} {bs : Bytes} {vs : List Val}
    (hr : (readCow T.toHost e (elemOf T t rd) n).run R s = (.ok (.borrowed addr bs vs), s')) : CanBorrow T e t addr := by
  have hvec : ∀ {s1}, (M.map CowVal.owned (readVec T.toHost e (elemOf T t rd) n)).run R s1 ≠ (.ok (.borrowed addr bs vs), s') := by
    intro s1 h
    obtain ⟨_, _, h2⟩ := M.run_map_inv h
    cases h2
  unfold readCow at hr
  split at hr
  · rename_i hc
    simp only [elemOf, Bool.and_eq_true, Bool.or_eq_true, beq_iff_eq, Bool.not_eq_true'] at hc
    rw [run_borrow] at hr
    generalize R.borrow (wmul T.toHost n (elemOf T t rd).size) s = r at hr
    rcases r with ⟨_ | _ | ⟨a, b⟩, s1⟩
    · exact absurd hr hvec
    · simp [M.fail, Prog.run] at hr
    · simp only at hr
      split at hr
      · simp [M.fail, Prog.run] at hr
      split at hr
      · rename_i ha
        simp only [elemOf, Bool.or_eq_true, beq_iff_eq] at ha
        split at hr
        · simp [M.fail, Prog.run] at hr
        simp only [M.pure, Prog.run, Prod.mk.injEq, Except.ok.injEq, CowVal.borrowed.injEq] at hr
        rw [← hr.1.1]
        exact ⟨hc.1, hc.2, by simpa [Nat.dvd_iff_mod_eq_zero] using ha⟩
      · split at hr
        · simp [M.fail, Prog.run] at hr
        rw [run_alloc] at hr
        simp [M.pure, Prog.run] at hr
  · exact absurd hr hvec

/-- **C46**, "the right part": what `read_cow` borrows from a buffer lies within the buffer, starts at the next byte and is consumed. -/
theorem C46_right_part (hs : s.Inv T.toHost) {n addr : Nat} {bs : Bytes} {vs : List Val} {s' : BufSt}
    (hr : (readCow T.toHost e (elemOf T t rd) n).run (bufferReader T.toHost) s = (.ok (.borrowed addr bs vs), s')) :
    addr = s.ptr ∧ PartOf s.base s.buf addr bs ∧ s'.pend = s.pend.drop bs.length ∧
      (n * sizeOf T t ≤ T.usizeMax → bs.length = n * sizeOf T t) := by
  have hvec : ∀ {s1}, (M.map CowVal.owned (readVec T.toHost e (elemOf T t rd) n)).run (bufferReader T.toHost) s1 ≠
      (.ok (.borrowed addr bs vs), s') := by
    intro s1 h
    obtain ⟨_, _, h2⟩ := M.run_map_inv h
    cases h2
  unfold readCow at hr
  split at hr
  rotate_left
  · exact absurd hr hvec
  rw [run_borrow] at hr
  have hb : (bufferReader T.toHost).borrow = bufBorrow T.toHost := rfl
  rw [hb] at hr
  unfold bufBorrow at hr
  rw [bufCanRead_eq hs] at hr
  by_cases hle : wmul T.toHost n (elemOf T t rd).size ≤ s.pend.length
  rotate_left
  · simp [hle, M.fail, Prog.run] at hr
  simp only [hle, decide_true, Option.some.injEq, Bool.true_eq_false, if_false, BufSt.load_eq] at hr
  have hl : (s.pend.take (wmul T.toHost n (elemOf T t rd).size)).length = wmul T.toHost n (elemOf T t rd).size := by
    rw [List.length_take]; omega
  simp only [hl, ne_eq, not_true_eq_false, if_false] at hr
  split at hr
  · split at hr
    · simp [M.fail, Prog.run] at hr
    simp only [M.pure, Prog.run, Prod.mk.injEq, Except.ok.injEq, CowVal.borrowed.injEq] at hr
    obtain ⟨⟨h1, h2, _⟩, h4⟩ := hr
    subst h1 h2 h4
    refine ⟨rfl, pend_part hs hle, ?_, fun hn => ?_⟩
    · rw [hl]
      exact (BufSt.advance_inv hs hle (Or.inr rfl)).2
    · rw [hl]
      exact Nat.mod_eq_of_lt (by simp only [elemOf]; omega)
  · split at hr
    · simp [M.fail, Prog.run] at hr
    rw [run_alloc] at hr
    simp [M.pure, Prog.run] at hr

/-- **C46**, copying: with a reader which does not hand out parts of its input `read_cow` never borrows … -/
theorem C46_copying {σ : Type} {R : ReaderOps σ} (hR : ∀ n s, (R.borrow n s).1 = none) (s : σ) (n : Nat) :
    ∀ addr bs vs, ((readCow T.toHost e (elemOf T t rd) n).run R s).1 ≠ .ok (.borrowed addr bs vs) := by
  intro addr bs vs h
  have hvec : ∀ {s1}, ((M.map CowVal.owned (readVec T.toHost e (elemOf T t rd) n)).run R s1).1 ≠ .ok (.borrowed addr bs vs) := by
    intro s1 h
    obtain ⟨_, _, h2⟩ := M.run_map_inv (s := s1) (Prod.ext h rfl)
    cases h2
  unfold readCow at h
  split at h
  · rw [run_borrow] at h
    have := hR (wmul T.toHost n (elemOf T t rd).size) s
    generalize R.borrow (wmul T.toHost n (elemOf T t rd).size) s = r at h this
    rcases r with ⟨_ | _ | ⟨a, b⟩, s1⟩
    · exact hvec h
    · cases this
    · cases this
  · exact hvec h
end

/-- … and neither the copying reader nor that of streams does. -/
theorem C46_who_copies (h : Host) : (∀ n s, ((copyingReader h).borrow n s).1 = none) ∧
    (∀ cap n s, ((streamReader cap).borrow n s).1 = none) :=
  ⟨fun _ _ => rfl, fun _ _ _ => rfl⟩

/-- What `read_cow` and `read_cow_until_eof` return is what a `Cow<[T]>` contains. -/
theorem C46_decode {T : Target} {e : Endian} {t : Ty} {cx : Cx} :
    decode T e (.seq .cow t) cx = M.bind (readLenR T.toHost e cx.len) fun
      | some n => M.map (fun c => .list c.vals) (readCow T.toHost e (elemOf T t (decode T e t Cx.std)) n)
      | none => M.map .list (readUntilEof T.fuel (decode T e t Cx.std)) := by
  rw [decode]
  rw [if_neg (by simp)]
  congr
  funext l
  cases l <;> rfl

theorem bytes_of_chunks {T : Target} {e : Endian} (bs : Bytes) :
    toBytes ((chunks 1 (bs.length / 1) bs).map (u8Elem T e).ofMem) = bs := by
  rw [Nat.div_one]
  have h := native_vals (T := T) (e := e) (t := .prim .u8) rfl rfl (.inl rfl) (chunks 1 bs.length bs)
    (chunks_mem (size := 1) (by omega))
  show toBytes ((chunks 1 bs.length bs).map (ofMem T (.prim .u8))) = bs
  rw [h, chunks_u8 _ _ (Nat.le_refl _), List.take_length, toBytes_num]

/-- What is borrowed for a `Cow<str>` are its bytes. -/
theorem cow_u8 {σ : Type} {R : ReaderOps σ} {T : Target} {e : Endian} {n : Nat} {s s' : σ} {addr : Nat} {bs : Bytes}
    {vs : List Val} (hr : (readCow T.toHost e (u8Elem T e) n).run R s = (.ok (.borrowed addr bs vs), s')) : toBytes vs = bs := by
  have hvec : ∀ {s1}, (M.map CowVal.owned (readVec T.toHost e (u8Elem T e) n)).run R s1 ≠ (.ok (.borrowed addr bs vs), s') := by
    intro s1 h
    obtain ⟨_, _, h2⟩ := M.run_map_inv h
    cases h2
  unfold readCow at hr
  split at hr
  · rw [run_borrow] at hr
    generalize R.borrow (wmul T.toHost n (u8Elem T e).size) s = r at hr
    rcases r with ⟨_ | _ | ⟨a, b⟩, s1⟩
    · exact absurd hr hvec
    · simp [M.fail, Prog.run] at hr
    · simp only at hr
      split at hr
      · simp [M.fail, Prog.run] at hr
      split at hr
      · split at hr
        · simp [M.fail, Prog.run] at hr
        simp only [M.pure, Prog.run, Prod.mk.injEq, Except.ok.injEq, CowVal.borrowed.injEq] at hr
        obtain ⟨⟨_, h2, h3⟩, _⟩ := hr
        rw [← h3, ← h2]
        exact bytes_of_chunks b
      · split at hr
        · simp [M.fail, Prog.run] at hr
        rw [run_alloc] at hr
        simp [M.pure, Prog.run] at hr
  · exact absurd hr hvec

/-- The value of a `Cow<str>` is that of `readCowStr`. -/
theorem C46_str_decode {σ : Type} (R : ReaderOps σ) (T : Target) (e : Endian) (n : Nat) (s : σ) :
    (readStr T e .cow (some n)).run R s = (M.map (fun r => Val.bytes r.2) (readCowStr T e n)).run R s := by
  unfold readStr readCowStr
  simp only
  rw [run_map_bind]
  rcases hc : (readCow T.toHost e (u8Elem T e) n).run R s with ⟨r, s'⟩
  cases r with
  | error er => rw [M.run_bind_err hc, M.run_bind_err hc]
  | ok c =>
    rw [M.run_bind_ok hc, M.run_bind_ok hc]
    cases c with
    | owned vs =>
      rw [show (CowVal.owned vs).vals = vs from rfl]
      simp only [asStr]
      by_cases hu : utf8Valid (toBytes vs) = true
      · rw [if_pos hu, if_pos hu]; rfl
      · rw [if_neg hu, if_neg hu]; rfl
    | borrowed addr bs vs =>
      rw [show (CowVal.borrowed addr bs vs).vals = vs from rfl, cow_u8 hc]
      simp only [asStr]
      by_cases hu : utf8Valid bs = true
      · rw [if_pos hu, if_pos hu]; rfl
      · rw [if_neg hu, if_neg hu]; rfl

/-- **C46** for `Cow<str>`: on a buffer it is always borrowed, and is the next `n` bytes of the input. -/
theorem C46_str {T : Target} {e : Endian} {s : BufSt} (hs : s.Inv T.toHost) (ha : T.primAlign .u8 = 1) {n : Nat}
    (hn : n ≤ s.pend.length) (hu : utf8Valid (s.pend.take n) = true) :
    ∃ s', (readCowStr T e n).run (bufferReader T.toHost) s = (.ok (some s.ptr, s.pend.take n), s') ∧
      s'.pend = s.pend.drop n ∧ PartOf s.base s.buf s.ptr (s.pend.take n) := by
  obtain ⟨s', h1, h2, h3⟩ := cow_run (t := .prim .u8) (rd := M.map .num (readNum T.toHost e 1)) (e := e) hs
    (n := n) (by simp [sizeOf, Prim.size]) (by simpa [sizeOf, Prim.size] using hn) rfl (.inl rfl)
  rw [if_pos (.inl ha)] at h3
  simp only [show sizeOf T (.prim .u8) = 1 from rfl, Nat.mul_one] at h1 h3
  refine ⟨s', ?_, h1, pend_part hs hn⟩
  unfold readCowStr
  rw [← show u8Elem T e = elemOf T (.prim .u8) (M.map .num (readNum T.toHost e 1)) from rfl] at h3
  rw [M.run_bind_ok h3]
  simp only [hu, if_true]
  rfl

/-- **C46** for `Cow<str>`, copying: never borrowed. -/
theorem C46_str_copying {T : Target} {e : Endian} {σ : Type} {R : ReaderOps σ} (hR : ∀ n s, (R.borrow n s).1 = none) (s : σ) (n : Nat) :
    ∀ addr bs, ((readCowStr T e n).run R s).1 ≠ .ok (some addr, bs) := by
  intro addr bs h
  have hr : (readCowStr T e n).run R s = (.ok (some addr, bs), ((readCowStr T e n).run R s).2) := Prod.ext h rfl
  obtain ⟨c, s', h1, h2⟩ := M.run_bind_inv hr
  cases c with
  | borrowed a b vs => exact C46_copying hR s n a b vs (by rw [show (readCow T.toHost e (elemOf T (.prim .u8)
      (M.map .num (readNum T.toHost e 1))) n).run R s = _ from h1])
  | owned vs =>
    simp only at h2
    split at h2
    · simp [M.pure, Prog.run] at h2
    · simp [M.fail, Prog.run] at h2

/-- A `Cow<[u16]>` at an even address is borrowed, at an odd one copied; so it is in the other byte order, or by the copying reader. -/
example :
    ((readCow Host.x64 .little (elemOf x64 (.prim .u16) (decode x64 .little (.prim .u16) Cx.std)) 2).run
      (bufferReader Host.x64) (BufSt.init 4096 [5, 0, 6, 0, 9])).1 = .ok (.borrowed 4096 [5, 0, 6, 0] [.num 5, .num 6]) ∧
    ((readCow Host.x64 .little (elemOf x64 (.prim .u16) (decode x64 .little (.prim .u16) Cx.std)) 2).run
      (bufferReader Host.x64) (BufSt.init 4097 [5, 0, 6, 0, 9])).1 = .ok (.owned [.num 5, .num 6]) ∧
    ((readCow Host.x64 .big (elemOf x64 (.prim .u16) (decode x64 .big (.prim .u16) Cx.std)) 2).run
      (bufferReader Host.x64) (BufSt.init 4096 [0, 5, 0, 6, 9])).1 = .ok (.owned [.num 5, .num 6]) ∧
    ((readCow Host.x64 .little (elemOf x64 (.prim .u16) (decode x64 .little (.prim .u16) Cx.std)) 2).run
      (copyingReader Host.x64) (BufSt.init 4096 [5, 0, 6, 0, 9])).1 = .ok (.owned [.num 5, .num 6]) ∧
    CanBorrow x64 .little (.prim .u16) 4096 ∧ ¬ CanBorrow x64 .little (.prim .u16) 4097 ∧
    ((readCowStr x64 .little 2).run (bufferReader Host.x64) (BufSt.init 4097 [0x68, 0x69, 9])).1 =
      .ok (some 4097, [0x68, 0x69]) := by
  refine ⟨by decide, by decide, by decide, by decide, ?_, ?_, by decide⟩
  · exact ⟨rfl, .inr rfl, .inr (by decide)⟩
  · rintro ⟨_, _, h | h⟩
    · exact absurd h (by decide)
    · exact absurd h (by decide)

/-- **C46 is false** for fields with `length = ..`: they are copied although they could be borrowed.  And on a 32-bit machine a `Cow<[u32]>`
of length `0x40000001` — which needs 4 GiB — is read from 4 bytes: the multiplication by the size wraps around, and one element is returned
(`Vec<u32>` gives an error). -/
theorem C46_false :
    (CanBorrow x64 .little (.prim .u8) 4096 ∧
      ((readCowRest 10 (elemOf x64 (.prim .u8) (decode x64 .little (.prim .u8) Cx.std))).run (bufferReader Host.x64)
        (BufSt.init 4096 [5, 6])).1 = .ok (.owned [.num 5, .num 6])) ∧
    (readFromBuffer le32 .little (.seq .cow (.prim .u32)) 4096 [1, 0, 0, 0x40, 7, 0, 0, 0] = .ok (.list [.num 7]) ∧
      readFromBuffer le32 .little (.seq .vec (.prim .u32)) 4096 [1, 0, 0, 0x40, 7, 0, 0, 0] =
        .error .unexpectedEndOfInput) := by
  refine ⟨⟨⟨rfl, .inl rfl, .inl rfl⟩, by decide⟩, by decide⟩

/-! ## C45 -/

/-- **C45** for `Cow<[T]>`: with any reader, what is borrowed is aligned. -/
theorem C45_cow {T : Target} {e : Endian} {t : Ty} {rd : M Val} {σ : Type} {R : ReaderOps σ} {s s' : σ} {n addr : Nat}
    {bs : Bytes} {vs : List Val}
    (hr : (readCow T.toHost e (elemOf T t rd) n).run R s = (.ok (.borrowed addr bs vs), s')) :
    alignOf T t ∣ addr := by
  rcases (C46_only_when hr).2.2 with h | h
  · rw [h]; exact Nat.one_dvd _
  · exact h

/-- **C45** for `&[T]`: its address is that of the next byte of the input; so it is aligned if the alignment of `T` is 1 or that
address happens to be.

Full claim: it is always aligned, which is false (`C45_false`). -/
theorem C45_ref_partial {T : Target} {t : Ty} {rd : M Val} {s s' : BufSt} (hs : s.Inv T.toHost) {n addr : Nat} {vs : List Val}
    (hr : (readRefSlice T.toHost (elemOf T t rd) n).run (bufferReader T.toHost) s = (.ok (addr, vs), s')) :
    addr = s.ptr ∧ PartOf s.base s.buf addr (s.pend.take (n * sizeOf T t)) ∧ n * sizeOf T t ≤ s.pend.length ∧
      (alignOf T t = 1 ∨ alignOf T t ∣ s.ptr → alignOf T t ∣ addr) := by
  unfold readRefSlice at hr
  split at hr
  · simp [M.fail, Prog.run] at hr
  obtain ⟨⟨a, bs⟩, s1, h1, h2⟩ := M.run_bind_inv hr
  simp only [M.pure, Prog.run, Prod.mk.injEq, Except.ok.injEq] at h2
  unfold borrowBytes at h1
  rw [run_borrow] at h1
  have hb : (bufferReader T.toHost).borrow = bufBorrow T.toHost := rfl
  rw [hb] at h1
  unfold bufBorrow at h1
  rw [bufCanRead_eq hs] at h1
  by_cases hle : n * (elemOf T t rd).size ≤ s.pend.length
  rotate_left
  · simp [hle, M.fail, Prog.run] at h1
  simp only [hle, decide_true, Option.some.injEq, Bool.true_eq_false, if_false, BufSt.load_eq, M.pure, Prog.run,
    Prod.mk.injEq, Except.ok.injEq] at h1
  have ha : addr = s.ptr := by rw [← h2.1.1, ← h1.1.1]
  subst ha
  refine ⟨rfl, pend_part hs hle, hle, fun h => ?_⟩
  rcases h with h | h
  · rw [h]; exact Nat.one_dvd _
  · exact h

/-! ## C30: slices which refer to the input -/

/-- **C30**, `&[T]`: all elements of the slice lie inside the input buffer. -/
theorem C30_ref_slice {T : Target} {t : Ty} {rd : M Val} {s s' : BufSt} (hs : s.Inv T.toHost) {n addr : Nat} {vs : List Val}
    (hr : (readRefSlice T.toHost (elemOf T t rd) n).run (bufferReader T.toHost) s = (.ok (addr, vs), s')) :
    s.base ≤ addr ∧ addr + vs.length * sizeOf T t ≤ s.base + s.buf.length := by
  obtain ⟨_, h2, h3, _⟩ := C45_ref_partial hs hr
  have h4 := readRefSlice_count hr
  simp only at h4
  rw [h4]
  have h5 := h2.2.1
  rw [List.length_take, Nat.min_eq_left h3] at h5
  exact ⟨h2.1, h5⟩

/-- **C30**, `Cow<[T]>`: all elements of a borrowed slice lie inside the input buffer, also if the number of bytes overflows. -/
theorem C30_cow_slice {T : Target} {e : Endian} {t : Ty} {rd : M Val} {s s' : BufSt} (hs : s.Inv T.toHost) {n addr : Nat} {bs : Bytes}
    {vs : List Val} (hr : (readCow T.toHost e (elemOf T t rd) n).run (bufferReader T.toHost) s = (.ok (.borrowed addr bs vs), s')) :
    s.base ≤ addr ∧ addr + vs.length * sizeOf T t ≤ s.base + s.buf.length := by
  obtain ⟨_, h2, _⟩ := C46_right_part hs hr
  have key : vs.length * sizeOf T t ≤ bs.length := by
    have hvec : ∀ {s1}, (M.map CowVal.owned (readVec T.toHost e (elemOf T t rd) n)).run (bufferReader T.toHost) s1 ≠
        (.ok (.borrowed addr bs vs), s') := by
      intro s1 h
      obtain ⟨_, _, h2⟩ := M.run_map_inv h
      cases h2
    unfold readCow at hr
    split at hr
    rotate_left
    · exact absurd hr hvec
    rw [run_borrow] at hr
    generalize (bufferReader T.toHost).borrow (wmul T.toHost n (elemOf T t rd).size) s = r at hr
    rcases r with ⟨_ | _ | ⟨a, b⟩, s1⟩
    · exact absurd hr hvec
    · simp [M.fail, Prog.run] at hr
    · simp only at hr
      split at hr
      · simp [M.fail, Prog.run] at hr
      split at hr
      · split at hr
        · simp [M.fail, Prog.run] at hr
        simp only [M.pure, Prog.run, Prod.mk.injEq, Except.ok.injEq, CowVal.borrowed.injEq] at hr
        obtain ⟨⟨_, h4, h5⟩, _⟩ := hr
        rw [← h5, ← h4, List.length_map, chunks_length]
        exact Nat.div_mul_le_self _ _
      · split at hr
        · simp [M.fail, Prog.run] at hr
        rw [run_alloc] at hr
        simp [M.pure, Prog.run] at hr
  exact ⟨h2.1, by have := h2.2.1; omega⟩

/-- **C30**, `&[T]` with `length = ..`. -/
theorem C30_rest_slice {T : Target} {t : Ty} {rd : M Val} {s s' : BufSt} (hs : s.Inv T.toHost) {addr : Nat} {vs : List Val}
    (hr : (readRefSliceRest (elemOf T t rd)).run (bufferReader T.toHost) s = (.ok (addr, vs), s')) :
    s.base ≤ addr ∧ addr + vs.length * sizeOf T t ≤ s.base + s.buf.length := by
  unfold readRefSliceRest at hr
  obtain ⟨⟨a, bs⟩, s1, h1, h2⟩ := M.run_bind_inv hr
  simp only at h2
  split at h2
  · simp [M.fail, Prog.run] at h2
  simp only [M.pure, Prog.run, Prod.mk.injEq, Except.ok.injEq] at h2
  rw [← h2.1.1, ← h2.1.2, List.length_map, chunks_length]
  have h3 : bs.length / sizeOf T t * sizeOf T t ≤ bs.length := Nat.div_mul_le_self _ _
  have h4 : a = s.ptr ∧ bs = s.pend := by
    obtain ⟨s2, h5, _⟩ := bufBorrowEof_ok hs
    unfold borrowRest at h1
    rw [run_borrowEof, show (bufferReader T.toHost).borrowEof s = _ from h5] at h1
    simp only [M.pure, Prog.run, Prod.mk.injEq, Except.ok.injEq] at h1
    exact ⟨h1.1.1.symm, h1.1.2.symm⟩
  obtain ⟨rfl, rfl⟩ := h4
  have h5 := pend_part hs (Nat.le_refl s.pend.length)
  rw [List.take_length] at h5
  have h6 := h5.2.1
  exact ⟨h5.1, by simp only [elemOf]; omega⟩

open Samples in
/-- A `&[u16]` of two elements in a buffer of six bytes. -/
example : ∃ s', (readRefSlice Host.x64 (elemOf x64 (.prim .u16) (decode x64 .little (.prim .u16) Cx.std)) 2).run
      (bufferReader Host.x64) (BufSt.init 4096 [5, 0, 6, 0, 7, 0]) = (.ok (4096, [.num 5, .num 6]), s') ∧
    4096 + 2 * sizeOf x64 (.prim .u16) ≤ 4096 + 6 := ⟨_, Prod.ext rfl rfl, by decide⟩

/-- **C45 is false** for `&[T]` and `&[T; N]`: nothing checks the alignment.  A `&[u32]` of one element after one byte: its address is 4101
(which is undefined behaviour). -/
theorem C45_false :
    alignOf x64 (.prim .u32) = 4 ∧
    readFromBuffer x64 .little (.pair (.prim .u8) (.seq .ref (.prim .u32))) 4096 [9, 1, 0, 0, 0, 7, 0, 0, 0] =
      .ok (.pair (.num 9) (.list [.num 7])) ∧
    ((M.bind (readBytes 5) fun _ => readRefSlice Host.x64 (elemOf x64 (.prim .u32) (decode x64 .little (.prim .u32) Cx.std)) 1).run
      (bufferReader Host.x64) (BufSt.init 4096 [9, 1, 0, 0, 0, 7, 0, 0, 0])).1 = .ok (4101, [.num 7]) ∧
    ((M.bind (readBytes 1) fun _ => borrowBytes 4).run (bufferReader Host.x64) (BufSt.init 4096 [9, 7, 0, 0, 0])).1 =
      .ok (4097, [7, 0, 0, 0]) ∧
    readFromBuffer x64 .little (.pair (.prim .u8) (.refArray 1 (.prim .u32))) 4096 [9, 7, 0, 0, 0] =
      .ok (.pair (.num 9) (.list [.num 7])) := by
  decide

/-! ## Cases -/

section Cases
open Samples

section
open Samples

/-- The borrowed `Cow<[u16]>` from above: where it is, and that it can be there. -/
example : 4096 ≤ 4096 ∧ 4096 + 2 * sizeOf x64 (.prim .u16) ≤ 4096 + 5 :=
  C30_cow_slice (T := x64) (e := .little) (t := .prim .u16) (rd := decode x64 .little (.prim .u16) Cx.std)
    (BufSt.init_inv (base := 4096) (buf := [5, 0, 6, 0, 9]) (by decide)) (n := 2) (bs := [5, 0, 6, 0]) (vs := [.num 5, .num 6])
    (Prod.ext rfl rfl)

example : 4096 ≤ 4096 ∧ 4096 + 2 * sizeOf x64 (.prim .u16) ≤ 4096 + 6 :=
  C30_ref_slice (T := x64) (t := .prim .u16) (rd := decode x64 .little (.prim .u16) Cx.std)
    (BufSt.init_inv (base := 4096) (buf := [5, 0, 6, 0, 7, 0]) (by decide)) (n := 2) (vs := [.num 5, .num 6]) (Prod.ext rfl rfl)

example : 4096 ≤ 4096 ∧ 4096 + 3 * sizeOf x64 (.prim .u16) ≤ 4096 + 6 :=
  C30_rest_slice (T := x64) (t := .prim .u16) (rd := decode x64 .little (.prim .u16) Cx.std)
    (BufSt.init_inv (base := 4096) (buf := [5, 0, 6, 0, 7, 0]) (by decide)) (vs := [.num 5, .num 6, .num 7]) (Prod.ext rfl rfl)

example : alignOf x64 (.prim .u16) ∣ 4096 :=
  C45_cow (T := x64) (e := .little) (t := .prim .u16) (rd := decode x64 .little (.prim .u16) Cx.std) (R := bufferReader Host.x64)
    (s := BufSt.init 4096 [5, 0, 6, 0, 9]) (n := 2) (bs := [5, 0, 6, 0]) (vs := [.num 5, .num 6]) (Prod.ext rfl rfl)

example : alignOf x64 (.prim .u16) ∣ 4096 :=
  (C45_ref_partial (T := x64) (t := .prim .u16) (rd := decode x64 .little (.prim .u16) Cx.std)
    (BufSt.init_inv (base := 4096) (buf := [5, 0, 6, 0, 7, 0]) (by decide)) (n := 2) (vs := [.num 5, .num 6])
    (Prod.ext rfl rfl)).2.2.2 (.inr (by decide))

/-- Two points are borrowed at an even address. -/
example := C46_borrows_partial (e := .little) (t := point) x64_ok (by decide) (by decide)
  (BufSt.init_inv (base := 4098) (buf := [5, 0, 6, 0, 7, 0, 8, 0, 9]) (by decide)) (by decide) (by decide) (n := 2) (by decide) (by decide)
  ⟨by decide, .inr (by decide), .inr (by decide)⟩

example : CanBorrow x64 .little (.prim .u16) 4096 :=
  C46_only_when (rd := decode x64 .little (.prim .u16) Cx.std) (R := bufferReader Host.x64)
    (s := BufSt.init 4096 [5, 0, 6, 0, 9]) (n := 2) (bs := [5, 0, 6, 0]) (vs := [.num 5, .num 6]) (Prod.ext rfl rfl)

example := C46_right_part (T := x64) (e := .little) (t := .prim .u16) (rd := decode x64 .little (.prim .u16) Cx.std)
  (BufSt.init_inv (base := 4096) (buf := [5, 0, 6, 0, 9]) (by decide)) (n := 2) (bs := [5, 0, 6, 0]) (vs := [.num 5, .num 6])
  (Prod.ext rfl rfl)

example (rd : M Val) := C46_copying (T := x64) (e := .little) (t := .prim .u16) (rd := rd) (C46_who_copies Host.x64).1
example := C46_str_copying (T := x64) (e := .little) ((C46_who_copies Host.x64).2 (· + 100))

example := C46_str (T := x64) (e := .little) (BufSt.init_inv (base := 4097) (buf := [0x68, 0x69, 9]) (by decide)) rfl (n := 2)
  (by decide) (by decide)
end

end Cases

end Verif
