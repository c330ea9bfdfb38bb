import Verif.PropsAttrs
import Verif.PropsAgree
import Verif.PropsSafe

/-!
# The number of elements (C24, C47)

`length` attributes and the number of elements which are read.
-/

namespace Verif

open Samples

/-! ## What is read has as many elements as the length says -/

section
variable {σ : Type} {R : ReaderOps σ} {s s' : σ}

theorem repeatM_count {α : Type} {p : M α} : ∀ {n : Nat} {s s' : σ} {vs : List α},
    (repeatM n p).run R s = (.ok vs, s') → vs.length = n
  | 0, s, s', vs, h => by
    simp only [repeatM, M.pure, Prog.run, Prod.mk.injEq, Except.ok.injEq] at h
    rw [← h.1]; rfl
  | n + 1, s, s', vs, h => by
    simp only [repeatM] at h
    obtain ⟨a, s1, h1, h2⟩ := M.run_bind_inv h
    obtain ⟨as, s2, h3, h4⟩ := M.run_bind_inv h2
    simp only [M.pure, Prog.run, Prod.mk.injEq, Except.ok.injEq] at h4
    rw [← h4.1, List.length_cons, repeatM_count h3]

theorem mapPanic_length {f : Bytes → Except Panic Bytes} : ∀ {l r : List Bytes}, mapPanic f l = .ok r → r.length = l.length
  | [], r, h => by simp only [mapPanic, Except.ok.injEq] at h; rw [← h]
  | a :: l, r, h => by
    simp only [mapPanic] at h
    split at h
    · simp at h
    split at h
    · simp at h
    rename_i h1
    simp only [Except.ok.injEq] at h
    rw [← h, List.length_cons, List.length_cons, mapPanic_length h1]

theorem liftVals_count {h : Host} {e : Endian} {el : Elem} {l : List Bytes} {vs : List Val}
    (hr : (liftVals el (convSlice h e el l)).run R s = (.ok vs, s')) : vs.length = l.length := by
  rcases hc : convSlice h e el l with p | ms
  · rw [hc] at hr
    simp [liftVals, M.fail, Prog.run] at hr
  · rw [hc] at hr
    simp only [liftVals, M.pure, Prog.run, Prod.mk.injEq, Except.ok.injEq] at hr
    rw [← hr.1, List.length_map]
    unfold convSlice at hc
    split at hc
    · exact mapPanic_length hc
    · simp only [Except.ok.injEq] at hc; rw [hc]

theorem readVec_count {h : Host} {e : Endian} {el : Elem} {n : Nat} {vs : List Val}
    (hr : (readVec h e el n).run R s = (.ok vs, s')) : vs.length = n := by
  unfold readVec at hr
  split at hr
  · simp [M.fail, Prog.run] at hr
  rw [run_canRead] at hr
  split at hr
  · simp [M.fail, Prog.run] at hr
  split at hr
  · simp [M.fail, Prog.run] at hr
  rw [run_alloc] at hr
  split at hr
  · obtain ⟨mem, s1, _, h2⟩ := M.run_bind_inv hr
    rw [liftVals_count h2, chunks_length]
  · split at hr
    · simp only [M.pure, Prog.run, Prod.mk.injEq, Except.ok.injEq] at hr
      rw [← hr.1, List.length_replicate]
    · exact repeatM_count hr

theorem readCow_count {h : Host} {e : Endian} {el : Elem} {n : Nat} {c : CowVal}
    (hn : el.prim = true → n * el.size ≤ h.usizeMax)
    (hr : (readCow h e el n).run R s = (.ok c, s')) : c.vals.length = n := by
  have hvec : ∀ {s}, (M.map CowVal.owned (readVec h e el n)).run R s = (.ok c, s') → c.vals.length = n := by
    intro s hr
    obtain ⟨vs, h1, h2⟩ := M.run_map_inv hr
    rw [← h2]
    exact readVec_count h1
  unfold readCow at hr
  split at hr
  · rename_i hc
    simp only [Bool.and_eq_true] at hc
    have hw : wmul h n el.size = n * el.size := Nat.mod_eq_of_lt (by have := hn hc.1; omega)
    rw [run_borrow] at hr
    generalize R.borrow (wmul h n el.size) s = r at hr
    rcases r with ⟨_ | _ | ⟨addr, bs⟩, s1⟩
    · exact hvec hr
    · simp [M.fail, Prog.run] at hr
    · simp only at hr
      split at hr
      · simp [M.fail, Prog.run] at hr
      rename_i hl
      split at hr
      · split at hr
        · simp [M.fail, Prog.run] at hr
        rename_i hz
        simp only [M.pure, Prog.run, Prod.mk.injEq, Except.ok.injEq] at hr
        rw [← hr.1]
        simp only [CowVal.vals, List.length_map, chunks_length]
        have : bs.length = n * el.size := by rw [← hw]; omega
        rw [this, Nat.mul_div_cancel _ (by omega)]
      · split at hr
        · simp [M.fail, Prog.run] at hr
        rw [run_alloc] at hr
        simp only [M.pure, Prog.run, Prod.mk.injEq, Except.ok.injEq] at hr
        rw [← hr.1]
        simp only [CowVal.vals, List.length_map, chunks_length]
  · exact hvec hr

theorem readRefSlice_count {h : Host} {el : Elem} {n : Nat} {r : Nat × List Val}
    (hr : (readRefSlice h el n).run R s = (.ok r, s')) : r.2.length = n := by
  unfold readRefSlice at hr
  split at hr
  · simp [M.fail, Prog.run] at hr
  obtain ⟨⟨addr, bs⟩, s1, _, h2⟩ := M.run_bind_inv hr
  simp only [M.pure, Prog.run, Prod.mk.injEq, Except.ok.injEq] at h2
  rw [← h2.1]
  simp only [List.length_map, chunks_length]

theorem readCollection_count {h : Host} {e : Endian} {el : Elem} {n : Nat} {vs : List Val}
    (hr : (readCollection h e el n).run R s = (.ok vs, s')) : vs.length = n := by
  unfold readCollection at hr
  split at hr
  · split at hr
    · simp [M.fail, Prog.run] at hr
    rw [run_borrowR] at hr
    generalize R.borrowR (n * el.size) s = r at hr
    rcases r with ⟨_ | _ | ⟨addr, bs⟩, s1⟩
    · exact repeatM_count hr
    · simp [M.fail, Prog.run] at hr
    · simp only at hr
      split at hr
      · simp [M.fail, Prog.run] at hr
      simp only [M.pure, Prog.run, Prod.mk.injEq, Except.ok.injEq] at hr
      rw [← hr.1, List.length_map, chunks_length]
  · exact repeatM_count hr

theorem readKV_count {h : Host} {e : Endian} {ek ev : Elem} {n : Nat} {vs : List Val}
    (hr : (readKV h e ek ev n).run R s = (.ok vs, s')) : vs.length = n := by
  unfold readKV at hr
  split at hr
  · split at hr
    · simp [M.fail, Prog.run] at hr
    rw [run_borrowR] at hr
    generalize R.borrowR (n * (ek.size + ev.size)) s = r at hr
    rcases r with ⟨_ | _ | ⟨addr, bs⟩, s1⟩
    · exact repeatM_count hr
    · simp [M.fail, Prog.run] at hr
    · simp only at hr
      split at hr
      · simp [M.fail, Prog.run] at hr
      simp only [M.pure, Prog.run, Prod.mk.injEq, Except.ok.injEq] at hr
      rw [← hr.1, List.length_map, chunks_length]
  · exact repeatM_count hr

theorem asStr_ok {bs : Bytes} {v : Val} (hr : (asStr bs).run R s = (.ok v, s')) : v = .bytes bs := by
  unfold asStr at hr
  split at hr
  · simp only [M.pure, Prog.run, Prod.mk.injEq, Except.ok.injEq] at hr
    exact hr.1.symm
  · simp [M.fail, Prog.run] at hr

theorem toBytes_length (vs : List Val) : (toBytes vs).length = vs.length := by simp [toBytes]

end

/-- A value of a container read from `n` elements: a set or map is what these
elements make when they are inserted one after another. -/
inductive ReadFrom : Ty → Val → Nat → Prop
  | str {o} (bs : Bytes) : ReadFrom (.str o) (.bytes bs) bs.length
  | seq {k t} (vs : List Val) : ReadFrom (.seq k t) (.list vs) vs.length
  | set {t} (vs : List Val) : ReadFrom (.set t) (.list (setOf vs)) vs.length
  | map {k v} (vs : List Val) : ReadFrom (.map k v) (.list (mapOf vs)) vs.length

/-- The bytes begin with the length `n` as `#[speedy(length_type = ..)]` documents it (README.md): a number of this width in
the byte order of the context, at most 127 for `u7`; or a variable length integer. -/
def LenTy.begins (e : Endian) : LenTy → Bytes → Nat → Prop
  | .u7, bs, n => n < 128 ∧ ∃ rest, bs = e.bytes 1 n ++ rest
  | .u8, bs, n => n < 256 ^ 1 ∧ ∃ rest, bs = e.bytes 1 n ++ rest
  | .u16, bs, n => n < 256 ^ 2 ∧ ∃ rest, bs = e.bytes 2 n ++ rest
  | .u32, bs, n => n < 256 ^ 4 ∧ ∃ rest, bs = e.bytes 4 n ++ rest
  | .u64, bs, n => n < 256 ^ 8 ∧ ∃ rest, bs = e.bytes 8 n ++ rest
  | .varint, bs, n => ∃ b more, bs = b :: more ∧ leadingOnes b.toNat ≤ more.length ∧
      n = specVarintVal b (more.take (leadingOnes b.toNat))

/-- The size of the elements of a `Cow<[T]>`. -/
def Ty.cowElem (T : Target) : Ty → Nat
  | .seq .cow t => sizeOf T t
  | _ => 0

section
variable {T : Target} (hT : T.Ok) {e : Endian} {σ : Type} {R : ReaderOps σ} {Inv : σ → Prop} {pend : σ → Bytes}
  (L : Lawful R Inv pend) {s s' : σ} {t : Ty} (hc : t.isContainer = true) {cx : Cx} {v : Val}
include L hc hT

/-- **C47**: what is read as a container consists of as many elements as its length says
(wherever the length comes from), whatever the reader.

Full claim: for all lengths.  Missing: lengths of `Cow<[T]>` for which the number of
bytes overflows, where it is false (`C47_false`). -/
theorem C47_count_partial (hs : Inv s) {n : Nat} {s1 : σ}
    (hl : (readLenR T.toHost e cx.len).run R s = (.ok (some n), s1))
    (hcow : n * t.cowElem T ≤ T.usizeMax) (hu : n ≤ T.usizeMax)
    (h : (decode T e t cx).run R s = (.ok v, s')) : ReadFrom t v n := by
  cases t <;> simp only [Ty.isContainer, Bool.false_eq_true] at hc
  case str k =>
    simp only [decode] at h
    rw [M.run_bind_ok hl] at h
    cases k
    · obtain ⟨vs, s2, h1, h2⟩ := M.run_bind_inv (show (M.bind _ _).run R s1 = _ from h)
      rw [asStr_ok h2]
      have := ReadFrom.str (o := .owned) (toBytes vs)
      rwa [toBytes_length, readVec_count h1] at this
    · obtain ⟨c, s2, h1, h2⟩ := M.run_bind_inv (show (M.bind _ _).run R s1 = _ from h)
      rw [asStr_ok h2]
      have := ReadFrom.str (o := .cow) (toBytes c.vals)
      rwa [toBytes_length, readCow_count (fun _ => by
        show n * sizeOf T (.prim .u8) ≤ _
        simp [sizeOf, Prim.size]; omega) h1] at this
    · obtain ⟨r, s2, h1, h2⟩ := M.run_bind_inv (show (M.bind _ _).run R s1 = _ from h)
      rw [asStr_ok h2]
      have hlen : r.2.length = n := by
        have hi : Inv s1 := by have := (L.run (readLenR T.toHost e cx.len) s hs).1; rwa [hl] at this
        unfold borrowBytes at h1
        rw [run_borrow] at h1
        rcases L.borrow n s1 hi with hb | ⟨hle, a, s3, hb, _⟩ | ⟨_, er, s3, hb, _⟩
        · rw [hb] at h1; simp [M.fail, Prog.run] at h1
        · rw [hb] at h1
          simp only [M.pure, Prog.run, Prod.mk.injEq, Except.ok.injEq] at h1
          rw [← h1.1, List.length_take]; omega
        · rw [hb] at h1; simp [M.fail, Prog.run] at h1
      have := ReadFrom.str (o := .ref) r.2
      rwa [hlen] at this
  case seq k t =>
    simp only [decode] at h
    split at h
    · simp [M.fail, Prog.run] at h
    rw [M.run_bind_ok hl] at h
    cases k
    · obtain ⟨vs, h1, h2⟩ := M.run_map_inv (show (M.map _ _).run R s1 = _ from h)
      rw [← h2]
      have := ReadFrom.seq (k := .vec) (t := t) vs
      rwa [readVec_count h1] at this
    · obtain ⟨c, h1, h2⟩ := M.run_map_inv (show (M.map _ _).run R s1 = _ from h)
      rw [← h2]
      have := ReadFrom.seq (k := .cow) (t := t) c.vals
      rwa [readCow_count (fun _ => hcow) h1] at this
    · obtain ⟨r, h1, h2⟩ := M.run_map_inv (show (M.map _ _).run R s1 = _ from h)
      rw [← h2]
      have := ReadFrom.seq (k := .ref) (t := t) r.2
      rwa [readRefSlice_count h1] at this
  case set t =>
    simp only [decode] at h
    rw [M.run_bind_ok hl] at h
    obtain ⟨vs, h1, h2⟩ := M.run_map_inv (show (M.map _ _).run R s1 = _ from h)
    rw [← h2]
    have := ReadFrom.set (t := t) vs
    rwa [readCollection_count h1] at this
  case map k u =>
    simp only [decode] at h
    rw [M.run_bind_ok hl] at h
    obtain ⟨vs, h1, h2⟩ := M.run_map_inv (show (M.map _ _).run R s1 = _ from h)
    rw [← h2]
    have := ReadFrom.map (k := k) (v := u) vs
    rwa [readKV_count h1] at this

omit hT L hc in
theorem pNum_begins {w n : Nat} {bs rest : Bytes} (h : pNum e w bs = .ok n rest) : n < 256 ^ w ∧ bs = e.bytes w n ++ rest := by
  refine ⟨pNum_lt h, ?_⟩
  obtain ⟨a, r, h1, h2⟩ := pBind_ok (show P.bind _ _ _ = _ from h)
  cases h2
  unfold pTake at h1
  split at h1
  · cases h1
    have hb := Endian.bytes_num e (bs.take w)
    rw [List.length_take, Nat.min_eq_left ‹_›] at hb
    rw [hb, List.take_append_drop]
  · cases h1

omit hT L hc in
theorem pLen_begins {h : Host} {lt : LenTy} {n : Nat} {bs rest : Bytes} (hn : pLen h e lt bs = .ok n rest) :
    lt.begins e bs n := by
  cases lt <;> simp only [pLen] at hn <;> simp only [LenTy.begins]
  · obtain ⟨a, r, h1, h2⟩ := pBind_ok hn
    obtain ⟨h3, h4⟩ := pNum_begins h1
    split at h2
    · cases h2
    · cases h2
      exact ⟨by omega, rest, h4⟩
  · exact ⟨(pNum_begins hn).1, rest, (pNum_begins hn).2⟩
  · exact ⟨(pNum_begins hn).1, rest, (pNum_begins hn).2⟩
  · exact ⟨(pNum_begins hn).1, rest, (pNum_begins hn).2⟩
  · obtain ⟨a, r, h1, h2⟩ := pBind_ok hn
    obtain ⟨h3, h4⟩ := pNum_begins h1
    split at h2
    · cases h2
    · cases h2
      exact ⟨h3, rest, h4⟩
  · obtain ⟨a, r, h1, h2⟩ := pBind_ok hn
    split at h2
    · cases h2
    · cases h2
      obtain ⟨x, y, h3, h4⟩ := pBind_ok h1
      obtain ⟨x', y', h5, h6⟩ := pBind_ok h4
      cases h6
      cases bs with
      | nil => simp [pTake] at h3
      | cons b more =>
        simp only [pTake, List.length_cons, Nat.le_add_left, if_true, List.take_succ_cons, List.take_zero,
          List.drop_succ_cons, List.drop_zero, PRes.ok.injEq] at h3
        obtain ⟨rfl, rfl⟩ := h3
        unfold pTake at h5
        split at h5
        · cases h5
          exact ⟨b, _, rfl, ‹_›, rfl⟩
        · cases h5

/-- C47 for a length prefix in the input: whatever is read as a container begins with a
length `n`, and consists of `n` elements. -/
theorem C47_prefix_partial (hs : Inv s) {lt : LenTy} (hcx : cx.len = .typed lt false)
    (h : (decode T e t cx).run R s = (.ok v, s')) :
    ∃ n, lt.begins e (pend s) n ∧ (n * t.cowElem T ≤ T.usizeMax → ReadFrom t v n) := by
  have hl : ∃ n s1, (readLenR T.toHost e cx.len).run R s = (.ok (some n), s1) ∧
      ∃ rest, pLen T.toHost e lt (pend s) = .ok n rest := by
    have h1 : ∃ o s1, (readLenR T.toHost e cx.len).run R s = (.ok o, s1) := by
      cases t <;> simp only [Ty.isContainer, Bool.false_eq_true] at hc
      case seq k t =>
        simp only [decode] at h
        split at h
        · simp [M.fail, Prog.run] at h
        · obtain ⟨o, s1, h1, _⟩ := M.run_bind_inv h; exact ⟨o, s1, h1⟩
      all_goals
        simp only [decode] at h
        obtain ⟨o, s1, h1, _⟩ := M.run_bind_inv h
        exact ⟨o, s1, h1⟩
    obtain ⟨o, s1, h1⟩ := h1
    rw [hcx] at h1 ⊢
    simp only [readLenR] at h1 ⊢
    obtain ⟨n, h2, h3⟩ := M.run_map_inv h1
    refine ⟨n, s1, by rw [h1, ← h3], ?_⟩
    have h4 := refines_readLen L T.toHost e lt (B := (pend s).length) s hs (Nat.le_refl _)
    rw [h2] at h4
    have h5 := tot_len T.toHost e lt (pend s)
    rcases hx : pLen T.toHost e lt (pend s) with ⟨m, rest⟩ | er | er | _
    · rw [hx] at h4
      have := h4.1
      simp only [Except.ok.injEq] at this
      exact ⟨rest, by rw [this]⟩
    · rw [hx] at h4; obtain ⟨_, h6, _⟩ := h4; simp at h6
    · rw [hx] at h4; obtain ⟨_, h6, _⟩ := h4; simp at h6
    · exact absurd hx h5
  obtain ⟨n, s1, h1, rest, h2⟩ := hl
  have hu : n ≤ T.usizeMax := by
    have h3 := pLen_cap hT.toOk h2
    have := hT.lower
    revert h3
    cases lt <;> simp only [LenTy.cap, LenTy.max] <;> omega
  exact ⟨n, pLen_begins h2, fun hcow => C47_count_partial hT L hc hs h1 hcow hu h⟩

end

/-- A `Vec` of two points. -/
example : ∃ n, LenTy.u32.begins .little [2, 0, 0, 0, 5, 0, 6, 0, 7, 0, 8, 0] n ∧
    (n * 0 ≤ Host.x64.usizeMax → ReadFrom (.seq .vec point) (.list
      [.pair (.num 5) (.pair (.num 6) .unit), .pair (.num 7) (.pair (.num 8) .unit)]) n) :=
  C47_prefix_partial x64_ok (bufferReader_lawful Host.x64) (t := .seq .vec point) rfl (cx := Cx.std)
    (s := BufSt.init 4096 [2, 0, 0, 0, 5, 0, 6, 0, 7, 0, 8, 0]) (BufSt.init_inv (by decide)) rfl (Prod.ext rfl rfl)

/-- **C47 is false** if `length * size_of::<T>()` overflows in `read_cow`: the length is
2^62, and the slice is empty. -/
theorem C47_false :
    LenTy.u64.begins .little [0, 0, 0, 0, 0, 0, 0, 0x40] (2 ^ 62) ∧
      readFromBuffer x64 .little wideCow 4096 [0, 0, 0, 0, 0, 0, 0, 0x40] = .ok (.pair (.list []) .unit) :=
  ⟨⟨by decide, [], by decide⟩, by decide⟩

/-! ## C24: the `length` attribute -/

/-- **C24**, writing: if the number of elements is not the value of the length
expression, `LengthIsNotTheSameAsLengthAttribute` is returned and nothing of the
container is written, whatever the writer. -/
theorem C24_mismatch {T : Target} {e : Endian} {σ : Type} (W : WriterOps σ) {s s' : σ} {d : StructDesc} {cx : Cx}
    {fs gs : Fields} {a : Attrs} {t : Ty} {u v w : Val} {n : Nat} {f : List Val → Nat} (hfs : hasTyFields T fs u)
    (hc : Counts t v n) (hlen : a.len = some (.expr f)) (hn : n ≠ f (fs.kept u)) (ho : a.opaqueTy = false)
    (hsk : a.skip = false) (hvi : a.varint = false) (hpre : a.pre = [])
    (hb : (encodeFields T e fs [] u).run W s = (.ok (), s')) :
    (encode T e (.struct d (fs.append (.cons a t gs))) cx (fs.join u (.pair v w))).run W s =
      (.error .lengthMismatch, s') := by
  simp only [encode]
  rw [encodeFields_append _ _ _ _ _ hfs, wrun_seq, hb]
  simp only [encodeFields, hsk, hvi, hpre, Bool.false_eq_true, if_false, List.nil_append, List.isEmpty_nil, if_true]
  rw [wrun_seq]
  have h : (encode T e t (a.wcx (fs.kept u)) v).run W s' = (.error .lengthMismatch, s') := by
    have h1 : a.wcx (fs.kept u) = ⟨.fixed (f (fs.kept u)), true⟩ := by
      unfold Attrs.wcx; rw [hlen, ho]; rfl
    rw [h1]
    cases hc <;> simp only [encode, writeLenR] <;> rw [if_neg hn] <;> rfl
  rw [h]

/-- The elements of a container, one after another. -/
inductive Elements (F : Fmt) : Ty → Val → Except Err Bytes → Prop
  | str {o} (bs : Bytes) : Elements F (.str o) (.bytes bs) (.ok bs)
  | seq {k t} (vs : List Val) : Elements F (.seq k t) (.list vs) (catAll (wire F t LenR.std) vs)
  | set {t} (vs : List Val) : Elements F (.set t) (.list vs) (catAll (wire F t LenR.std) vs)
  | map {k v} (vs : List Val) : Elements F (.map k v) (.list vs) (catAll (fun kv => match kv with
      | .pair a (.pair b .unit) => cat (wire F k LenR.std a) (wire F v LenR.std b)
      | _ => .error .illTyped) vs)

/-- **C24**, writing: otherwise the elements are written without prefix: the bytes are
those of the elements, one after another, and the length expression contributes
nothing.

Missing: elements excluded by `sliceOk` (`repr(transparent)` structs with attributes),
which are copied in bulk without regard to their attributes. -/
theorem C24_written_partial {T : Target} (hT : T.Ok) {e : Endian} {t : Ty} {v : Val} {n : Nat} {inl : Bool}
    {w : Except Err Bytes} (hl : layoutOk T t = true) (hd : declOk t = true) (hs : sliceOk T t = true)
    (hv : hasTy T t v) (hc : Counts t v n) (hw : Elements (Fmt.code T.toHost e) t v w) :
    Writes T.toHost e (encode T e t ⟨.fixed n, inl⟩ v) w := by
  have h := encode_wire (e := e) hT t ⟨.fixed n, inl⟩ v hl hd hs hv
  cases hc <;> cases hw <;> simp only [wire, wireLen, if_true, cat_nil_left] at h <;> exact h

/-- **C24**, reading: exactly as many elements are read as the length expression says
(converted to `usize` as by `as`), whatever the reader.

Missing: `Cow<[T]>` if the number of bytes overflows (C47). -/
theorem C24_read_partial {T : Target} (hT : T.Ok) {e : Endian} {σ : Type} {R : ReaderOps σ} {Inv : σ → Prop}
    {pend : σ → Bytes} (L : Lawful R Inv pend) {s s' : σ} (hs : Inv s) {d : StructDesc} {cx : Cx} {fs gs : Fields}
    {a : Attrs} {t : Ty} {z : Val} {f : List Val → Nat} (hc : t.isContainer = true) (hlen : a.len = some (.expr f))
    (ho : a.opaqueTy = false) (hsk : a.skip = false) (hvi : a.varint = false) (hde : a.defaultOnEof = false)
    (h : (decode T e (.struct d (fs.append (.cons a t gs))) cx).run R s = (.ok z, s')) :
    ∃ u v w, z = fs.join u (.pair v w) ∧ (f (fs.kept u) % (T.usizeMax + 1) * t.cowElem T ≤ T.usizeMax →
      ReadFrom t v (f (fs.kept u) % (T.usizeMax + 1))) := by
  simp only [decode] at h
  obtain ⟨u, s1, x, h1, h2, h3⟩ := decodeFields_run_inv (.cons a t gs) fs [] h
  have hs1 : Inv s1 := by have := (L.run (decodeFields T e fs []) s hs).1; rwa [h1] at this
  rw [decodeFields_cons, if_neg (by simp [hsk])] at h2
  obtain ⟨v, s2, h4, h5⟩ := M.run_bind_inv h2
  obtain ⟨w, _, h6⟩ := M.run_map_inv h5
  refine ⟨u, v, w, by rw [h3, h6], fun hm => ?_⟩
  simp only [fieldBody, hde, hvi, Bool.false_eq_true, if_false, List.nil_append] at h4
  have hcx : a.cx T.toHost (fs.kept u) = ⟨.fixed (f (fs.kept u) % (T.usizeMax + 1)), true⟩ := by
    unfold Attrs.cx Attrs.wcx; rw [hlen, ho]; rfl
  have hlt : f (fs.kept u) % (T.usizeMax + 1) ≤ T.usizeMax := by
    have := Nat.mod_lt (f (fs.kept u)) (show 0 < T.usizeMax + 1 by omega); omega
  rw [hcx] at h4
  have key : ∀ {s s'}, Inv s → (decode T e t ⟨.fixed (f (fs.kept u) % (T.usizeMax + 1)), true⟩).run R s = (.ok v, s') →
      ReadFrom t v (f (fs.kept u) % (T.usizeMax + 1)) := by
    intro s s' hs h
    exact C47_count_partial hT L hc hs (n := f (fs.kept u) % (T.usizeMax + 1)) (s1 := s) rfl hm hlt h
  split at h4
  · exact key hs1 h4
  · obtain ⟨_, s3, h7, h8⟩ := M.run_bind_inv h4
    have hs3 : Inv s3 := by
      have := (L.run (readConstant T.toHost e (u8Elem T e) a.pre) s1 hs1).1; rwa [h7] at this
    exact key hs3 h8

/-- `struct Sized { n: u8, #[speedy(length = n + 1)] data: Vec<u16> }` -/
def sized : Ty := .struct ⟨.rust, 32, 8, [24, 0], true⟩
  (.cons {} (.prim .u8) (.cons { len := some (.expr fun prev => match prev with | [.num n] => n + 1 | _ => 0) }
    (.seq .vec (.prim .u16)) .nil))

example : (encode x64 .little sized Cx.std (.pair (.num 1) (.pair (.list [.num 5, .num 6, .num 7]) .unit))).run
    (writingCollector Host.x64 .little) ⟨[], []⟩ = (.error .lengthMismatch, ⟨[1], []⟩) :=
  C24_mismatch _ (fs := .cons {} (.prim .u8) .nil) (u := .pair (.num 1) .unit) (by simp [hasTyFields, hasTy, Prim.size])
    (Counts.seq _) rfl (by decide) rfl rfl rfl rfl rfl

example : ∃ u v w, (.pair (.num 1) (.pair (.list [.num 5, .num 6]) .unit)) =
      Fields.join (.cons {} (.prim .u8) .nil) u (.pair v w) ∧
      ((match Fields.kept (.cons {} (.prim .u8) .nil) u with | [.num n] => n + 1 | _ => 0) % (Host.x64.usizeMax + 1) *
        (Ty.cowElem x64 (.seq .vec (.prim .u16))) ≤ Host.x64.usizeMax → ReadFrom (.seq .vec (.prim .u16)) v
        ((match Fields.kept (.cons {} (.prim .u8) .nil) u with | [.num n] => n + 1 | _ => 0) % (Host.x64.usizeMax + 1))) :=
  C24_read_partial x64_ok (bufferReader_lawful Host.x64) (BufSt.init_inv (base := 4096) (buf := [1, 5, 0, 6, 0]) (by decide))
    (d := ⟨.rust, 32, 8, [24, 0], true⟩) (cx := Cx.std) (gs := .nil)
    (a := { len := some (.expr fun prev => match prev with | [.num n] => n + 1 | _ => 0) }) (e := .little)
    rfl rfl rfl rfl rfl rfl (Prod.ext rfl rfl)

example : Writes Host.x64 .little (encode x64 .little (.seq .vec (.prim .u16)) ⟨.fixed 2, true⟩ (.list [.num 5, .num 6]))
    (.ok [5, 0, 6, 0]) :=
  C24_written_partial x64_ok (t := .seq .vec (.prim .u16)) (by decide) (by decide) (by decide)
    (by simp [hasTy, Prim.size, sizeOf]; decide) (Counts.seq [.num 5, .num 6]) (Elements.seq [.num 5, .num 6])

/-- **C22 is false** for the elements of sequences of `#[repr(transparent)]` structs: the constant prefix is neither
written nor required, since the elements are copied as a whole.  A single value has the prefix.  (What is written
cannot be read, unless more bytes follow: the length check counts the prefixes.) -/
theorem C22_false :
    writeToVec x64 .little tagged (.pair (.num 7) .unit) (fun _ => 0) = .ok [0x78, 7] ∧
      writeToVec x64 .little (.seq .vec tagged) (.list [.pair (.num 7) .unit]) (fun _ => 0) = .ok [1, 0, 0, 0, 7] ∧
      readWithLengthFromBuffer x64 .little (.seq .vec tagged) 4096 [1, 0, 0, 0, 7, 9] =
        (.ok (.list [.pair (.num 7) .unit]), 5) ∧
      readFromBuffer x64 .little (.seq .vec tagged) 4096 [1, 0, 0, 0, 7] = .error .unexpectedEndOfInput := by
  decide

/-! ## Cases -/

section Cases
open Samples

/-- Two points, wherever their number comes from. -/
example : ReadFrom (.seq .vec point) (.list [.pair (.num 5) (.pair (.num 6) .unit), .pair (.num 7) (.pair (.num 8) .unit)]) 2 :=
  C47_count_partial x64_ok (e := .little) (bufferReader_lawful Host.x64) (t := .seq .vec point) rfl (cx := ⟨.fixed 2, true⟩)
    (s := BufSt.init 4096 [5, 0, 6, 0, 7, 0, 8, 0]) (BufSt.init_inv (by decide)) (n := 2) (s1 := BufSt.init 4096 [5, 0, 6, 0, 7, 0, 8, 0])
    (Prod.ext rfl rfl) (by decide) (by decide) (Prod.ext rfl rfl)

end Cases

end Verif
