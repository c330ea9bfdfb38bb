import Verif.PropsDerive
import Verif.PropsReader

/-!
# Lengths and field attributes (C20, C22, C24)

In the statements, a struct has the fields `fs`, then the field with attributes
`a` and type `t`, then the fields `gs`.  The theorems about writing hold for
every writer `W`, whatever it does; those about reading for every reader which
delivers the bytes of its input (`Lawful`).
-/

namespace Verif

/-! ## Auxiliary -/

theorem wrun_seq {σ : Type} (W : WriterOps σ) (q : WProg) : ∀ (p : WProg) (s : σ),
    (p.seq q).run W s = match p.run W s with
      | (.ok _, s') => q.run W s'
      | (.error er, s') => (.error er, s')
  | .done (.ok _), s => rfl
  | .done (.error _), s => rfl
  | .bytes bs k, s => by
    simp only [WProg.seq, WProg.run]
    rcases W.bytes bs s with ⟨_ | _, s'⟩
    · rfl
    · exact wrun_seq W q k s'
  | .num n v k, s => by
    simp only [WProg.seq, WProg.run]
    rcases W.num n v s with ⟨_ | _, s'⟩
    · rfl
    · exact wrun_seq W q k s'
  | .room n k, s => by
    simp only [WProg.seq, WProg.run]
    split
    · rfl
    · exact wrun_seq W q k s

theorem seq_assoc (p q r : WProg) : (p.seq q).seq r = p.seq (q.seq r) := by
  induction p with
  | done x => cases x <;> rfl
  | bytes bs k ih => simp only [WProg.seq, ih]
  | num n v k ih => simp only [WProg.seq, ih]
  | room n k ih => simp only [WProg.seq, ih]

theorem encodeFields_append {T : Target} {e : Endian} (gs : Fields) (w : Val) : ∀ (fs : Fields) (prev : List Val)
    (v : Val), hasTyFields T fs v → encodeFields T e (fs.append gs) prev (fs.join v w) =
      (encodeFields T e fs prev v).seq (encodeFields T e gs (prev ++ fs.kept v) w)
  | .nil, prev, v, h => by
    cases v <;> simp only [hasTyFields] at h
    simp [Fields.append, Fields.join, Fields.kept, encodeFields, WProg.seq, WProg.ok]
  | .cons a t fs, prev, v, h => by
    cases v <;> simp only [hasTyFields] at h
    simp only [Fields.append, Fields.join, Fields.kept, encodeFields]
    by_cases hsk : a.skip = true
    · simp only [hsk, if_true]
      exact encodeFields_append gs w fs prev _ h.2
    · simp only [hsk, Bool.false_eq_true, if_false]
      rw [encodeFields_append gs w fs _ _ h.2, List.append_assoc, seq_assoc]
      rfl

/-- Whatever a program does, a lawful reader stays lawful and only moves forward. -/
theorem Lawful.run {α σ : Type} {R : ReaderOps σ} {Inv : σ → Prop} {pend : σ → Bytes} (L : Lawful R Inv pend)
    (p : Prog α) (s : σ) (hs : Inv s) : Inv (p.run R s).2 ∧ ∃ k, pend (p.run R s).2 = (pend s).drop k := by
  have hnil : ∀ l : Bytes, ∃ k, [] = l.drop k := fun l => ⟨l.length, by simp⟩
  refine Verif.run_inv (I := fun s' => Inv s' ∧ ∃ k, pend s' = (pend s).drop k) ?_ ?_ ?_ ?_ ?_ ?_ p s ⟨hs, 0, rfl⟩
  · rintro n s' ⟨h, k, hk⟩
    rcases Nat.lt_or_ge (pend s').length n with hn | hn
    · obtain ⟨er, s2, h1, _, h2, h3⟩ := L.read_err n s' h hn
      rw [h1]
      refine ⟨h2, ?_⟩
      rcases h3 with h3 | h3
      · exact ⟨k, h3.trans hk⟩
      · rw [h3]; exact hnil _
    · obtain ⟨s2, h1, h2, h3⟩ := L.read_ok n s' h hn
      rw [h1]
      exact ⟨h2, k + n, by rw [h3, hk, List.drop_drop]⟩
  · rintro n s' ⟨h, k, hk⟩
    rcases Nat.lt_or_ge (pend s').length n with hn | hn
    · obtain ⟨er, s2, h1, _, h2, h3⟩ := L.peek_err n s' h hn
      rw [h1]
      exact ⟨h2, k, h3.trans hk⟩
    · obtain ⟨s2, h1, h2, h3⟩ := L.peek_ok n s' h hn
      rw [h1]
      exact ⟨h2, k, h3.trans hk⟩
  · rintro n s' ⟨h, k, hk⟩
    rcases Nat.lt_or_ge (pend s').length n with hn | hn
    · obtain ⟨er, s2, h1, _, h2, m, h3⟩ := L.skip_err n s' h hn
      rw [h1]
      exact ⟨h2, k + m, by rw [h3, hk, List.drop_drop]⟩
    · obtain ⟨s2, h1, h2, h3⟩ := L.skip_ok n s' h hn
      rw [h1]
      exact ⟨h2, k + n, by rw [h3, hk, List.drop_drop]⟩
  · rintro n s' ⟨h, k, hk⟩
    rcases L.borrow n s' h with h1 | ⟨_, a, s2, h1, h2, h3⟩ | ⟨_, er, s2, h1, _, h2, h3⟩
    · rw [h1]; exact ⟨h, k, hk⟩
    · rw [h1]; exact ⟨h2, k + n, by rw [h3, hk, List.drop_drop]⟩
    · rw [h1]
      refine ⟨h2, ?_⟩
      rcases h3 with h3 | h3
      · exact ⟨k, h3.trans hk⟩
      · rw [h3]; exact hnil _
  · rintro n s' ⟨h, k, hk⟩
    rcases L.borrowR n s' h with h1 | ⟨_, a, s2, h1, h2, h3⟩ | ⟨_, er, s2, h1, _, h2, h3⟩
    · rw [h1]; exact ⟨h, k, hk⟩
    · rw [h1]; exact ⟨h2, k + n, by rw [h3, hk, List.drop_drop]⟩
    · rw [h1]
      refine ⟨h2, ?_⟩
      rcases h3 with h3 | h3
      · exact ⟨k, h3.trans hk⟩
      · rw [h3]; exact hnil _
  · rintro s' ⟨h, k, hk⟩
    rcases L.borrowEof s' h with h1 | ⟨a, s2, h1, h2, h3⟩
    · rw [h1]; exact ⟨h, k, hk⟩
    · rw [h1]
      refine ⟨h2, ?_⟩
      rw [h3]; exact hnil _

/-! ## C20: length prefixes -/

/-- The value of a container has `n` elements (a string: `n` bytes). -/
inductive Counts : Ty → Val → Nat → Prop
  | str {o} (bs : Bytes) : Counts (.str o) (.bytes bs) bs.length
  | seq {k t} (vs : List Val) : Counts (.seq k t) (.list vs) vs.length
  | set {t} (vs : List Val) : Counts (.set t) (.list vs) vs.length
  | map {k v} (vs : List Val) : Counts (.map k v) (.list vs) vs.length

/-- The number of elements must fit in a `usize`. -/
theorem writeLen_fail {h : Host} (hh : h.Ok) {lt : LenTy} {n : Nat} (hn : n > lt.max) (hu : n ≤ h.usizeMax) :
    writeLen h lt n = .fail .outOfRangeLength := by
  have := hh.upper
  cases lt <;> simp only [writeLen]
  case u64 | varint => simp only [LenTy.max] at hn; omega
  all_goals rw [if_pos hn]

/-- **C20**, writing: a container with more elements than its length type allows
gives `OutOfRangeLength`, and nothing of it is written, whatever the writer. -/
theorem C20_too_long {T : Target} (hT : T.Ok) {e : Endian} {σ : Type} (W : WriterOps σ) (s : σ) {t : Ty} {v : Val}
    {n : Nat} {lt : LenTy} {d inl : Bool} (hc : Counts t v n) (hu : n ≤ T.usizeMax) (hn : n > lt.max) :
    (encode T e t ⟨.typed lt d, inl⟩ v).run W s = (.error .outOfRangeLength, s) := by
  have h := writeLen_fail hT.toOk hn hu
  cases hc <;> simp only [encode, writeLenR] <;> rw [h] <;> rfl

/-- C20, writing: the same for a field of a struct; `s'` is the writer after the
fields in front of it. -/
theorem C20_too_long_field {T : Target} (hT : T.Ok) {e : Endian} {σ : Type} (W : WriterOps σ) {s s' : σ}
    {d : StructDesc} {cx : Cx} {fs gs : Fields} {a : Attrs} {t : Ty} {u v w : Val} {n : Nat} {lt : LenTy} {deof : Bool}
    (hfs : hasTyFields T fs u) (hc : Counts t v n) (hu : n ≤ T.usizeMax)
    (hlen : a.wlen (fs.kept u) = .typed lt deof) (hn : n > lt.max)
    (hsk : a.skip = false) (hvi : a.varint = false) (hpre : a.pre = [])
    (hb : (encodeFields T e fs [] u).run W s = (.ok (), s')) :
    (encode T e (.struct d (fs.append (.cons a t gs))) cx (fs.join u (.pair v w))).run W s =
      (.error .outOfRangeLength, s') := by
  simp only [encode]
  rw [encodeFields_append _ _ _ _ _ hfs, wrun_seq, hb]
  simp only [encodeFields, hsk, hvi, hpre, Bool.false_eq_true, if_false, List.nil_append, List.isEmpty_nil, if_true]
  rw [wrun_seq]
  have h := C20_too_long hT (e := e) W s' (inl := (a.wcx (fs.kept u)).inl) (d := deof) hc hu hn
  rw [← hlen, ← Attrs.wcx_len] at h
  rw [h]

/-- **C20**, reading: any length which fits is written in front of the elements and
every reader finds the same number, leaving what follows. -/
theorem C20_read_back {h : Host} (hh : h.Ok) {e : Endian} {lt : LenTy} {n : Nat} (hn : n ≤ lt.max) (hu : n ≤ h.usizeMax) :
    ∃ bs, (writeLen h lt n).out h e = (bs, .ok ()) ∧
      ∀ {σ : Type} {R : ReaderOps σ} {Inv : σ → Prop} {pend : σ → Bytes}, Lawful R Inv pend →
        ∀ s rest, Inv s → pend s = bs ++ rest →
          ((readLen h e lt).run R s).1 = .ok n ∧ pend ((readLen h e lt).run R s).2 = rest := by
  have hw := writes_lenR (h := h) (e := e) (n := n) (by have := hh.upper; omega) (.typed lt false)
  simp only [wireLen, if_neg (show ¬ n > lt.max by omega)] at hw
  refine ⟨wireNum e lt n, hw, ?_⟩
  intro σ R Inv pend L s rest hs hp
  have h1 := refines_readLen L h e lt (B := (pend s).length) s hs (Nat.le_refl _)
  rw [hp, (codes_len (tl := false) (st := false) hh hn hu).1 rest (by simp)] at h1
  exact ⟨h1.1, h1.2.2.1⟩

/-- **C20**, reading: a `u7` above 127 is refused by every reader. -/
theorem C20_u7 {h : Host} {e : Endian} {σ : Type} {R : ReaderOps σ} {Inv : σ → Prop} {pend : σ → Bytes}
    (L : Lawful R Inv pend) {s : σ} {b : UInt8} {rest : Bytes} (hs : Inv s) (hp : pend s = b :: rest)
    (hb : 127 < b.toNat) : ((readLen h e .u7).run R s).1 = .error .outOfRangeLength := by
  have h1 := refines_readLen L h e .u7 (B := (pend s).length) s hs (Nat.le_refl _)
  have h2 : pLen h e .u7 (b :: rest) = .fail .outOfRangeLength := by
    have h3 := (codes_num (tl := false) (st := false) (e := e) (n := 1) (v := b.toNat)
      (by have := b.toNat_lt; omega)).1 rest (by simp)
    rw [bytes_one] at h3
    simp only [pLen]
    rw [P.bind_ok (show pNum e 1 (b :: rest) = _ from h3), if_pos hb]
    rfl
  rw [hp, h2] at h1
  obtain ⟨er, h3, h4, _⟩ := h1
  rw [h3]
  simp only [Err.isEof, Bool.false_eq_true, if_false] at h4
  rw [h4]

/-- A `Vec<u8>` with 128 elements, `length_type = u7`. -/
example : (encode Samples.x64 .little (.seq .vec (.prim .u8)) ⟨.typed .u7 false, true⟩
    (.list (List.replicate 128 (.num 0)))).run (writingCollector Host.x64 .little) ⟨[], []⟩ =
      (.error .outOfRangeLength, ⟨[], []⟩) :=
  C20_too_long Samples.x64_ok _ _ (Counts.seq _) (by rw [List.length_replicate]; decide) (by rw [List.length_replicate]; decide)

example : (encode Samples.x64 .little (.struct ⟨.rust, 64, 8, [0, 24], true⟩
    (Fields.append (.cons {} (.prim .u16) .nil) (.cons { len := some (.typed .u7) } (.seq .vec (.prim .u8)) .nil))) Cx.std
    (.pair (.num 0x0102) (.pair (.list (List.replicate 128 (.num 0))) .unit))).run
      (writingCollector Host.x64 .little) ⟨[], []⟩ = (.error .outOfRangeLength, ⟨[2, 1], []⟩) :=
  C20_too_long_field Samples.x64_ok _ (fs := .cons {} (.prim .u16) .nil) (u := .pair (.num 0x0102) .unit)
    (a := { len := some (.typed .u7) }) (lt := .u7) (deof := false)
    (by simp [hasTyFields, hasTy, Prim.size]) (Counts.seq _) (by rw [List.length_replicate]; decide) rfl
    (by rw [List.length_replicate]; decide) rfl rfl rfl rfl

/-! ## C22: constant prefixes -/

theorem out_seq_ok {h : Host} {e : Endian} {p q : WProg} {bs : Bytes} (hpq : (p.seq q).out h e = (bs, .ok ())) :
    ∃ x y, p.out h e = (x, .ok ()) ∧ q.out h e = (y, .ok ()) ∧ bs = x ++ y := by
  rw [out_seq] at hpq
  rcases hp : p.out h e with ⟨x, _ | _⟩
  · rw [hp] at hpq; simp at hpq
  · rw [hp] at hpq
    simp only [Prod.mk.injEq] at hpq
    exact ⟨x, (q.out h e).1, rfl, Prod.ext rfl hpq.2, hpq.1.symm⟩

/-- **C22**, writing: the prefix is written in front of the field, after the fields
before it. -/
theorem C22_written {T : Target} {e : Endian} {d : StructDesc} {cx : Cx} {fs gs : Fields} {a : Attrs} {t : Ty}
    {u v w : Val} {bs : Bytes} (hfs : hasTyFields T fs u) (hsk : a.skip = false)
    (h : (encode T e (.struct d (fs.append (.cons a t gs))) cx (fs.join u (.pair v w))).out T.toHost e = (bs, .ok ())) :
    ∃ x y, (encodeFields T e fs [] u).out T.toHost e = (x, .ok ()) ∧ bs = x ++ a.pre ++ y := by
  simp only [encode] at h
  rw [encodeFields_append _ _ _ _ _ hfs] at h
  obtain ⟨x, y, h1, h2, h3⟩ := out_seq_ok h
  simp only [encodeFields, hsk, Bool.false_eq_true, if_false] at h2
  obtain ⟨y1, y2, h4, _, h5⟩ := out_seq_ok h2
  by_cases hp : a.pre = []
  · exact ⟨x, y, h1, by rw [h3, hp, List.append_nil]⟩
  · rw [if_neg (by simpa using hp)] at h4
    simp only [WProg.out] at h4
    generalize WProg.out _ _ _ = r at h4
    simp only [Prod.mk.injEq] at h4
    refine ⟨x, r.1 ++ y2, h1, ?_⟩
    rw [h3, h5, ← h4.1]
    simp only [List.append_assoc]

section
variable {T : Target} (hT : T.Ok) {e : Endian} {σ : Type} {R : ReaderOps σ} {Inv : σ → Prop} {pend : σ → Bytes}
  (L : Lawful R Inv pend) {s : σ} (hs : Inv s) (hB : (pend s).length ≤ T.isizeMax) {a : Attrs}
  (hp : a.pre.length ≤ T.isizeMax)
include hT L hs hB hp

theorem constant_ok {s' : σ} (h : (readConstant T.toHost e (u8Elem T e) a.pre).run R s = (.ok (), s')) :
    ∃ y, pend s = a.pre ++ y ∧ pend s' = y := by
  have h1 := refines_constant L (B := T.isizeMax) (e := e) (Nat.le_refl _) hT a.pre s hs hB
  rw [h] at h1
  unfold pConst at h1
  rw [if_neg (by omega)] at h1
  rcases Nat.lt_or_ge (pend s).length a.pre.length with hl | hl
  · rw [P.bind_fail (pTake_fail hl)] at h1
    obtain ⟨er, h2, _⟩ := h1
    simp at h2
  · rw [P.bind_ok (pTake_ok hl)] at h1
    split at h1
    · rename_i hc
      refine ⟨(pend s).drop a.pre.length, ?_, h1.2.2.1⟩
      conv => lhs; rw [← List.take_append_drop a.pre.length (pend s)]
      rw [hc]
    · obtain ⟨er, h2, _⟩ := h1
      simp at h2

theorem constant_err (hl : a.pre.length ≤ (pend s).length) (hne : (pend s).take a.pre.length ≠ a.pre) :
    ((readConstant T.toHost e (u8Elem T e) a.pre).run R s).1 = .error (.expectedConstant a.pre) := by
  have h1 := refines_constant L (B := T.isizeMax) (e := e) (Nat.le_refl _) hT a.pre s hs hB
  unfold pConst at h1
  rw [if_neg (by omega), P.bind_ok (pTake_ok hl), if_neg hne] at h1
  obtain ⟨er, h2, h3, _⟩ := h1
  simp only [Err.isEof, Bool.false_eq_true, if_false] at h3
  rw [h2, h3]

end

section
variable {T : Target} (hT : T.Ok) {e : Endian} {σ : Type} {R : ReaderOps σ} {Inv : σ → Prop} {pend : σ → Bytes}
  (L : Lawful R Inv pend) {s : σ} (hs : Inv s) (hB : (pend s).length ≤ T.isizeMax) {d : StructDesc} {cx : Cx}
  {fs gs : Fields} {a : Attrs} {t : Ty} (hsk : a.skip = false) (hp : a.pre.length ≤ T.isizeMax)
include hT L hs hB hsk hp

/-- **C22**, reading: if a struct is read, whatever the reader, then the prefix is in
the input after the bytes of the fields before it. -/
theorem C22_required (hd : a.defaultOnEof = false) {z : Val}
    (h : ((decode T e (.struct d (fs.append (.cons a t gs))) cx).run R s).1 = .ok z) :
    ∃ u s1 y, (decodeFields T e fs []).run R s = (.ok u, s1) ∧ pend s1 = a.pre ++ y := by
  simp only [decode] at h
  obtain ⟨u, s1, w, h1, h2, _⟩ := decodeFields_run_inv (.cons a t gs) fs [] (Prod.ext h rfl)
  have hrun := L.run (decodeFields T e fs []) s hs
  rw [h1] at hrun
  obtain ⟨hs1, k, hk⟩ := hrun
  have hB1 : (pend s1).length ≤ T.isizeMax := by
    have : pend s1 = (pend s).drop k := hk
    rw [this, List.length_drop]; omega
  by_cases hnil : a.pre = []
  · exact ⟨u, s1, pend s1, h1, by rw [hnil]; rfl⟩
  rw [decodeFields_cons, if_neg (by simp [hsk])] at h2
  obtain ⟨x, s2, h3, _⟩ := M.run_bind_inv h2
  simp only [fieldBody, hd, Bool.false_eq_true, if_false] at h3
  rw [if_neg (by simpa using hnil)] at h3
  obtain ⟨_, s3, h4, _⟩ := M.run_bind_inv h3
  obtain ⟨y, h5, _⟩ := constant_ok hT L hs1 hB1 hp h4
  exact ⟨u, s1, y, h1, h5⟩

/-- **C22**, reading: other bytes in its place give `ExpectedConstant`, whatever the
reader; `default_on_eof` does not hide it. -/
theorem C22_different {u : Val} {s1 : σ} (hb : (decodeFields T e fs []).run R s = (.ok u, s1))
    (hl : a.pre.length ≤ (pend s1).length) (hne : (pend s1).take a.pre.length ≠ a.pre) :
    ((decode T e (.struct d (fs.append (.cons a t gs))) cx).run R s).1 = .error (.expectedConstant a.pre) := by
  simp only [decode]
  rw [decodeFields_run_ok _ _ _ hb, M.run_map]
  have hrun := L.run (decodeFields T e fs []) s hs
  rw [hb] at hrun
  obtain ⟨hs1, k, hk⟩ := hrun
  have hB1 : (pend s1).length ≤ T.isizeMax := by
    have : pend s1 = (pend s).drop k := hk
    rw [this, List.length_drop]; omega
  have h1 := constant_err hT L hs1 hB1 (e := e) hp hl hne
  rw [decodeFields_cons, if_neg (by simp [hsk])]
  have hnil : ¬ a.pre.isEmpty = true := by
    intro h; rw [List.isEmpty_iff] at h; rw [h] at hne; simp at hne
  have h2 : (fieldBody T e a t ([] ++ fs.kept u)).run R s1 =
      (.error (.expectedConstant a.pre), ((readConstant T.toHost e (u8Elem T e) a.pre).run R s1).2) := by
    unfold fieldBody
    simp only [if_neg hnil]
    have h3 := M.run_bind_err (f := fun _ : Unit =>
      if a.varint then M.map Val.num (readVarint T.toHost e) else decode T e t (a.cx T.toHost ([] ++ fs.kept u)))
      (Prod.ext h1 rfl : (readConstant T.toHost e (u8Elem T e) a.pre).run R s1 = (_, _))
    split
    · unfold onEof
      rw [Prog.run_bind, h3]
      simp [Err.isEof, M.fail, Prog.run]
    · exact h3
  rw [M.run_bind_err h2]
  rfl

end

/-- C22 for `read_from_buffer`: the prefix is somewhere in the input. -/
theorem C22_buffer {T : Target} (hT : T.Ok) {e : Endian} {d : StructDesc} {fs gs : Fields} {a : Attrs} {t : Ty}
    {z : Val} {base : Nat} {buf : Bytes} (hsk : a.skip = false) (hd : a.defaultOnEof = false)
    (hp : a.pre.length ≤ T.isizeMax) (hm : InMem T base buf)
    (h : readFromBuffer T e (.struct d (fs.append (.cons a t gs))) base buf = .ok z) :
    ∃ u s1 x y, (decodeFields T e fs []).run (bufferReader T.toHost) (BufSt.init base buf) = (.ok u, s1) ∧
      s1.pend = a.pre ++ y ∧ buf = x ++ a.pre ++ y := by
  unfold readFromBuffer readWithLengthFromBuffer at h
  split at h
  · simp at h
  obtain ⟨u, s1, y, h1, h2⟩ := C22_required hT (bufferReader_lawful T.toHost) (BufSt.init_inv hm.top)
    (by rw [BufSt.init_pend]; exact hm.fits.mem) hsk hp hd h
  obtain ⟨_, k, hk⟩ := (bufferReader_lawful T.toHost).run (decodeFields T e fs []) (BufSt.init base buf)
    (BufSt.init_inv hm.top)
  rw [h1, BufSt.init_pend] at hk
  refine ⟨u, s1, buf.take k, y, h1, h2, ?_⟩
  rw [List.append_assoc, ← h2]
  have : s1.pend = buf.drop k := hk
  rw [this, List.take_append_drop]

/-- `constant_prefix = "S"` in front of the third field of `message`. -/
example : ∃ u s1 x y, (decodeFields Samples.x64 .little (.cons { len := some (.typed .u8) } (.str .owned)
      (.cons {} (.prim .u32) .nil)) []).run (bufferReader Host.x64) (BufSt.init 4096 Samples.msgLe) = (.ok u, s1) ∧
      s1.pend = [0x53] ++ y ∧ Samples.msgLe = x ++ [0x53] ++ y :=
  C22_buffer Samples.x64_ok (a := { pre := [0x53] }) (t := Samples.shape) (gs := .nil) (d := ⟨.rust, 64, 8, [0, 24, 32], true⟩)
    (fs := .cons { len := some (.typed .u8) } (.str .owned) (.cons {} (.prim .u32) .nil)) (z := Samples.msg)
    rfl rfl (by decide) Samples.msg_mem
    (C01_round_trip_partial Samples.x64_ok Samples.message_layout Samples.message_decl (Samples.message_regular _)
      Samples.msg_ty (Samples.msg_canon _) (Samples.msg_vec fun _ => 0) Samples.message_ends Samples.msg_mem)

/-- Another letter. -/
example : ((decode Samples.x64 .little Samples.message Cx.std).run (bufferReader Host.x64)
    (BufSt.init 4096 [2, 0x68, 0x69, 4, 3, 2, 1, 0x54, 3])).1 = .error (.expectedConstant [0x53]) :=
  C22_different Samples.x64_ok (bufferReader_lawful Host.x64) (BufSt.init_inv (by decide)) (by decide)
    (a := { pre := [0x53] }) (t := Samples.shape) (gs := .nil) (d := ⟨.rust, 64, 8, [0, 24, 32], true⟩)
    (fs := .cons { len := some (.typed .u8) } (.str .owned) (.cons {} (.prim .u32) .nil)) rfl (by decide)
    (u := .pair (.bytes [0x68, 0x69]) (.pair (.num 0x01020304) .unit)) rfl (by decide) (by decide)

/-! ## Cases -/

section Cases
open Samples

/-- The length 300, `length_type = u16`. -/
example := C20_read_back (h := Host.x64) Host.x64_ok (e := .big) (lt := .u16) (n := 300) (by decide) (by decide)

example : ((readLen Host.x64 .little .u7).run (bufferReader Host.x64) (BufSt.init 4096 [0x80, 1])).1 = .error .outOfRangeLength :=
  C20_u7 (bufferReader_lawful Host.x64) (BufSt.init_inv (by decide)) (BufSt.init_pend _ _) (by decide)

example := C22_required Samples.x64_ok (e := .little) (bufferReader_lawful Host.x64) (s := BufSt.init 4096 Samples.msgLe)
    (BufSt.init_inv (by decide)) (by decide) (a := { pre := [0x53] }) (t := Samples.shape) (gs := .nil)
    (d := ⟨.rust, 64, 8, [0, 24, 32], true⟩) (fs := .cons { len := some (.typed .u8) } (.str .owned) (.cons {} (.prim .u32) .nil))
    (cx := Cx.std) rfl (by decide) rfl (z := Samples.msg)
    (C01_round_trip_partial Samples.x64_ok Samples.message_layout Samples.message_decl (Samples.message_regular _)
      Samples.msg_ty (Samples.msg_canon _) (Samples.msg_vec fun _ => 0) Samples.message_ends Samples.msg_mem)

example := C22_written (T := Samples.x64) (e := .little) (a := { pre := [0x53] }) (t := .prim .u8) (gs := .nil)
    (d := ⟨.rust, 4, 2, [0, 2], true⟩) (fs := .cons {} (.prim .u16) .nil) (cx := Cx.std)
    (u := .pair (.num 0x0102) .unit) (v := .num 7) (w := .unit) (bs := [2, 1, 0x53, 7])
    (by simp [hasTyFields, hasTy, Prim.size]) rfl (by decide)

end Cases

end Verif
