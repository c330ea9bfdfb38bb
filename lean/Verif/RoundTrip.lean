import Verif.Codes

/-!
# Round trip: parsing what the format specifies
-/

namespace Verif

/-! ## Empty input -/

theorem pNum_nil (e : Endian) {n : Nat} (h : 0 < n) : pNum e n [] = .fail .unexpectedEndOfInput :=
  P.map_fail (pTake_fail (by simpa using h))

theorem pVarint_nil : pVarint [] = .fail .unexpectedEndOfInput := P.bind_fail (pTake_fail (by simp))

theorem pLen_nil (h : Host) (e : Endian) (lt : LenTy) : pLen h e lt [] = .fail .unexpectedEndOfInput := by
  cases lt <;> simp only [pLen]
  · exact P.bind_fail (pNum_nil (n := 1) e (by decide))
  · exact pNum_nil (n := 1) e (by decide)
  · exact pNum_nil (n := 2) e (by decide)
  · exact pNum_nil (n := 4) e (by decide)
  · exact P.bind_fail (pNum_nil (n := 8) e (by decide))
  · exact P.bind_fail pVarint_nil

theorem Prim.size_pos (p : Prim) : 0 < p.size := by cases p <;> decide

/-- The length is read first. -/
def LenR.starts : LenR → Bool
  | .typed _ false => true
  | _ => false

theorem pLenR_nil {h : Host} {e : Endian} {l : LenR} (hl : l.starts = true) :
    pLenR h e l [] = .fail .unexpectedEndOfInput := by
  cases l with
  | typed lt d =>
    cases d with
    | false => exact P.map_fail (pLen_nil h e lt)
    | true => simp [LenR.starts] at hl
  | _ => simp [LenR.starts] at hl

theorem pTag_nil (e : Endian) (d : EnumDesc) : pTag e d [] = .fail .unexpectedEndOfInput := by
  obtain ⟨tt, pk⟩ := d
  cases pk <;> cases tt <;> simp only [pTag] <;> first
    | exact pNum_nil e (by decide)
    | exact pVarint_nil
    | exact P.map_fail (by simp [pPeek, LenTy.minSize])
    | exact P.bind_fail (by simp [pPeek])

mutual
/-- Types which need a byte fail on empty input. -/
theorem parse_nil {T : Target} {e : Endian} : ∀ (t : Ty) (cx : Cx), starts t = true → regular T e t = true →
    (t.isContainer = true → cx.len.starts = true) → parse T e t cx [] = .fail .unexpectedEndOfInput
  | .prim p, _, _, _, _ => P.map_fail (pNum_nil e p.size_pos)
  | .usize, _, _, _, _ => P.bind_fail (pNum_nil e (by decide))
  | .bool, _, _, _, _ => P.map_fail (P.map_fail (pNum_nil e (by decide)))
  | .char, _, _, _, _ => P.bind_fail (pNum_nil e (by decide))
  | .nonZero p, _, _, _, _ => P.bind_fail (pNum_nil e p.size_pos)
  | .atomic p, _, _, _, _ => P.map_fail (pNum_nil e p.size_pos)
  | .ipv4, _, _, _, _ => P.map_fail (pNum_nil e (by decide))
  | .ipv6, _, _, _, _ => by simp only [parse, pIpv6]; exact P.map_fail (pTake_fail (by simp))
  | .ipAddr, _, _, _, _ => P.bind_fail (pNum_nil e (by decide))
  | .duration, _, _, _, _ => P.map_fail (P.bind_fail (pNum_nil e (by decide)))
  | .systemTime, _, _, _, _ => P.bind_fail (P.bind_fail (pNum_nil e (by decide)))
  | .endianness, _, _, _, _ => P.bind_fail (pNum_nil e (by decide))
  | .varint64, _, _, _, _ => P.map_fail pVarint_nil
  | .uuid, _, _, _, _ => P.map_fail (pTake_fail (by simp))
  | .str _, _, _, _, hc => P.bind_fail (pLenR_nil (hc rfl))
  | .seq k t, cx, _, hr, hc => by
    simp only [regular, Bool.and_eq_true] at hr
    simp only [parse]
    rw [if_neg]
    · exact P.bind_fail (pLenR_nil (hc rfl))
    · intro hh
      simp only [Bool.and_eq_true] at hh
      cases k <;> simp at hh
      simp only [hh.2, Bool.and_eq_true, Bool.or_eq_true, beq_iff_eq, Bool.not_true, or_false,
        Bool.false_eq_true] at hr
      exact hh.1 hr.2.2
  | .set t, _, _, _, hc => P.bind_fail (pLenR_nil (hc rfl))
  | .map _ _, _, _, _, hc => P.bind_fail (pLenR_nil (hc rfl))
  | .array n t, cx, hs, hr, _ => by
    simp only [starts, Bool.and_eq_true, bne_iff_ne, ne_eq] at hs
    simp only [regular, Bool.and_eq_true, Bool.or_eq_true, Bool.not_eq_true'] at hr
    simp only [parse, pArray]
    rw [if_neg]
    · refine P.map_fail ?_
      cases n with
      | zero => exact absurd rfl hs.1
      | succ n => exact P.bind_fail (parse_nil t Cx.std hs.2 hr.2 (fun _ => rfl))
    · intro hh
      simp only [Bool.and_eq_true, Bool.not_eq_true'] at hh
      rcases hr.1 with h | h
      · simp [h] at hh
      · simp [h] at hh
  | .option _, _, _, _, _ => P.bind_fail (P.map_fail (pNum_nil e (by decide)))
  | .result _ _, _, _, _, _ => P.bind_fail (P.map_fail (pNum_nil e (by decide)))
  | .range t, _, hs, hr, _ => P.bind_fail (parse_nil t Cx.std hs hr (fun _ => rfl))
  | .rangeInc t, _, hs, hr, _ => P.bind_fail (parse_nil t Cx.std hs hr (fun _ => rfl))
  | .pair a b, _, hs, hr, _ => by
    simp only [regular, Bool.and_eq_true] at hr
    exact P.bind_fail (parse_nil a Cx.std hs hr.1 (fun _ => rfl))
  | .box t, _, hs, hr, _ => parse_nil t Cx.std hs hr (fun _ => rfl)
  | .via c t, _, hs, hr, _ => P.bind_fail (parse_nil t Cx.std hs hr (fun _ => rfl))
  | .struct d fs, _, hs, hr, _ => by
    simp only [regular] at hr
    simp only [starts] at hs
    simp only [parse]
    exact parseFields_nil fs [] hs hr
  | .enum d vs, _, _, _, _ => P.bind_fail (pTag_nil e d)
  | .refArray _ _, _, hs, _, _ => by simp [starts] at hs
  | .unit, _, hs, _, _ => by simp [starts] at hs
theorem parseFields_nil {T : Target} {e : Endian} : ∀ (fs : Fields) (prev : List Val), startsFields fs = true →
    regularFields T e fs = true → parseFields T e fs prev [] = .fail .unexpectedEndOfInput
  | .nil, _, hs, _ => by simp [startsFields] at hs
  | .cons a t fs, prev, hs, hr => by
    simp only [regularFields, Bool.and_eq_true, decide_eq_true_eq] at hr
    simp only [startsFields] at hs
    simp only [parseFields]
    by_cases hsk : a.skip = true
    · rw [if_pos hsk] at hs ⊢
      exact P.map_fail (parseFields_nil fs prev hs hr.2)
    rw [if_neg hsk] at hs ⊢
    by_cases hde : a.defaultOnEof = true
    · rw [if_pos hde] at hs; simp at hs
    rw [if_neg hde] at hs ⊢
    refine P.bind_fail ?_
    by_cases hp : a.pre.isEmpty = true
    · rw [if_pos hp] at hs ⊢
      by_cases hv : a.varint = true
      · rw [if_pos hv]; exact P.map_fail pVarint_nil
      · rw [if_neg hv]
        simp only [hv, Bool.false_or, Bool.and_eq_true] at hs
        refine parse_nil t _ hs.1 hr.1.2 fun hc => ?_
        simp only [Attrs.cx, Attrs.wcx]
        have hde' : a.defaultOnEof = false := by simpa using hde
        split
        · rfl
        · have h2 := hs.2
          cases hl : a.len with
          | none => simp [LenR.cast, LenR.starts, hde']
          | some k =>
            rw [hl] at h2
            cases k <;> simp at h2
            simp [LenR.cast, LenR.starts, hde']
    · rw [if_neg hp]
      refine P.bind_fail ?_
      unfold pConst
      rw [if_neg (by omega)]
      refine P.bind_fail (pTake_fail ?_)
      simp only [List.isEmpty_iff] at hp
      exact List.length_pos_iff.mpr hp
end

/-! ## Zero-sized types -/

theorem eq_replicate_of {vs : List Val} {x : Val} (h : ∀ v ∈ vs, v = x) : vs = List.replicate vs.length x := by
  rw [List.eq_replicate_iff]; exact ⟨rfl, h⟩

theorem catAll_nil {f : Val → Except Err Bytes} : ∀ {vs : List Val}, (∀ v ∈ vs, f v = .ok []) → catAll f vs = .ok []
  | [], _ => rfl
  | v :: vs, h => by
    simp only [catAll]
    rw [h v List.mem_cons_self, catAll_nil fun w hw => h w (List.mem_cons_of_mem _ hw)]
    rfl

mutual
/-- They have one value and an empty encoding. -/
theorem zst_unique {T : Target} {F : Fmt} : ∀ (t : Ty) (l : LenR) (v : Val), zstEmpty t = true → hasTy T t v →
    v = zstVal t ∧ wire F t l v = .ok []
  | .unit, _, v, _, hv => by
    cases v <;> simp only [hasTy] at hv
    exact ⟨by simp [zstVal], by simp [wire]⟩
  | .pair a b, _, v, hz, hv => by
    simp only [zstEmpty, Bool.and_eq_true] at hz
    cases v <;> simp only [hasTy] at hv
    obtain ⟨h1, h2⟩ := zst_unique (F := F) a LenR.std _ hz.1 hv.1
    obtain ⟨h3, h4⟩ := zst_unique (F := F) b LenR.std _ hz.2 hv.2
    refine ⟨by simp only [zstVal]; rw [← h1, ← h3], ?_⟩
    simp only [wire]; rw [h2, h4]; rfl
  | .array n t, _, v, hz, hv => by
    cases v <;> simp only [hasTy] at hv
    simp only [zstEmpty, Bool.or_eq_true, beq_iff_eq] at hz
    simp only [wire, zstVal]
    rw [if_neg (fun hh => hh hv.1)]
    rcases hz with hz | hz
    · subst hz
      have := List.length_eq_zero_iff.mp hv.1
      subst this
      exact ⟨rfl, rfl⟩
    · refine ⟨?_, catAll_nil fun x hx => (zst_unique t LenR.std x hz (hv.2 x hx)).2⟩
      rw [← hv.1]
      congr 1
      exact eq_replicate_of fun x hx => (zst_unique (F := F) t LenR.std x hz (hv.2 x hx)).1
  | .range t, _, .pair a (.pair b .unit), hz, hv => by
    simp only [zstEmpty] at hz
    simp only [hasTy] at hv
    obtain ⟨h1, h2⟩ := zst_unique (F := F) t LenR.std _ hz hv.1
    obtain ⟨h3, h4⟩ := zst_unique (F := F) t LenR.std _ hz hv.2
    refine ⟨by simp only [zstVal]; rw [← h1, h3, ← h1], ?_⟩
    simp only [wire]; rw [h2, h4]; rfl
  | .struct d fs, _, v, hz, hv => by
    simp only [zstEmpty] at hz
    simp only [hasTy] at hv
    simp only [zstVal, wire]
    exact zst_uniqueFields fs [] v hz hv
  | .prim _, _, _, hz, _ | .usize, _, _, hz, _ | .bool, _, _, hz, _ | .char, _, _, hz, _ | .nonZero _, _, _, hz, _
  | .atomic _, _, _, hz, _ | .ipv4, _, _, hz, _ | .ipv6, _, _, hz, _ | .ipAddr, _, _, hz, _
  | .duration, _, _, hz, _ | .systemTime, _, _, hz, _ | .endianness, _, _, hz, _
  | .varint64, _, _, hz, _ | .uuid, _, _, hz, _ | .str _, _, _, hz, _ | .seq _ _, _, _, hz, _
  | .set _, _, _, hz, _ | .map _ _, _, _, hz, _
  | .refArray _ _, _, _, hz, _ | .option _, _, _, hz, _ | .result _ _, _, _, hz, _
  | .rangeInc _, _, _, hz, _ | .box _, _, _, hz, _ | .via _ _, _, _, hz, _ | .enum _ _, _, _, hz, _ => by simp [zstEmpty] at hz
theorem zst_uniqueFields {T : Target} {F : Fmt} : ∀ (fs : Fields) (prev : List Val) (v : Val),
    zstEmptyFields fs = true → hasTyFields T fs v → v = zstFields fs ∧ wireFields F fs prev v = .ok []
  | .nil, _, v, _, hv => by
    cases v <;> simp only [hasTyFields] at hv
    exact ⟨by simp [zstFields], by simp [wireFields]⟩
  | .cons a t fs, prev, v, hz, hv => by
    simp only [zstEmptyFields, Bool.and_eq_true, Bool.not_eq_true', List.isEmpty_iff] at hz
    cases v with
    | pair v rest =>
      simp only [hasTyFields] at hv
      obtain ⟨h1, h2⟩ := zst_unique (F := F) t (a.wlen prev) v hz.1.1.1 hv.1
      simp only [zstFields, wireFields]
      by_cases hsk : a.skip = true
      · rw [if_pos hsk]
        obtain ⟨h3, h4⟩ := zst_uniqueFields (F := F) fs prev rest hz.2 hv.2
        exact ⟨by rw [← h1, ← h3], h4⟩
      · rw [if_neg hsk]
        obtain ⟨h3, h4⟩ := zst_uniqueFields (F := F) fs (prev ++ [v]) rest hz.2 hv.2
        refine ⟨by rw [← h1, ← h3], ?_⟩
        rw [h4, hz.1.2, if_neg (by simp [hz.1.1.2]), h2]
        rfl
    | _ => simp [hasTyFields] at hv
end

/-! ## All types -/

theorem Fits.sub {T : Target} {bs b : Bytes} (h : Fits T bs) (hl : b.length ≤ bs.length) : Fits T b :=
  ⟨Nat.le_trans hl h.mem, Nat.lt_of_le_of_lt hl h.fuel⟩

theorem Fits.left {T : Target} {x y : Bytes} (h : Fits T (x ++ y)) : Fits T x := h.sub (by simp)
theorem Fits.right {T : Target} {x y : Bytes} (h : Fits T (x ++ y)) : Fits T y := h.sub (by simp)

/-- The elements of a slice. -/
theorem codes_seq {T : Target} (hT : T.Ok) {e : Endian} {tl st : Bool} {k : SeqKind} {t : Ty} {l : LenR}
    {vs : List Val} {bs : Bytes} {f : Val → Except Err Bytes}
    (hl : layoutOk T t = true) (hr : regular T e (.seq k t) = true) (he : l.ends tl st = true)
    (hu : (match l with | .untilEof => starts t | _ => true) = true)
    (hs : vs.length * sizeOf T t ≤ T.isizeMax)
    (hw : catAll f vs = .ok bs) (hB : Fits T bs)
    (hm : minBytes T t * vs.length ≤ bs.length)
    (hz : zstEmpty t = true → bs = [] ∧ vs = List.replicate vs.length (zstVal t))
    (hc : ∀ v ∈ vs, ∀ b, f v = .ok b → b.length ≤ bs.length → Codes false st (parse T e t Cx.std) b v) :
    Codes tl st (pSeq T e k t (parse T e t Cx.std) (l.count vs.length)) bs (.list vs) := by
  simp only [regular, Bool.and_eq_true] at hr
  obtain ⟨⟨hvec, hrt⟩, hk⟩ := hr
  have hus : T.isizeMax ≤ T.usizeMax := by have := hT.isize; omega
  have hrep := codes_rep hw hc
  have hb : (isPrimitive T t && !bulkOk T e t) = false := by
    unfold vecOk at hvec
    cases hp : isPrimitive T t <;> simp_all
  have hvecc : Codes false st (pVec T e t (parse T e t Cx.std) vs.length) bs vs := by
    refine codes_vec hT hb hm hB.mem hs (fun h => ?_) fun _ => hrep
    simp only [Bool.and_eq_true, Bool.not_eq_true', beq_iff_eq] at h
    unfold vecOk at hvec
    rw [if_neg (by simp [h.1])] at hvec
    simp only [h.2, bne_self_eq_false, Bool.false_or] at hvec
    exact hz hvec
  by_cases hl' : ∃ n, l.count vs.length = some n
  · have hcount : l.count vs.length = some vs.length := by
      cases l <;> simp [LenR.count] at hl' ⊢
    rw [hcount]
    cases k with
    | vec => exact codes_map (Codes.weaken hvecc)
    | cow =>
      simp only [pSeq]
      refine codes_map (Codes.weaken ?_)
      unfold pCow
      refine codes_ite_neg ?_ hvecc
      intro hh
      simp only [Bool.and_eq_true, Bool.or_eq_true, beq_iff_eq, decide_eq_true_eq] at hh
      simp only [Bool.or_eq_true, Bool.not_eq_true', bne_iff_ne, ne_eq] at hk
      rcases hh.2 with h | h
      · omega
      · rcases hk with h' | h'
        · simp [h'] at hh
        · exact h' h
    | ref =>
      simp only [pSeq]
      refine codes_map (Codes.weaken ?_)
      unfold pRef
      refine codes_ite_neg (by omega) (codes_ite_pos ?_ hrep)
      simp only [Bool.and_eq_true] at hk
      unfold vecOk at hvec
      rw [if_pos hk.1.1] at hvec
      simp only [bulkOk, Bool.and_eq_true] at hvec
      simp [hk.1.1, hvec.1]
  · have : l = .untilEof := by
      cases l <;> simp [LenR.count] at hl' ⊢
    subst this
    simp only [LenR.ends, Bool.and_eq_true, Bool.not_eq_true'] at he
    have hu : starts t = true := hu
    have hnil := parse_nil (T := T) (e := e) t Cx.std hu hrt (fun _ => rfl)
    simp only [LenR.count]
    cases k with
    | vec =>
      exact codes_map (codes_whole (codes_untilEof hnil hw hB.fuel hc) he.1 he.2)
    | cow =>
      exact codes_map (codes_whole (codes_untilEof hnil hw hB.fuel hc) he.1 he.2)
    | ref =>
      simp only [Bool.and_eq_true, bne_iff_ne, ne_eq] at hk
      refine codes_map (codes_whole ?_ he.1 he.2)
      have hbp : bulkPlain t = true := by
        unfold vecOk at hvec
        rw [if_pos hk.1.1] at hvec
        simp only [bulkOk, Bool.and_eq_true] at hvec
        exact hvec.1
      have h1 := hrep.1 [] (by simp)
      simp only [List.append_nil] at h1
      obtain ⟨g1, g2⟩ := pRep_prim (T := T) (e := e) (cx := Cx.std) hk.1.1 hl hbp vs.length bs
      have hlen : bs.length = vs.length * sizeOf T t := by
        by_cases hle : vs.length * sizeOf T t ≤ bs.length
        · have := g1 hle
          rw [h1] at this
          simp only [PRes.ok.injEq] at this
          have h2 := congrArg List.length this.2
          simp at h2; omega
        · rw [g2 (by omega)] at h1; simp at h1
      unfold pRefRest
      rw [if_neg hk.1.2, if_pos (by simp [hk.1.1, hbp]), hlen,
        Nat.mul_div_cancel _ (by omega), h1]

end Verif
