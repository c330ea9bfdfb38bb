import Verif.Syntax
import Verif.PropsPortable

/-!
# Spelling and representation: C57
-/

namespace Verif

/-! ## What the macro takes a type for -/

theorem parsePrim_names {t : SynTy} {p : Prim} (h : parsePrim t = some p) :
    ∃ s args, t = .path false false (.cons s args .nil) ∧ (s, p) ∈ primNames := by
  unfold parsePrim at h
  split at h
  · rename_i s args
    refine ⟨s, args, rfl, ?_⟩
    split at h <;> simp_all [primNames]
    all_goals (subst h; simp)
  · simp at h

theorem inner_some {a : SynGens} {t : SynTy} (h : a.inner = some t) : a = .one t := by
  unfold SynGens.inner at h
  split at h <;> simp at h
  subst h; rfl

theorem inner2_some {a : SynGens} {p : SynTy × SynTy} (h : a.inner2 = some p) : a = .two p.1 p.2 := by
  unfold SynGens.inner2 at h
  split at h <;> simp at h
  subst h; rfl

theorem innerLt_some {a : SynGens} {t : SynTy} (h : a.innerLt = some t) : ∃ l, a = .lifetime l (.one t) := by
  unfold SynGens.innerLt at h
  split at h <;> simp at h
  subst h; exact ⟨_, rfl⟩

section
variable {ρ : SynTy → Ty} (hρ : StdScope ρ)
include hρ

theorem parseCow_meaning {t : SynTy} {m : MacroTy} (h : parseCow t = some m) (l : String) :
    ρ (.app "Cow" (.lifetime l (.one t))) = m.meaning ρ := by
  unfold parseCow at h
  split at h
  · simp only [Option.some.injEq] at h
    subst h; exact hρ.cowSlice l _
  · split at h
    · rename_i hb
      simp only [Option.some.injEq] at h
      subst h; exact hρ.cowStr l _ hb
    · split at h
      · rename_i s args hb
        split at h <;> simp only [Option.map_eq_some_iff, reduceCtorEq] at h
        · obtain ⟨u, hu, rfl⟩ := h
          rw [inner_some hu]; exact (hρ.cowSet l u).1
        · obtain ⟨u, hu, rfl⟩ := h
          rw [inner_some hu]; exact (hρ.cowSet l u).2
        · obtain ⟨u, hu, rfl⟩ := h
          rw [inner2_some hu]; exact (hρ.cowMap l u.1 u.2).1
        · obtain ⟨u, hu, rfl⟩ := h
          rw [inner2_some hu]; exact (hρ.cowMap l u.1 u.2).2
      · simp at h

/-- The macro takes no type for another one. -/
theorem parseSpecial_meaning {t : SynTy} {m : MacroTy} (h : parseSpecial t = some m) : ρ t = m.meaning ρ := by
  unfold parseSpecial at h
  split at h
  · rename_i p hp
    obtain ⟨s, args, rfl, hm⟩ := parsePrim_names hp
    simp only [Option.some.injEq] at h
    subst h; exact hρ.prim s p args hm
  · split at h
    · split at h <;> simp only [Option.some.injEq, reduceCtorEq] at h
      rename_i hs
      simp only [beq_iff_eq] at hs
      subst hs h; exact hρ.string
    · rename_i s args hp
      split at h <;> simp only [Option.map_eq_some_iff, Option.bind_eq_some_iff, reduceCtorEq] at h
      · obtain ⟨u, hu, rfl⟩ := h
        rw [inner_some hu]; exact hρ.vec u
      · obtain ⟨u, hu, rfl⟩ := h
        rw [inner_some hu]; exact hρ.hashSet u
      · obtain ⟨u, hu, rfl⟩ := h
        rw [inner_some hu]; exact hρ.btreeSet u
      · obtain ⟨u, hu, h⟩ := h
        obtain ⟨l, rfl⟩ := innerLt_some hu
        exact parseCow_meaning hρ h l
      · obtain ⟨u, hu, rfl⟩ := h
        rw [inner2_some hu]; exact hρ.hashMap u.1 u.2
      · obtain ⟨u, hu, rfl⟩ := h
        rw [inner2_some hu]; exact hρ.btreeMap u.1 u.2
    · split at h <;> simp only [Option.some.injEq, reduceCtorEq] at h
      subst h; exact hρ.array _ _
    · split at h
      · rename_i hb
        simp only [Option.some.injEq] at h
        subst h; exact hρ.refStr _ _ hb
      · split at h
        · split at h <;> simp only [Option.some.injEq] at h
          · rename_i u _ _ hu
            subst h
            rw [hρ.refSlice]
            unfold SynTy.isBare at hu
            split at hu <;> simp only [beq_iff_eq, Bool.false_eq_true] at hu
            · subst hu
              simp only [MacroTy.meaning, hρ.prim "u8" .u8 _ (by simp [primNames])]
            · subst hu
              simp only [MacroTy.meaning, hρ.prim "u8" .u8 _ (by simp [primNames])]
          · subst h; exact hρ.refSlice _ _
        · simp at h
    · simp at h

theorem parseTy_meaning (t : SynTy) : ρ t = (parseTy t).meaning ρ := by
  unfold parseTy
  cases h : parseSpecial t with
  | none => rfl
  | some m => exact parseSpecial_meaning hρ h

/-- **C57**: the macro takes the type of a field for what it is. -/
theorem parseOpt_meaning (t : SynTy) :
    ρ t = if (parseOpt t).1 then .option ((parseOpt t).2.meaning ρ) else (parseOpt t).2.meaning ρ := by
  unfold parseOpt
  cases h : t.optionInner with
  | none => exact parseTy_meaning hρ t
  | some u =>
    simp only [if_true]
    rw [← parseTy_meaning hρ u]
    unfold SynTy.optionInner at h
    split at h
    · split at h
      · rename_i s args hs
        simp only [beq_iff_eq] at hs
        subst hs
        rw [inner_some h]
        exact hρ.option u
      · simp at h
    · simp at h

end

/-! ## The macro on types as they are written -/

theorem parseSpecial_prim {t : SynTy} {p : Prim} : parseSpecial t = some (.primitive p) ↔ parsePrim t = some p := by
  constructor
  · intro h
    unfold parseSpecial at h
    split at h
    · rename_i q hq
      simp only [Option.some.injEq, MacroTy.primitive.injEq] at h
      rw [hq, h]
    · split at h
      · split at h <;> simp at h
      · split at h <;> simp [Option.map_eq_some_iff, Option.bind_eq_some_iff] at h
        obtain ⟨u, _, h⟩ := h
        unfold parseCow at h
        split at h
        · simp at h
        · split at h
          · simp at h
          · split at h
            · split at h <;> simp [Option.map_eq_some_iff] at h
            · simp at h
      · split at h <;> simp at h
      · split at h
        · simp at h
        · split at h
          · split at h <;> simp at h
          · simp at h
      · simp at h
  · intro h
    unfold parseSpecial
    rw [h]

theorem optionInner_prim {t : SynTy} {p : Prim} (h : parsePrim t = some p) : t.optionInner = none := by
  obtain ⟨s, args, rfl, hm⟩ := parsePrim_names h
  unfold SynTy.optionInner
  split
  · rename_i s' args' heq
    simp only [SynTy.path.injEq, SynSegs.cons.injEq, true_and, and_true] at heq
    obtain ⟨rfl, _⟩ := heq
    split
    · rename_i hs
      simp only [beq_iff_eq] at hs
      subst hs
      simp [primNames] at hm
    · rfl
  · rfl

/-- Recognised by the macro. -/
def recognised (t : SynTy) : Bool := match (parseOpt t).2 with | .ty _ => false | _ => true

theorem meaning_prim {ρ : SynTy → Ty} {m : MacroTy} {p : Prim} (hm : ∀ t, m ≠ .ty t) (h : m.meaning ρ = .prim p) : m = .primitive p := by
  cases m <;> simp_all [MacroTy.meaning]

theorem meaning_container {ρ : SynTy → Ty} {m : MacroTy} (hm : ∀ t, m ≠ .ty t) :
    (m.meaning ρ).isContainer = m.isContainer ∧ (m.meaning ρ).hasLengthType = m.isContainer := by
  cases m <;> simp_all [MacroTy.meaning, Ty.isContainer, MacroTy.isContainer, Ty.hasLengthType]

theorem recognised_iff (t : SynTy) : recognised t = true ↔ ∀ u, (parseOpt t).2 ≠ .ty u := by
  unfold recognised
  split
  · rename_i h; simp [h]
  · rename_i h; simp only [true_iff]; exact h

section
variable {ρ : SynTy → Ty} (hρ : StdScope ρ)
include hρ

theorem varint_syntax (t : SynTy) : (recognised t = true ∧ ρ t = .prim .u64) ↔ parsePrim t = some .u64 := by
  constructor
  · rintro ⟨hk, ht⟩
    have hm := parseOpt_meaning hρ t
    rw [recognised_iff] at hk
    rw [ht] at hm
    split at hm
    · simp at hm
    · rename_i ho
      have h1 := meaning_prim hk hm.symm
      unfold parseOpt at h1 ho
      cases hi : t.optionInner with
      | some u => simp [hi] at ho
      | none =>
        simp only [hi] at h1
        unfold parseTy at h1
        cases hs : parseSpecial t with
        | none => simp [hs] at h1
        | some m =>
          simp only [hs, Option.getD_some] at h1
          subst h1
          exact parseSpecial_prim.1 hs
  · intro h
    have h1 : parseOpt t = (false, .primitive .u64) := by
      unfold parseOpt parseTy
      rw [optionInner_prim h, parseSpecial_prim.2 h]
      rfl
    have h2 := parseOpt_meaning hρ t
    rw [h1] at h2
    refine ⟨?_, h2⟩
    unfold recognised
    rw [h1]

theorem synCollect_raw (f : SynField) : ∀ (as : List RawAttr) (c : Collected), synCollect f.ty as c = collectAttrs (f.raw ρ) as c
  | [], c => rfl
  | .skip :: as, c => by simp only [synCollect, collectAttrs]; exact synCollect_raw f as _
  | .varint :: as, c => by
    have h := varint_syntax hρ f.ty
    have hk : (f.raw ρ).known = recognised f.ty := rfl
    have ht : (f.raw ρ).ty = ρ f.ty := rfl
    simp only [synCollect, collectAttrs]
    split
    · rename_i hn
      split
      · rename_i h1 h2
        exact absurd (h.1 ⟨h1, h2⟩) hn
      · rfl
    · rename_i hn
      obtain ⟨h1, h2⟩ := h.2 (by simpa using hn)
      rw [← hk] at h1
      rw [← ht] at h2
      rw [h1, h2]
      exact synCollect_raw f as _
  | .defaultOnEof :: as, c | .length _ :: as, c | .lengthType _ :: as, c | .constantPrefix _ :: as, c => by
    simp only [synCollect, collectAttrs]
    split
    · rfl
    · exact synCollect_raw f as _

theorem synCheck_raw (f : SynField) (c : Collected) :
    finishField (f.raw ρ) c = match synCheck f.ty c with | .error er => .error er | .ok () => .ok (synAttrs f c) := by
  have hk : (f.raw ρ).known = recognised f.ty := rfl
  have ht : (f.raw ρ).ty = ρ f.ty := rfl
  have h1 : (recognised f.ty && (ρ f.ty).isContainer) = (!(parseOpt f.ty).1 && (parseOpt f.ty).2.isContainer) := by
    cases hr : recognised f.ty with
    | false =>
      simp only [recognised] at hr
      split at hr
      · rename_i h; simp [h, MacroTy.isContainer]
      · simp at hr
    | true =>
      rw [recognised_iff] at hr
      rw [parseOpt_meaning hρ f.ty]
      cases (parseOpt f.ty).1
      · simp [(meaning_container (ρ := ρ) hr).1]
      · simp [Ty.isContainer]
  have h2 : (recognised f.ty && (ρ f.ty).hasLengthType) = (parseOpt f.ty).2.isContainer := by
    cases hr : recognised f.ty with
    | false =>
      simp only [recognised] at hr
      split at hr
      · rename_i h; simp [h, MacroTy.isContainer]
      · simp at hr
    | true =>
      rw [recognised_iff] at hr
      rw [parseOpt_meaning hρ f.ty]
      cases (parseOpt f.ty).1
      · simp [(meaning_container (ρ := ρ) hr).2]
      · simp [Ty.hasLengthType, (meaning_container (ρ := ρ) hr).1]
  have h3 : (!recognised f.ty) = (match (parseOpt f.ty).2 with | .ty _ => true | _ => false) := by
    unfold recognised
    cases (parseOpt f.ty).2 <;> rfl
  unfold finishField synCheck
  rw [hk, ht, h1, h2, h3]
  split
  · rfl
  · split
    · rfl
    · split
      · rfl
      · rfl

/-- `get_fields` does, on the types as they are written, what `getFields` does on types which the macro takes for what they
are. -/
theorem synFields_raw : ∀ (b : Bool) (fs : List SynField), synFields ρ b fs = getFields b (fs.map (SynField.raw ρ))
  | false, [] | true, [] => by simp [synFields, getFields]
  | true, f :: fs => by simp [synFields, getFields]
  | false, f :: fs => by
    simp only [synFields, List.map_cons, getFields]
    have ha : (f.raw ρ).attrs = f.attrs := rfl
    rw [ha, ← synCollect_raw hρ f]
    cases synCollect f.ty f.attrs {} with
    | error er => rfl
    | ok c =>
      simp only
      rw [synCheck_raw hρ f c]
      cases synCheck f.ty c with
      | error er => rfl
      | ok u =>
        simp only
        rw [synFields_raw _ fs]
        rfl

end

/-! ## The same declaration, spelled in different ways -/

/-- The same attributes; those which depend on the spelling of the type, `length_type = u32` (the default), may be left out. -/
inductive SameAttrs : List RawAttr → List RawAttr → Prop where
  | nil : SameAttrs [] []
  | cons (a : RawAttr) {as as' : List RawAttr} : SameAttrs as as' → SameAttrs (a :: as) (a :: as')
  | left {as as' : List RawAttr} : SameAttrs as as' → SameAttrs (.lengthType .u32 :: as) as'
  | right {as as' : List RawAttr} : SameAttrs as as' → SameAttrs as (.lengthType .u32 :: as')

/-- The same type, as far as the format is concerned, spelled in two scopes. -/
structure SameField (ρ ρ' : SynTy → Ty) (f f' : SynField) : Prop where
  ty : (ρ f.ty).source = (ρ' f'.ty).source
  dflt : f.dflt = f'.dflt
  attrs : SameAttrs f.attrs f'.attrs

/-- Lists of such fields. -/
inductive SameFields (ρ ρ' : SynTy → Ty) : List SynField → List SynField → Prop where
  | nil : SameFields ρ ρ' [] []
  | cons {f f' : SynField} {fs fs' : List SynField} : SameField ρ ρ' f f' → SameFields ρ ρ' fs fs' → SameFields ρ ρ' (f :: fs) (f' :: fs')

/-- Collected attributes, up to `length_type = u32`. -/
def Collected.like (c c' : Collected) : Prop :=
  c.defaultOnEof = c'.defaultOnEof ∧ c.length = c'.length ∧ c.lengthType.getD .u32 = c'.lengthType.getD .u32 ∧ c.skip = c'.skip ∧
    c.varint = c'.varint ∧ c.pre = c'.pre

theorem collect_like {t t' : SynTy} {as as' : List RawAttr} (h : SameAttrs as as') : ∀ {c c' d d' : Collected}, c.like c' →
    synCollect t as c = .ok d → synCollect t' as' c' = .ok d' → d.like d' := by
  induction h with
  | nil =>
    intro c c' d d' hc h h'
    simp only [synCollect, Except.ok.injEq] at h h'
    subst h h'; exact hc
  | @cons a as as' _ ih =>
    intro c c' d d' hc h h'
    obtain ⟨h1, h2, h3, h4, h5, h6⟩ := hc
    cases a <;> simp only [synCollect] at h h'
    case skip => refine ih ?_ h h'; exact ⟨h1, h2, h3, rfl, h5, h6⟩
    all_goals
      split at h
      · simp at h
      split at h'
      · simp at h'
    · refine ih ?_ h h'; exact ⟨rfl, h2, h3, h4, h5, h6⟩
    · refine ih ?_ h h'; exact ⟨h1, rfl, h3, h4, h5, h6⟩
    · refine ih ?_ h h'; exact ⟨h1, h2, rfl, h4, h5, h6⟩
    · refine ih ?_ h h'; exact ⟨h1, h2, h3, h4, h5, rfl⟩
    · refine ih ?_ h h'; exact ⟨h1, h2, h3, h4, rfl, h6⟩
  | @left as as' _ ih =>
    intro c c' d d' hc h h'
    obtain ⟨h1, h2, h3, h4, h5, h6⟩ := hc
    simp only [synCollect] at h
    split at h
    · simp at h
    · rename_i hn
      simp only [Option.isSome_iff_ne_none, ne_eq, Decidable.not_not] at hn
      refine ih ?_ h h'
      refine ⟨h1, h2, ?_, h4, h5, h6⟩
      rw [← h3, hn]; rfl
  | @right as as' _ ih =>
    intro c c' d d' hc h h'
    obtain ⟨h1, h2, h3, h4, h5, h6⟩ := hc
    simp only [synCollect] at h'
    split at h'
    · simp at h'
    · rename_i hn
      simp only [Option.isSome_iff_ne_none, ne_eq, Decidable.not_not] at hn
      refine ih ?_ h h'
      refine ⟨h1, h2, ?_, h4, h5, h6⟩
      rw [h3, hn]; rfl

/-- With a length attribute, the macro has recognised the type. -/
theorem checked_known {f : SynField} {c : Collected} (h : synCheck f.ty c = .ok ()) (hl : c.length.isSome ∨ c.lengthType.isSome) :
    (synAttrs f c).opaqueTy = false := by
  unfold synCheck at h
  split at h
  · simp at h
  split at h
  · simp at h
  rename_i h2
  split at h
  · simp at h
  rename_i h3
  have hc : (parseOpt f.ty).2.isContainer = true := by
    rcases hl with hl | hl
    · simp only [hl, Bool.true_and, Bool.not_eq_true, Bool.not_eq_false', Bool.and_eq_true] at h2
      exact h2.2
    · simpa only [hl, Bool.true_and, Bool.not_eq_true, Bool.not_eq_false'] using h3
  simp only [synAttrs]
  split
  · rename_i ht; simp [ht, MacroTy.isContainer] at hc
  · rfl

theorem attrs_like {f f' : SynField} {c c' : Collected} (hd : f.dflt = f'.dflt) (hc : c.like c') (h : synCheck f.ty c = .ok ())
    (h' : synCheck f'.ty c' = .ok ()) : (synAttrs f c).source = (synAttrs f' c').source := by
  obtain ⟨h1, h2, h3, h4, h5, h6⟩ := hc
  have hk := checked_known h
  have hk' := checked_known h'
  unfold Attrs.source
  simp only [synAttrs] at hk hk' ⊢
  rw [← h2, hd, h1, h4, h5, h6] at *
  cases hl : c.length with
  | some k =>
    rw [hl] at hk hk'
    have a := hk (.inl rfl)
    have a' := hk' (.inl rfl)
    cases k <;> simp only [a, a']
  | none =>
    cases hlt : c.lengthType with
    | none =>
      cases hlt' : c'.lengthType with
      | none => rfl
      | some lt' =>
        rw [hlt, hlt'] at h3
        simp only [Option.getD_none, Option.getD_some] at h3
        subst h3
        rfl
    | some lt =>
      have a := hk (.inr (by rw [hlt]; rfl))
      cases hlt' : c'.lengthType with
      | none =>
        rw [hlt, hlt'] at h3
        simp only [Option.getD_none, Option.getD_some] at h3
        subst h3
        rfl
      | some lt' =>
        have a' := hk' (.inr (by rw [hlt']; rfl))
        rw [hlt, hlt'] at h3
        simp only [Option.getD_some] at h3
        subst h3
        simp only [a, a']

/-- **C57**: fields which are the same but for the spelling of their types are, for the format, the same. -/
theorem C57_spelling {ρ ρ' : SynTy → Ty} : ∀ {fs fs' : List SynField}, SameFields ρ ρ' fs fs' → ∀ {b : Bool} {F F' : Fields},
    synFields ρ b fs = .ok F → synFields ρ' b fs' = .ok F' → F.source = F'.source := by
  intro fs fs' h
  induction h with
  | nil =>
    intro b F F' h h'
    simp only [synFields, Except.ok.injEq] at h h'
    subst h h'; rfl
  | @cons f f' fs fs' hf _ ih =>
    intro b F F' h h'
    cases b
    case true => simp [synFields] at h
    simp only [synFields] at h h'
    split at h
    · simp at h
    rename_i c hc
    split at h
    · simp at h
    rename_i hk
    split at h
    · simp at h
    rename_i r hr
    split at h'
    · simp at h'
    rename_i c' hc'
    split at h'
    · simp at h'
    rename_i hk'
    split at h'
    · simp at h'
    rename_i r' hr'
    simp only [Except.ok.injEq] at h h'
    subst h h'
    have hl := collect_like hf.attrs ⟨rfl, rfl, rfl, rfl, rfl, rfl⟩ hc hc'
    rw [← hl.2.1] at hr'
    simp only [Fields.source, Fields.cons.injEq]
    exact ⟨attrs_like hf.dflt hl hk hk', hf.ty, ih hr hr'⟩

/-! ## Reading and writing -/

section
variable {T : Target} (hT : T.Ok) {e : Endian} {t t' : Ty} (hs : t.source = t'.source) (hl : layoutOk T t = true)
  (hl' : layoutOk T t' = true) (hd : declOk t = true) (hd' : declOk t' = true)
include hT hs hl hl' hd hd'

/-- **C57**: declarations which differ in `#[repr(…)]`, in the order and the padding chosen by the compiler and in the spelling of types
only are written to the same bytes, and data of one is read with the other.

Full claim: all types.  Missing: the exceptions of C01; `default_on_eof` with truncated input, for which it is false
(`C57_false`). -/
theorem C57_same_format_partial {v : Val} (hr : regular T e t = true) (hr' : regular T e t' = true) (hv : hasTy T t v) (hv' : hasTy T t' v)
    {bs : Bytes} {junk junk' : Nat → UInt8} : writeToVec T e t v junk = .ok bs ↔ writeToVec T e t' v junk' = .ok bs := by
  have key : ∀ {t t' : Ty}, t.source = t'.source → layoutOk T t = true → layoutOk T t' = true → declOk t = true →
      declOk t' = true → regular T e t = true → regular T e t' = true → hasTy T t v → hasTy T t' v → ∀ {junk junk' : Nat → UInt8},
      writeToVec T e t v junk = .ok bs → writeToVec T e t' v junk' = .ok bs := by
    intro t t' hs hl hl' hd hd' hr hr' hv hv' junk junk' hw
    obtain ⟨h1, h2⟩ := vec_inv hT hl hd (regular_slice t hr) hv hw
    rw [wire_machines (T' := T) hs (.inl rfl)] at h1
    exact vec_ok hT hl' hd' (regular_slice t' hr') hv' h1 h2
  exact ⟨key hs hl hl' hd hd' hr hr' hv hv', key hs.symm hl' hl hd' hd hr' hr hv' hv⟩

/-- **C57**, reading. -/
theorem C57_read_partial {v : Val} (hr : regular T e t = true) (hr' : regular T e t' = true) (hv : hasTy T t v) (hv' : hasTy T t' v)
    (hc' : canon (Fmt.code T.toHost e) t' v) (he' : ends true false t' = true) {bs : Bytes} {junk : Nat → UInt8}
    (hw : writeToVec T e t v junk = .ok bs) {base : Nat} (hm : InMem T base bs) :
    readFromBuffer T e t' base bs = .ok v ∧
    (noRefs t' = true → readFromBufferCopying T e t' base bs = .ok v ∧
      ∀ (grow : Nat → Nat), (∀ n, n ≤ grow n) → ∀ (b : Bool) (src : Src), src.Clean → src.data = bs →
        (readFromStream T e t' grow b src).1 = .ok v) := by
  obtain ⟨h1, _, h3⟩ := C56_portable_partial hT hT hs hl hl' hd hd' (.inl rfl) (regular_slice t hr) hr' hv hv' hc' he' hw hm
  exact ⟨h1, h3⟩

/-- **C57** for plain data, and any input: if it is accepted by both declarations, then with the same result. -/
theorem C57_plain (hp : plain t = true) (hp' : plain t' = true) {base : Nat} {buf : Bytes} (hm : InMem T base buf) {v v' : Val} {n n' : Nat}
    (h : readWithLengthFromBuffer T e t base buf = (.ok v, n)) (h' : readWithLengthFromBuffer T e t' base buf = (.ok v', n')) :
    v = v' ∧ n = n' :=
  C56_never_disagree hT hT hs hl hl' hd hd' (.inl rfl) hp hp' hm hm h h'

end

/-- Attributes which the macro checks against the spelling of the type. -/
def RawAttr.needsType : RawAttr → Bool
  | .length _ | .lengthType _ | .varint => true
  | _ => false

/-- **C57**: without such attributes, whether a field is accepted does not depend on the spelling of its type. -/
theorem C57_accepted {ρ : SynTy → Ty} {t t' : SynTy} {as : List RawAttr} (ha : ∀ a ∈ as, a.needsType = false) (d : Val) :
    (∃ F, synFields ρ false [⟨as, t, d⟩] = .ok F) ↔ ∃ F, synFields ρ false [⟨as, t', d⟩] = .ok F := by
  have hcol : ∀ (as : List RawAttr) (c : Collected), (∀ a ∈ as, a.needsType = false) → synCollect t as c = synCollect t' as c := by
    intro as
    induction as with
    | nil => intro c _; rfl
    | cons a as ih =>
      intro c h
      have h1 := h a List.mem_cons_self
      have h2 := fun c => ih c fun x hx => h x (List.mem_cons_of_mem _ hx)
      cases a <;> simp only [RawAttr.needsType, Bool.true_eq_false] at h1 <;> simp only [synCollect, h2]
  have hnone : ∀ (as : List RawAttr) (c d : Collected), (∀ a ∈ as, a.needsType = false) → c.length = none → c.lengthType = none →
      synCollect t' as c = .ok d → d.length = none ∧ d.lengthType = none := by
    intro as
    induction as with
    | nil =>
      intro c d _ h1 h2 h
      simp only [synCollect, Except.ok.injEq] at h
      subst h; exact ⟨h1, h2⟩
    | cons a as ih =>
      intro c d h h1 h2 hc
      have h3 := h a List.mem_cons_self
      have h4 := fun x hx => h x (List.mem_cons_of_mem _ hx)
      cases a <;> simp only [RawAttr.needsType, Bool.true_eq_false] at h3 <;> simp only [synCollect] at hc
      · split at hc
        · simp at hc
        · exact ih _ d h4 (by exact h1) (by exact h2) hc
      · exact ih _ d h4 (by exact h1) (by exact h2) hc
      · split at hc
        · simp at hc
        · exact ih _ d h4 (by exact h1) (by exact h2) hc
  simp only [synFields, hcol as {} ha]
  cases hc : synCollect t' as {} with
  | error er => simp
  | ok c =>
    obtain ⟨h1, h2⟩ := hnone as {} c ha rfl rfl hc
    simp only [synCheck, h1, h2, Option.isSome_none, Bool.false_and, Bool.and_self, Bool.false_eq_true, if_false]
    simp

/-- C57 is false for truncated input and `default_on_eof`: with `Option<Vec<u8>>`, the input `[1]` is read as `Some(vec![])`; if the type
is an alias, then as `None`. -/
theorem C57_false : ∃ (d : StructDesc) (a a' : Attrs) (t : Ty) (v v' : Val), a.source = a'.source ∧
    layoutOk Samples.x64 (.struct d (.cons a t .nil)) = true ∧
    readFromBuffer Samples.x64 .little (.struct d (.cons a t .nil)) 4096 [1] = .ok v ∧
    readFromBuffer Samples.x64 .little (.struct d (.cons a' t .nil)) 4096 [1] = .ok v' ∧ v ≠ v' :=
  ⟨⟨.rust, 24, 8, [0], true⟩, { defaultOnEof := true, dflt := .none }, { defaultOnEof := true, dflt := .none, opaqueTy := true },
    .option (.seq .vec (.prim .u8)), .pair (.some (.list [])) .unit, .pair .none .unit, rfl, by decide, by decide, by decide, by decide⟩

/-! ## Examples -/

/-- Names in scope: those of the standard library, and `type Bytes = Vec<u8>` and `#[repr(C)] struct Point`. -/
def Samples.scope : SynTy → Ty
  | .path false false (.cons s args .nil) =>
    match primNames.lookup s with
    | some p => .prim p
    | none =>
      match s, args with
      | "String", .none => .str .owned
      | "Bytes", .none => .seq .vec (.prim .u8)
      | "Point", .none => Samples.point
      | "Vec", .angle false (.ty t .nil) => .seq .vec (Samples.scope t)
      | "HashSet", .angle false (.ty t .nil) | "BTreeSet", .angle false (.ty t .nil) => .set (Samples.scope t)
      | "HashMap", .angle false (.ty t (.ty u .nil)) | "BTreeMap", .angle false (.ty t (.ty u .nil)) =>
        .map (Samples.scope t) (Samples.scope u)
      | "Option", .angle false (.ty t .nil) => .option (Samples.scope t)
      | "Cow", .angle false (.lifetime _ (.ty (.slice t) .nil)) => .seq .cow (Samples.scope t)
      | "Cow", .angle false (.lifetime _ (.ty (.path false false (.cons "str" .none .nil)) .nil))
      | "Cow", .angle false (.lifetime _ (.ty (.path false false (.cons "str" (.angle _ .nil) .nil)) .nil)) => .str .cow
      | "Cow", .angle false (.lifetime _ (.ty t .nil)) => Samples.scope t
      | _, _ => .unit
  | .array t (some n) => .array n (Samples.scope t)
  | .ref _ false (.slice t) => .seq .ref (Samples.scope t)
  | .ref _ false (.path false false (.cons "str" .none .nil)) | .ref _ false (.path false false (.cons "str" (.angle _ .nil) .nil)) => .str .ref
  | _ => .unit

theorem Samples.scope_std : StdScope Samples.scope where
  prim := by
    intro s p args h
    unfold Samples.scope
    simp only [primNames, List.mem_cons, Prod.mk.injEq, List.not_mem_nil, or_false] at h
    rcases h with ⟨rfl, rfl⟩ | ⟨rfl, rfl⟩ | ⟨rfl, rfl⟩ | ⟨rfl, rfl⟩ | ⟨rfl, rfl⟩ | ⟨rfl, rfl⟩ | ⟨rfl, rfl⟩ | ⟨rfl, rfl⟩ | ⟨rfl, rfl⟩ |
      ⟨rfl, rfl⟩ | ⟨rfl, rfl⟩ | ⟨rfl, rfl⟩ <;> rfl
  string := by simp [SynTy.name, Samples.scope, primNames, List.lookup]
  vec := by intro t; simp [SynTy.app, SynGens.one, Samples.scope, primNames, List.lookup]
  hashSet := by intro t; simp [SynTy.app, SynGens.one, Samples.scope, primNames, List.lookup]
  btreeSet := by intro t; simp [SynTy.app, SynGens.one, Samples.scope, primNames, List.lookup]
  hashMap := by intro t u; simp [SynTy.app, SynGens.two, Samples.scope, primNames, List.lookup]
  btreeMap := by intro t u; simp [SynTy.app, SynGens.two, Samples.scope, primNames, List.lookup]
  cowSlice := by intro l t; simp [SynTy.app, SynGens.one, Samples.scope, primNames, List.lookup]
  cowStr := by
    intro l t h
    unfold SynTy.isBare at h
    split at h <;> simp only [beq_iff_eq, Bool.false_eq_true] at h <;> subst h <;>
      simp [SynTy.app, SynGens.one, Samples.scope, primNames, List.lookup]
  cowSet := by intro l t; simp [SynTy.app, SynGens.one, Samples.scope, primNames, List.lookup]
  cowMap := by intro l t u; simp [SynTy.app, SynGens.one, SynGens.two, Samples.scope, primNames, List.lookup]
  option := by intro t; simp [SynTy.app, SynGens.one, Samples.scope, primNames, List.lookup]
  array := by intro t n; simp [Samples.scope]
  refStr := by
    intro l t h
    unfold SynTy.isBare at h
    split at h <;> simp only [beq_iff_eq, Bool.false_eq_true] at h <;> subst h <;> simp [Samples.scope]
  refSlice := by intro l t; simp [Samples.scope]

open Samples in
/-- `#[speedy(length_type = u32)] data: Vec<u8>` and `data: Bytes`, `name: String`. -/
example : (∃ F, synFields scope false [⟨[.lengthType .u32], .app "Vec" (.one (.name "u8")), .unit⟩, ⟨[], .name "String", .unit⟩] = .ok F) ∧
    (∃ F, synFields scope false [⟨[], .name "Bytes", .unit⟩, ⟨[], .name "String", .unit⟩] = .ok F) ∧
    SameFields scope scope [⟨[.lengthType .u32], .app "Vec" (.one (.name "u8")), .unit⟩, ⟨[], .name "String", .unit⟩]
      [⟨[], .name "Bytes", .unit⟩, ⟨[], .name "String", .unit⟩] := by
  refine ⟨⟨_, rfl⟩, ⟨_, rfl⟩, .cons ⟨?_, rfl, .left .nil⟩ (.cons ⟨rfl, rfl, .nil⟩ .nil)⟩
  simp [SynTy.app, SynGens.one, SynTy.name, scope, primNames, List.lookup]

/-- `length_type = u8` needs a type which the macro recognises. -/
example : synFields Samples.scope false [⟨[.lengthType .u8], .name "Bytes", .unit⟩] = .error .badLengthType := rfl

open Samples in
/-- A type is recognised under its usual name only. -/
example : recognised (.app "Vec" (.one (.name "T"))) = true ∧ recognised (.name "Bytes") = false ∧
    recognised (.path false false (.cons "std" .none (.cons "vec" .none (.cons "Vec" (.angle false (.one (.name "T"))) .nil)))) = false ∧
    recognised (.app "HashMap" (.ty (.name "K") (.two (.name "V") (.name "S")))) = false ∧
    recognised (.app "Option" (.one (.app "Cow" (.lifetime "a" (.one (.slice (.name "T"))))))) = true := ⟨rfl, rfl, rfl, rfl, rfl⟩

namespace Samples

/-- `struct Point { x: u16, y: u16 }` without `#[repr(C)]`, if the compiler has swapped the fields. -/
def swappedPoint : Ty := .struct ⟨.rust, 4, 2, [2, 0], true⟩ (.cons {} (.prim .u16) (.cons {} (.prim .u16) .nil))

/-- `#[repr(packed)] struct Point { x: u16, y: Half }` with `type Half = u16`. -/
def packedPoint : Ty := .struct ⟨.packed, 4, 1, [0, 2], true⟩ (.cons {} (.prim .u16) (.cons { opaqueTy := true } (.prim .u16) .nil))

theorem points_source : (Ty.seq .vec point).source = (Ty.seq .vec swappedPoint).source ∧
    (Ty.seq .vec point).source = (Ty.seq .vec packedPoint).source := ⟨rfl, rfl⟩

/-- Only two of them are copied as a whole. -/
theorem points_bulk : isPrimitive x64 point = true ∧ isPrimitive x64 swappedPoint = false ∧ isPrimitive x64 packedPoint = true := by decide

end Samples

open Samples in
example (vs : List Val) (h : hasTy x64 (.seq .vec point) (.list vs)) (h' : hasTy x64 (.seq .vec swappedPoint) (.list vs)) (bs : Bytes)
    (junk : Nat → UInt8) : writeToVec x64 .big (.seq .vec point) (.list vs) junk = .ok bs ↔
      writeToVec x64 .big (.seq .vec swappedPoint) (.list vs) junk = .ok bs :=
  C57_same_format_partial x64_ok points_source.1 (by decide) (by decide) (by decide) (by decide) (by decide) (by decide) h h'

open Samples in
example : readFromBuffer x64 .big (.seq .vec packedPoint) 4096 [0, 0, 0, 1, 0, 5, 0, 6] = .ok (.list [.pair (.num 5) (.pair (.num 6) .unit)]) := by
  have h : writeToVec x64 .big (.seq .vec swappedPoint) (.list [.pair (.num 5) (.pair (.num 6) .unit)]) (fun _ => 0) =
      .ok [0, 0, 0, 1, 0, 5, 0, 6] := by decide
  refine (C57_read_partial (t' := .seq .vec packedPoint) x64_ok (points_source.1.symm.trans points_source.2) (by decide) (by decide)
    (by decide) (by decide) (by decide) (by decide) ?_ ?_ ?_ (by decide) h ⟨by decide, by decide, by decide⟩).1
  · simp [hasTy, hasTyFields, swappedPoint, Prim.size]; decide
  · simp [hasTy, hasTyFields, packedPoint, Prim.size]; decide
  · simp [canon, canonFields, packedPoint]

/-! ## Cases -/

section Cases
open Samples

section
open Samples

/-- `#[speedy(skip)]` does not depend on the type. -/
example := C57_accepted (ρ := scope) (t := .app "Vec" (.one (.name "u8"))) (t' := .name "Bytes") (as := [.skip]) (by simp [RawAttr.needsType])
  .unit

example (v v' : Val) (n n' : Nat) (h : readWithLengthFromBuffer x64 .big swappedPoint 4096 [0, 5, 0, 6] = (.ok v, n))
    (h' : readWithLengthFromBuffer x64 .big packedPoint 4096 [0, 5, 0, 6] = (.ok v', n')) : v = v' ∧ n = n' :=
  C57_plain x64_ok rfl (by decide) (by decide) (by decide) (by decide) (by decide) (by decide) ⟨by decide, by decide, by decide⟩ h h'

example (F F' : Fields) (h : synFields scope false [⟨[.lengthType .u32], .app "Vec" (.one (.name "u8")), .unit⟩] = .ok F)
    (h' : synFields scope false [⟨[], .name "Bytes", .unit⟩] = .ok F') : F.source = F'.source :=
  have hs : SameFields scope scope [⟨[.lengthType .u32], .app "Vec" (.one (.name "u8")), .unit⟩] [⟨[], .name "Bytes", .unit⟩] :=
    .cons ⟨by simp [SynTy.app, SynGens.one, SynTy.name, scope, primNames, List.lookup], rfl, .left .nil⟩ .nil
  C57_spelling hs h h'
end

/-- `Option<Vec<u8>>`. -/
example := parseOpt_meaning scope_std (.app "Option" (.one (.app "Vec" (.one (.name "u8")))))
example := synFields_raw scope_std false []

end Cases

end Verif
