import Verif.Derive
import Verif.PropsRoundTrip
import Verif.Structs

/-!
# What the derive macro accepts: C21 (enum tags)

The theorems are about `deriveEnum` and `getFields`, transcribed from the macro,
and about the code it emits (`decode`).
-/

namespace Verif

/-! ## Fields -/

theorem collectAttrs_varint {f : RawField} : ∀ {as : List RawAttr} {c c' : Collected},
    collectAttrs f as c = .ok c' → (c.varint = true → f.known = true ∧ f.ty = .prim .u64) →
    c'.varint = true → f.known = true ∧ f.ty = .prim .u64
  | [], c, c', h, hc, hv => by
    simp only [collectAttrs, Except.ok.injEq] at h
    subst h; exact hc hv
  | .varint :: as, c, c', h, hc, hv => by
    simp only [collectAttrs] at h
    split at h
    · rename_i h1 h2; exact ⟨h1, h2⟩
    · simp at h
  | .skip :: as, c, c', h, hc, hv => by
    simp only [collectAttrs] at h
    exact collectAttrs_varint h hc hv
  | .defaultOnEof :: as, c, c', h, hc, hv | .length _ :: as, c, c', h, hc, hv
  | .lengthType _ :: as, c, c', h, hc, hv | .constantPrefix _ :: as, c, c', h, hc, hv => by
    simp only [collectAttrs] at h
    split at h
    · simp at h
    · exact collectAttrs_varint h hc hv

/-- The attributes of an accepted field fit its type. -/
theorem finishField_declOk {f : RawField} {c : Collected} {a : Attrs}
    (hv : c.varint = true → f.known = true ∧ f.ty = .prim .u64) (h : finishField f c = .ok a) :
    a.declOk f.ty = true := by
  unfold finishField at h
  split at h
  · simp at h
  rename_i h1
  split at h
  · simp at h
  rename_i h2
  split at h
  · simp at h
  rename_i h3
  simp only [Except.ok.injEq] at h
  subst h
  unfold Attrs.declOk
  simp only [Bool.and_eq_true, Bool.or_eq_true, Bool.not_eq_true']
  refine ⟨?_, ?_⟩
  · rcases hl : c.length with _ | k <;> rcases hlt : c.lengthType with _ | lt
    · rfl
    · simp [hl, hlt] at h1 h2 h3 ⊢
      refine ⟨h3.1, ?_⟩
      have := h3.2
      generalize f.ty = t at this
      cases t <;> simpa [Ty.hasLengthType] using this
    · cases k <;> simp [hl, hlt] at h1 h2 h3 ⊢ <;> exact h2
    · simp [hl, hlt] at h1
  · cases hc : c.varint with
    | false => exact .inl rfl
    | true => obtain ⟨_, h5⟩ := hv hc; rw [h5]; exact .inr rfl

/-- **Fields accepted by the macro** satisfy what the other theorems assume about
declarations (`declOk`): attributes are on types which support them, and
`length = ..` is on the last field. -/
theorem getFields_declOk : ∀ {seen : Bool} {fs : List RawField} {F : Fields}, getFields seen fs = .ok F →
    (∀ f ∈ fs, declOk f.ty = true) → declOkFields F = true
  | _, [], F, h, _ => by
    cases ‹Bool› <;> simp only [getFields, Except.ok.injEq] at h <;> subst h <;> rfl
  | true, _ :: _, F, h, _ => by simp [getFields] at h
  | false, f :: fs, F, h, hd => by
    unfold getFields at h
    split at h
    · simp at h
    rename_i c hc
    split at h
    · simp at h
    rename_i a ha
    split at h
    · simp at h
    rename_i rest hr
    simp only [Except.ok.injEq] at h
    subst h
    have h1 := finishField_declOk (collectAttrs_varint hc (by simp)) ha
    have h2 := getFields_declOk hr fun g hg => hd g (List.mem_cons_of_mem _ hg)
    have h3 := hd f (List.mem_cons_self ..)
    simp only [declOkFields, h1, h2, h3, Bool.and_self, Bool.true_and]
    split
    · rename_i a' t' fs' hlen
      have : c.length = some none := by
        unfold finishField at ha
        split at ha
        · simp at ha
        split at ha
        · simp at ha
        split at ha
        · simp at ha
        simp only [Except.ok.injEq] at ha
        subst ha
        simp only at hlen
        generalize c.length = x at hlen ⊢
        generalize c.lengthType = y at hlen
        rcases x with _ | _ | _ <;> rcases y with _ | _ <;> simp_all
      rw [this] at hr
      simp only at hr
      cases fs with
      | nil => simp [getFields] at hr
      | cons g gs => simp [getFields] at hr
    · rfl

/-! ## Tags -/

/-- What the source says about the tag of a variant: the attribute, otherwise the
discriminant, otherwise one more than the previous tag, starting from 0. -/
def TagRule (v : RawVariant) (prev : Option Nat) (tag : Nat) : Prop :=
  (∀ n, v.tags = [n] → tag = n) ∧
  (∀ n, v.tags = [] → v.discr = some (.lit n) → tag = n) ∧
  (v.tags = [] → v.discr = none → tag = match prev with | some p => p + 1 | none => 0)

/-- `tags` are given to `vs` by the rule. -/
def TagsFor : Option Nat → List RawVariant → List Nat → Prop
  | _, [], [] => True
  | prev, v :: vs, tag :: tags => TagRule v prev tag ∧ TagsFor (some tag) vs tags
  | _, _, _ => False

theorem chooseTag_rule {max : Nat} {prev : Option Nat} {v : RawVariant} {tag : Nat}
    (h : chooseTag max prev v = .ok tag) : TagRule v prev tag ∧ tag ≤ max := by
  unfold chooseTag at h
  split at h
  · simp at h
  · rename_i tg htg
    split at h
    · simp at h
    simp only [Except.ok.injEq] at h
    subst h
    refine ⟨⟨?_, ?_, ?_⟩, by omega⟩
    · intro n hn
      rw [hn] at htg
      simp only [variantTag] at htg
      split at htg <;> simp at htg
      exact htg.symm
    · intro n hn; rw [hn] at htg; simp [variantTag] at htg
    · intro hn; rw [hn] at htg; simp [variantTag] at htg
  · rename_i htg
    have hne : ∀ n, v.tags ≠ [n] := by
      intro n hn; rw [hn] at htg; simp only [variantTag] at htg; split at htg <;> simp at htg
    split at h
    · rename_i hd
      split at h
      · split at h
        · simp at h
        simp only [Except.ok.injEq] at h
        subst h
        exact ⟨⟨fun n hn => absurd hn (hne n), fun n _ hn => by rw [hd] at hn; simp at hn, fun _ _ => rfl⟩, by omega⟩
      · simp only [Except.ok.injEq] at h
        subst h
        exact ⟨⟨fun n hn => absurd hn (hne n), fun n _ hn => by rw [hd] at hn; simp at hn, fun _ _ => rfl⟩, by omega⟩
    · rename_i n hd
      split at h
      · split at h
        · simp at h
        simp only [Except.ok.injEq] at h
        subst h
        exact ⟨⟨fun n hn => absurd hn (hne n), fun n _ hn => by rw [hd] at hn; simp at hn; exact hn,
          fun _ hn => by rw [hd] at hn; simp at hn⟩, by omega⟩
      · simp at h
    · simp at h

theorem deriveVariants_tags {max : Nat} : ∀ {vs : List RawVariant} {prev : Option Nat} {seen : List Nat}
    {V : Variants}, deriveVariants max prev seen vs = .ok V →
    V.tags.Nodup ∧ (∀ tag ∈ V.tags, tag ≤ max ∧ tag ∉ seen) ∧ TagsFor prev vs V.tags
  | [], prev, seen, V, h => by
    simp only [deriveVariants, Except.ok.injEq] at h
    subst h
    simp [Variants.tags, TagsFor]
  | v :: vs, prev, seen, V, h => by
    unfold deriveVariants at h
    split at h
    · simp at h
    rename_i tag ht
    split at h
    · simp at h
    rename_i hs
    split at h
    · simp at h
    split at h
    · simp at h
    rename_i rest hr
    simp only [Except.ok.injEq] at h
    subst h
    obtain ⟨h1, h2, h3⟩ := deriveVariants_tags hr
    obtain ⟨h4, h5⟩ := chooseTag_rule ht
    refine ⟨?_, ?_, h4, h3⟩
    · simp only [Variants.tags, List.nodup_cons]
      exact ⟨fun hm => (h2 tag hm).2 (by simp), h1⟩
    · intro tg htg
      simp only [Variants.tags, List.mem_cons] at htg
      rcases htg with rfl | htg
      · exact ⟨h5, hs⟩
      · exact ⟨(h2 tg htg).1, fun hm => (h2 tg htg).2 (by simp [hm])⟩

theorem deriveVariants_declOk {max : Nat} : ∀ {vs : List RawVariant} {prev : Option Nat} {seen : List Nat}
    {V : Variants}, deriveVariants max prev seen vs = .ok V →
    (∀ v ∈ vs, ∀ f ∈ v.fields, declOk f.ty = true) → declOkVariants V = true
  | [], prev, seen, V, h, _ => by
    simp only [deriveVariants, Except.ok.injEq] at h
    subst h
    rfl
  | v :: vs, prev, seen, V, h, hd => by
    unfold deriveVariants at h
    split at h
    · simp at h
    split at h
    · simp at h
    split at h
    · simp at h
    rename_i fs hf
    split at h
    · simp at h
    rename_i rest hr
    simp only [Except.ok.injEq] at h
    subst h
    simp only [declOkVariants, Bool.and_eq_true]
    exact ⟨getFields_declOk hf (hd v (by simp)), deriveVariants_declOk hr fun w hw => hd w (by simp [hw])⟩

/-- **C37**, declarations: only the last field of an accepted struct or variant has `#[speedy(length = ..)]`. -/
theorem C37_last : ∀ {rs : List RawField} {fs : Fields}, getFields false rs = .ok fs → ∀ (i : Nat) (f : RawField) (c : Collected),
    rs[i]? = some f → collectAttrs f f.attrs {} = .ok c → c.length = some none → i + 1 = rs.length
  | [], _, _, i, f, c, hi, _, _ => by simp at hi
  | r :: rs, fs, h, i, f, c, hi, hc, hl => by
    unfold getFields at h
    split at h
    · cases h
    rename_i c' hc'
    split at h
    · cases h
    split at h
    · cases h
    rename_i rest hr
    cases i with
    | zero =>
      simp only [List.getElem?_cons_zero, Option.some.injEq] at hi
      subst hi
      rw [hc] at hc'
      cases hc'
      simp only [hl] at hr
      cases rs with
      | nil => rfl
      | cons => simp [getFields] at hr
    | succ i =>
      simp only [List.getElem?_cons_succ] at hi
      split at hr
      · cases rs with
        | nil => simp at hi
        | cons => simp [getFields] at hr
      · have := C37_last hr i f c hi hc hl
        simp only [List.length_cons]
        omega

section
variable {name : Nat} {tagTypes : List LenTy} {peeks : Nat} {vs : List RawVariant} {d : EnumDesc} {V : Variants}

theorem deriveEnum_ok (h : deriveEnum name tagTypes peeks vs = .ok (d, V)) :
    deriveVariants d.tagTy.max none [] vs = .ok V ∧ d.tagTy = tagTypes.headD .u32 ∧ (d.peek = true ↔ peeks = 1) ∧
      tagTypes.length ≤ 1 ∧ peeks ≤ 1 := by
  unfold deriveEnum at h
  split at h
  · simp at h
  rename_i ht
  split at h
  · simp at h
  rename_i hp
  simp only at h
  split at h
  · simp at h
  rename_i V' hV
  simp only [Except.ok.injEq, Prod.mk.injEq] at h
  obtain ⟨rfl, rfl⟩ := h
  refine ⟨hV, rfl, by simp, ?_, by omega⟩
  match tagTypes, ht with
  | [], _ => simp
  | [_], _ => simp
  | a :: b :: l, ht => exact absurd rfl (ht a b l)

/-- C21: the attributes of an accepted enum are as written: none is ignored. -/
theorem C21_attributes (h : deriveEnum name tagTypes peeks vs = .ok (d, V)) :
    (tagTypes = [] ∧ d.tagTy = .u32 ∨ tagTypes = [d.tagTy]) ∧ (peeks = 0 ∧ d.peek = false ∨ peeks = 1 ∧ d.peek = true) := by
  obtain ⟨_, h2, h3, h4, h5⟩ := deriveEnum_ok h
  constructor
  · match tagTypes, h2, h4 with
    | [], h2, _ => exact .inl ⟨rfl, h2⟩
    | [t], h2, _ => exact .inr (by rw [h2]; rfl)
  · by_cases hp : peeks = 1
    · exact .inr ⟨hp, h3.2 hp⟩
    · exact .inl ⟨by omega, by simpa using fun hd => hp (h3.1 hd)⟩

/-- **C21**, declarations: the tags of an accepted enum are pairwise different, fit
in the tag type, and are those which the source asks for. -/
theorem C21_tags (h : deriveEnum name tagTypes peeks vs = .ok (d, V)) :
    V.tags.Nodup ∧ (∀ tag ∈ V.tags, tag ≤ d.tagTy.max) ∧ d.tagTy = tagTypes.headD .u32 ∧
      TagsFor none vs V.tags := by
  obtain ⟨h1, h2, _⟩ := deriveEnum_ok h
  obtain ⟨h3, h4, h5⟩ := deriveVariants_tags h1
  exact ⟨h3, fun tag ht => (h4 tag ht).1, h2, h5⟩

/-- C21: an accepted enum satisfies what the other theorems assume about
declarations. -/
theorem C21_accepted (h : deriveEnum name tagTypes peeks vs = .ok (d, V))
    (hd : ∀ v ∈ vs, ∀ f ∈ v.fields, declOk f.ty = true) : declOk (.enum d V) = true := by
  obtain ⟨h1, h2, _, _⟩ := C21_tags h
  obtain ⟨h3, _, _⟩ := deriveEnum_ok h
  simp only [declOk, Bool.and_eq_true, decide_eq_true_eq, List.all_eq_true]
  exact ⟨⟨h1, h2⟩, deriveVariants_declOk h3 hd⟩

end

/-! ## Reading tags -/

/-- Fields of the variant with the given tag, and its index. -/
def Variants.find (tag : Nat) : Variants → Option (Nat × Fields)
  | .nil => none
  | .cons tag' fs vs => if tag = tag' then some (0, fs) else (vs.find tag).map fun r => (r.1 + 1, r.2)

theorem find_none {tag : Nat} : ∀ {vs : Variants}, tag ∉ vs.tags → vs.find tag = none
  | .nil, _ => rfl
  | .cons tag' fs vs, h => by
    simp only [Variants.tags, List.mem_cons, not_or] at h
    simp [Variants.find, h.1, find_none h.2]

theorem parseVariants_find {T : Target} {e : Endian} {tag : Nat} : ∀ (vs : Variants) (i : Nat),
    parseVariants T e vs tag i = match vs.find tag with
      | none => P.fail .invalidEnumVariant
      | some (j, fs) => P.map (.variant (i + j)) (parseFields T e fs [])
  | .nil, i => by simp [parseVariants, Variants.find]
  | .cons tag' fs vs, i => by
    simp only [parseVariants, Variants.find]
    split
    · simp
    · rw [parseVariants_find vs (i + 1)]
      cases vs.find tag with
      | none => rfl
      | some r => simp only [Option.map_some, Nat.add_assoc, Nat.add_comm 1]

theorem pPeek_ok {α : Type} {f : Bytes → α} {n : Nat} {bs rest : Bytes} (h : bs.length = n) :
    P.map f (pPeek n) (bs ++ rest) = .ok (f bs) (bs ++ rest) := by
  subst h
  refine P.map_ok ?_
  unfold pPeek
  rw [if_pos (by simp)]
  simp

theorem pTag_ok {e : Endian} {d : EnumDesc} {n : Nat} (hn : n ≤ d.tagTy.max)
    (hp : d.peek = true → d.tagTy = .varint → n < 128) (rest : Bytes) :
    ∃ rest', pTag e d (wireNum e d.tagTy n ++ rest) = .ok n rest' := by
  obtain ⟨lt, pk⟩ := d
  have hv : lt.max < 256 ^ 8 := by cases lt <;> decide
  have key : ∀ m, n < 256 ^ m → pPeekNum e m (e.bytes m n ++ rest) = .ok n (e.bytes m n ++ rest) := by
    intro m hm
    unfold pPeekNum
    rw [pPeek_ok (by simp), Endian.num_bytes hm]
  cases pk
  · refine ⟨rest, ?_⟩
    cases lt <;> simp only [LenTy.max] at hn <;> simp only [pTag, wireNum, LenTy.minSize]
    case varint => exact (codes_varint (tl := false) (st := false) (by omega)).1 rest (by simp)
    all_goals exact (codes_num (tl := false) (st := false) (by omega)).1 rest (by simp)
  · cases lt <;> simp only [LenTy.max] at hn <;> simp only [pTag, wireNum, LenTy.minSize]
    case varint =>
      have hn := hp rfl rfl
      obtain ⟨b, h1, h2, h3⟩ := specVarint_cons (v := n) (by omega)
      have hx : specExtra n = 0 := by unfold specExtra; simp only [hn, if_true]
      rw [hx] at h1 h2 h3
      refine ⟨specVarint n ++ rest, ?_⟩
      rw [h1]
      unfold pPeekVarint
      have hp1 : pPeek 1 ([b] ++ rest) = .ok [b] ([b] ++ rest) := by simp [pPeek]
      refine (P.bind_ok hp1).trans ?_
      have h4 := pPeek_ok (f := specVarintVal b) (n := 0) (bs := []) (rest := [b] ++ rest) rfl
      have h5 : specVarintVal b [] = n := h3
      rw [h5] at h4
      rw [show hd [b] = b from rfl, h2]
      exact h4
    all_goals exact ⟨_, key _ (by omega)⟩

theorem parse_unknown {T : Target} {e : Endian} {d : EnumDesc} {V : Variants} {n : Nat} (hn : n ≤ d.tagTy.max)
    (hp : d.peek = true → d.tagTy = .varint → n < 128) (hk : n ∉ V.tags) (cx : Cx) (rest : Bytes) :
    parse T e (.enum d V) cx (wireNum e d.tagTy n ++ rest) = .fail .invalidEnumVariant := by
  simp only [parse]
  obtain ⟨r, h⟩ := pTag_ok hn hp rest
  rw [P.bind_ok h, parseVariants_find, find_none hk]
  rfl

section
variable {T : Target} (hT : T.Ok) {e : Endian} {d : EnumDesc} {V : Variants} {n : Nat} {rest : Bytes}
  (hl : layoutOk T (.enum d V) = true) (hn : n ≤ d.tagTy.max) (hp : d.peek = true → d.tagTy = .varint → n < 128)
  (hk : n ∉ V.tags)
include hT hl hn hp hk

/-- **C21**, reading: a tag which no variant has is rejected with
`InvalidEnumVariant`, by every reader wherever it is.

Missing: `peek_tag` with a varint tag above 127, where `peek_u64_varint` computes
another number (C15); see `C21_false`. -/
theorem C21_unknown_reader_partial {σ : Type} {R : ReaderOps σ} {Inv : σ → Prop} {pend : σ → Bytes}
    (L : Lawful R Inv pend) {s : σ} (hs : Inv s) (hi : pend s = wireNum e d.tagTy n ++ rest)
    (hr : noRefs (.enum d V) = true ∨ Borrows R Inv) (hf : Fits T (wireNum e d.tagTy n ++ rest)) :
    ((decode T e (.enum d V) Cx.std).run R s).1 = .error .invalidEnumVariant := by
  have h := decode_refines L hT (B := (wireNum e d.tagTy n ++ rest).length) hf.mem hf.fuel (e := e)
    (.enum d V) Cx.std hl hr s hs (by rw [hi]; exact Nat.le_refl _)
  rw [hi, parse_unknown hn hp hk] at h
  obtain ⟨er, h1, h2, _⟩ := h
  rw [h1]
  simp only [Err.isEof, Bool.false_eq_true, if_false] at h2
  rw [h2]

/-- C21 for `read_from_buffer`. -/
theorem C21_unknown_buffer_partial {base : Nat} (hm : InMem T base (wireNum e d.tagTy n ++ rest))
    (hmin : minBytes T (.enum d V) ≤ (wireNum e d.tagTy n ++ rest).length) :
    readFromBuffer T e (.enum d V) base (wireNum e d.tagTy n ++ rest) = .error .invalidEnumVariant := by
  unfold readFromBuffer readWithLengthFromBuffer
  rw [if_neg (by omega)]
  exact C21_unknown_reader_partial hT hl hn hp hk (bufferReader_lawful T.toHost) (BufSt.init_inv hm.top)
    (BufSt.init_pend _ _) (.inr (bufferReader_borrows _ _)) hm.fits

/-- C21 for both stream readers. -/
theorem C21_unknown_stream_partial {grow : Nat → Nat} (hg : ∀ n, n ≤ grow n) {b : Bool} {src : Src} (hc : src.Clean)
    (hi : src.data = wireNum e d.tagTy n ++ rest) (hr : noRefs (.enum d V) = true) (hf : Fits T src.data) :
    (readFromStream T e (.enum d V) grow b src).1 = .error .invalidEnumVariant :=
  C21_unknown_reader_partial hT hl hn hp hk (streamReader_lawful hg) (StreamSt.init_inv hc)
    (by rw [StreamSt.init_pend]; exact hi) (.inl hr) (hi ▸ hf)

end

theorem decodeVariants_tag {T : Target} {e : Endian} {σ : Type} {R : ReaderOps σ} {s s' : σ} {tag : Nat} {v : Val}
    {j : Nat} : ∀ (vs : Variants) (i : Nat), (decodeVariants T e vs tag i).run R s = (.ok (.variant j v), s') →
    i ≤ j ∧ vs.tags[j - i]? = some tag
  | .nil, i, h => by simp [decodeVariants, M.fail, Prog.run] at h
  | .cons tag' fs vs, i, h => by
    simp only [decodeVariants] at h
    split at h
    · rename_i ht
      obtain ⟨a, _, h2⟩ := M.run_map_inv h
      simp only [Val.variant.injEq] at h2
      rw [← h2.1, ht]
      simp [Variants.tags]
    · obtain ⟨h1, h2⟩ := decodeVariants_tag vs (i + 1) h
      refine ⟨by omega, ?_⟩
      have : j - i = (j - (i + 1)) + 1 := by omega
      rw [this]
      simpa [Variants.tags] using h2

/-- **C21**, reading: whatever the reader and its input, a value of the `i`-th variant
is only read from an input which starts with the tag of that variant, also with `peek_tag` (but not with both
`peek_tag` and varint tags: `C21_false`). -/
theorem C21_only_own_tag {T : Target} {e : Endian} {d : EnumDesc} {V : Variants} {cx : Cx} {i : Nat} {v : Val}
    {σ : Type} {R : ReaderOps σ} {Inv : σ → Prop} {pend : σ → Bytes} (L : Lawful R Inv pend) {s : σ} (hs : Inv s)
    (hp : d.tagTy = .varint → d.peek = false) (h : ((decode T e (.enum d V) cx).run R s).1 = .ok (.variant i v)) :
    ∃ tag, V.tags[i]? = some tag ∧
      if d.tagTy = .varint then ∃ rest, pVarint (pend s) = .ok tag rest
      else d.tagTy.minSize ≤ (pend s).length ∧ e.num ((pend s).take d.tagTy.minSize) = tag := by
  unfold decode at h
  obtain ⟨tag, s', h1, h2⟩ := M.run_bind_inv (Prod.ext h rfl)
  refine ⟨tag, by simpa using (decodeVariants_tag V 0 h2).2, ?_⟩
  have h3 := refines_tag (B := (pend s).length) L (e := e) T.toHost d s hs (Nat.le_refl _)
  have h4 : ∃ rest, pTag e d (pend s) = .ok tag rest := by
    rw [h1] at h3
    have := tot_tag e d (pend s)
    rcases hx : pTag e d (pend s) with ⟨a, rest⟩ | er | er | _
    · rw [hx] at h3
      have := h3.1
      simp only [Except.ok.injEq] at this
      exact ⟨rest, by rw [this]⟩
    · rw [hx] at h3; obtain ⟨_, h3, _⟩ := h3; simp at h3
    · rw [hx] at h3; obtain ⟨_, h3, _⟩ := h3; simp at h3
    · exact absurd hx this
  obtain ⟨rest, h4⟩ := h4
  obtain ⟨lt, pk⟩ := d
  simp only at hp
  have hnum : ∀ n, pNum e n (pend s) = .ok tag rest → n ≤ (pend s).length ∧ e.num ((pend s).take n) = tag := by
    intro n hn
    obtain ⟨a, r, k1, k2⟩ := pBind_ok (show P.bind _ _ _ = _ from hn)
    unfold pTake at k1
    split at k1
    · simp only [PRes.ok.injEq] at k1
      simp only [P.pure, PRes.ok.injEq] at k2
      rename_i hle
      exact ⟨hle, by rw [k1.1]; exact k2.1⟩
    · simp at k1
  have hpeek : ∀ n, pPeekNum e n (pend s) = .ok tag rest → n ≤ (pend s).length ∧ e.num ((pend s).take n) = tag := by
    intro n hn
    obtain ⟨a, r, k1, k2⟩ := pBind_ok (show P.bind _ _ _ = _ from hn)
    unfold pPeek at k1
    split at k1
    · simp only [PRes.ok.injEq] at k1
      simp only [P.pure, PRes.ok.injEq] at k2
      rename_i hle
      exact ⟨hle, by rw [k1.1]; exact k2.1⟩
    · simp at k1
  cases lt
  case varint =>
    cases hp rfl
    exact ⟨rest, h4⟩
  all_goals
    rw [if_neg (by simp)]
    cases pk
    · exact hnum _ h4
    · exact hpeek _ h4

open Samples in
/-- `#[speedy(tag_type = u8)] enum E { A, #[speedy(tag = 7)] B, C, D = 3 }` has the tags
0, 7, 8, 3. -/
example : (deriveEnum 0 [.u8] 0 [⟨[], none, []⟩, ⟨[7], none, []⟩, ⟨[], none, []⟩, ⟨[], some (.lit 3), []⟩]).map
    (fun r => r.2.tags) = .ok [0, 7, 8, 3] := by rfl

/-- Rejected: `A = 255, B` (does not fit), `A = 1, B = 0, C` (same tag), `length = ..` on the
first of two fields. -/
example : deriveEnum 0 [.u8] 0 [⟨[], some (.lit 255), []⟩, ⟨[], none, []⟩] = .error .tooBig ∧
    deriveEnum 0 [.u8] 0 [⟨[], some (.lit 1), []⟩, ⟨[], some (.lit 0), []⟩, ⟨[], none, []⟩] = .error .sameTag ∧
    getFields false [⟨[.length none], .str .owned, true, .bytes []⟩, ⟨[], .bool, true, .bool false⟩] =
      .error .notLast := ⟨rfl, rfl, rfl⟩

/-- `Message` of the samples, as the macro sees it. -/
example : getFields false [⟨[.lengthType .u8], .str .owned, true, .bytes []⟩, ⟨[], .prim .u32, true, .num 0⟩,
    ⟨[.constantPrefix [0x53]], Samples.shape, false, .unit⟩] =
    .ok (.cons { len := some (.typed .u8), dflt := .bytes [] } (.str .owned)
      (.cons { dflt := .num 0 } (.prim .u32) (.cons { pre := [0x53], opaqueTy := true } Samples.shape .nil))) := rfl

/-- `#[speedy(tag_type = u64_varint, peek_tag)] enum Peeked { #[speedy(tag = 0x181)] Other }` -/
def peeked : Ty := .enum ⟨.varint, true, 0⟩ (.cons 0x181 .nil .nil)

open Samples in
/-- The full claim **C21** is false: with `peek_tag` and a varint tag, the input which
starts with the tag 0x105 is accepted by an enum whose only tag is 0x181. -/
theorem C21_false : ∃ (d : EnumDesc) (V : Variants) (n : Nat) (v : Val), peeked = .enum d V ∧
    deriveEnum 0 [.varint] 1 [⟨[0x181], none, []⟩] = .ok (d, V) ∧ n ∉ V.tags ∧
    readFromBuffer x64 .little (.enum d V) 4096 (wireNum .little d.tagTy n) = .ok v :=
  ⟨⟨.varint, true, 0⟩, .cons 0x181 .nil .nil, 0x105, .variant 0 .unit, rfl, rfl, by decide, by decide⟩

open Samples in
/-- `Shape` has the tags 3 and 7. -/
example : readFromBuffer x64 .little shape 4096 [5, 1, 2, 3] = .error .invalidEnumVariant :=
  C21_unknown_buffer_partial (rest := [1, 2, 3]) (n := 5) (d := ⟨.u8, false, 0⟩) x64_ok (by decide) (by decide) (by simp) (by decide)
    ⟨by decide, by decide, by decide⟩ (by decide)

open Samples in
example : (readFromStream x64 .little shape (· + 100) false ⟨[5, 1, 2, 3], [.give 1]⟩).1 = .error .invalidEnumVariant :=
  C21_unknown_stream_partial (rest := [1, 2, 3]) (n := 5) (d := ⟨.u8, false, 0⟩) x64_ok (by decide) (by decide) (by simp) (by decide)
    (fun n => by omega) (by simp [Src.Clean]) rfl (by decide) ⟨by decide, by decide⟩

open Samples in
example : ∃ tag, [3, 7][1]? = some tag ∧ 1 ≤ 9 ∧ Endian.little.num ([7, 1, 0, 0, 0, 5, 0, 6, 0].take 1) = tag :=
  C21_only_own_tag (T := x64) (d := ⟨.u8, false, 0⟩) (cx := Cx.std) (i := 1)
    (v := .pair (.list [.pair (.num 5) (.pair (.num 6) .unit)]) .unit)
    (V := .cons 3 .nil (.cons 7 (.cons {} (.seq .vec point) .nil) .nil)) (bufferReader_lawful x64.toHost)
    (s := BufSt.init 4096 [7, 1, 0, 0, 0, 5, 0, 6, 0]) (BufSt.init_inv (by decide)) (fun _ => rfl) (by decide)

/-! ## Cases -/

section Cases
open Samples

/-- The accepted enumeration above. -/
example : [0, 7, 8, 3].Nodup ∧ (∀ tag ∈ [0, 7, 8, 3], tag ≤ 255) ∧ ([LenTy.u8] = [.u8] ∧ 0 = 0) ∧
    declOk (.enum ⟨.u8, false, 0⟩ (.cons 0 .nil (.cons 7 .nil (.cons 8 .nil (.cons 3 .nil .nil))))) = true := by
  have h : deriveEnum 0 [.u8] 0 [⟨[], none, []⟩, ⟨[7], none, []⟩, ⟨[], none, []⟩, ⟨[], some (.lit 3), []⟩] =
    .ok (⟨.u8, false, 0⟩, .cons 0 .nil (.cons 7 .nil (.cons 8 .nil (.cons 3 .nil .nil)))) := rfl
  refine ⟨(C21_tags h).1, (C21_tags h).2.1, ?_, C21_accepted h (by simp)⟩
  have h1 := C21_attributes h
  exact ⟨h1.1.resolve_left (by simp), (h1.2.resolve_right (by simp)).1⟩

open Samples in
example : ((decode x64 .little shape Cx.std).run (copyingReader x64.toHost) (BufSt.init 4096 [5, 1, 2, 3])).1 =
    .error .invalidEnumVariant :=
  C21_unknown_reader_partial (rest := [1, 2, 3]) (n := 5) (d := ⟨.u8, false, 0⟩) x64_ok (by decide) (by decide) (by simp) (by decide)
    (copyingReader_lawful _) (BufSt.init_inv (by decide)) (BufSt.init_pend _ _) (.inl (by decide)) ⟨by decide, by decide⟩

example : 1 + 1 = 2 :=
  C37_last (rs := [⟨[], .prim .u8, true, .num 0⟩, ⟨[.length none], .seq .vec (.prim .u16), true, .list []⟩]) (fs := _) rfl
    1 ⟨[.length none], .seq .vec (.prim .u16), true, .list []⟩ _ rfl rfl rfl

example : declOkFields (.cons { dflt := .num 0, varint := true } (.prim .u64) (.cons { len := some (.typed .u8), dflt := .unit } (.str .owned) .nil)) = true :=
  getFields_declOk (seen := false) (fs := [⟨[.varint], .prim .u64, true, .num 0⟩, ⟨[.lengthType .u8], .str .owned, true, .unit⟩]) rfl
    (by simp [declOk])

end Cases

end Verif
