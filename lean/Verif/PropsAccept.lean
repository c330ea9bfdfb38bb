import Verif.PropsOrder

/-!
# Exactly these declarations are accepted: C75

A specification of what the attributes of a declaration mean, as a relation between what is written and the type which is derived, and the proof
that the macro accepts a declaration with some result if and only if the two are related.
-/

namespace Verif

/-! ## Specification -/

/-- The items in all `#[speedy(...)]` are these, and all are spelled correctly. -/
def Written {α : Type} (attrs : List (OuterAttr α)) (w : List α) : Prop := items attrs = w.map some

/-- What the items `w` of a field mean. -/
structure FieldRule (f : SrcField) (w : List RawAttr) (a : Attrs) : Prop where
  /-- only `skip` and `varint` may be repeated -/
  once : w.Pairwise fun x y => x.kind = y.kind → x = .skip ∨ x = .varint
  skip : a.skip = true ↔ .skip ∈ w
  eof : a.defaultOnEof = true ↔ .defaultOnEof ∈ w
  varint : a.varint = true ↔ .varint ∈ w
  expr : ∀ k, a.len = some (.expr k) ↔ .length (some k) ∈ w
  rest : a.len = some .untilEof ↔ .length none ∈ w
  typed : ∀ t, a.len = some (.typed t) ↔ .lengthType t ∈ w
  /-- an empty prefix is none -/
  pre : ∀ b bs, a.pre = b :: bs ↔ .constantPrefix (b :: bs) ∈ w
  dflt : a.dflt = f.dflt
  opaqueTy : a.opaqueTy = !f.known
  lengthFits : ∀ k, .length k ∈ w → f.known = true ∧ f.ty.isContainer = true
  typeFits : ∀ t, .lengthType t ∈ w → f.known = true ∧ (f.ty.isContainer = true ∨ ∃ u, f.ty = .option u ∧ u.isContainer = true)
  varintFits : .varint ∈ w → f.known = true ∧ f.ty = .prim .u64

/-- What the fields of a struct or variant mean: each by itself, in the order in which they are written; `length = ..` is on the last one. -/
def FieldsRule : List SrcField → Fields → Prop
  | [], .nil => True
  | f :: fs, .cons a t F =>
    t = f.ty ∧ (∃ w, Written f.attrs w ∧ FieldRule f w a) ∧ (a.len = some .untilEof → fs = []) ∧ FieldsRule fs F
  | _, _ => False

/-- The tag of a variant: what the attribute says, otherwise the number after `=`, otherwise one more than the previous tag, starting from 0. -/
def TagOf : List Nat → Option Discr → Option Nat → Nat → Prop
  | [n], _, _, tag => tag = n
  | [], some (.lit n), _, tag => tag = n
  | [], none, some p, tag => tag = p + 1
  | [], none, none, tag => tag = 0
  | _, _, _, _ => False

/-- What the variants of an enum mean, without the condition that tags are different. -/
def VariantsRule (max : Nat) : Option Nat → List SrcVariant → Variants → Prop
  | _, [], .nil => True
  | prev, v :: vs, .cons tag F V =>
    (∃ w, Written v.attrs w ∧ TagOf w v.discr prev tag) ∧ tag ≤ max ∧ FieldsRule v.fields F ∧ VariantsRule max (some tag) vs V
  | _, _, _ => False

/-! ## Lemmas -/

theorem parseItems_ok {α : Type} : ∀ {l : List (Option α)} {w : List α}, parseItems l = .ok w ↔ l = w.map some
  | [], w => by
    simp only [parseItems, Except.ok.injEq]
    constructor
    · rintro rfl; rfl
    · intro h; cases w <;> simp_all
  | none :: l, w => by
    simp only [parseItems]
    constructor
    · intro h; cases h
    · intro h; cases w <;> simp at h
  | some a :: l, w => by
    simp only [parseItems]
    constructor
    · intro h
      split at h
      · cases h
      · rename_i rest hr
        cases h
        rw [parseItems_ok.1 hr]; rfl
    · intro h
      cases w with
      | nil => simp at h
      | cons b w =>
        simp only [List.map_cons, List.cons.injEq, Option.some.injEq] at h
        obtain ⟨rfl, h⟩ := h
        rw [parseItems_ok.2 h]

theorem parseAttributes_ok {α : Type} {attrs : List (OuterAttr α)} {w : List α} : parseAttributes attrs = .ok w ↔ Written attrs w := by
  rw [parseAttributes_eq, parseItems_ok]; rfl

/-- Has an item of this kind been seen? -/
def Collected.has (c : Collected) : RawAttr → Bool
  | .defaultOnEof => c.defaultOnEof
  | .length _ => c.length.isSome
  | .lengthType _ => c.lengthType.isSome
  | .constantPrefix _ => c.pre.isSome
  | .skip | .varint => false

theorem isU64_iff {f : RawField} : f.isU64 = true ↔ f.known = true ∧ f.ty = .prim .u64 := by
  unfold RawField.isU64
  split <;> simp_all

/-- Items are accepted if none of them comes twice and `varint` fits. -/
theorem collectAttrs_accepts {f : RawField} : ∀ {w : List RawAttr} {c : Collected},
    (w.Pairwise fun x y => x.kind = y.kind → x = .skip ∨ x = .varint) → (∀ x ∈ w, c.has x = false) →
    (.varint ∈ w → f.known = true ∧ f.ty = .prim .u64) → ∃ c', collectAttrs f w c = .ok c'
  | [], c, _, _, _ => ⟨c, rfl⟩
  | x :: w, c, hp, hc, hv => by
    rw [List.pairwise_cons] at hp
    rw [collectAttrs_cons]
    have hx := hc x (by simp)
    have hw : ∀ y ∈ w, c.has y = false := fun y hy => hc y (by simp [hy])
    have hv' : .varint ∈ w → f.known = true ∧ f.ty = .prim .u64 := fun h => hv (by simp [h])
    cases x with
    | defaultOnEof =>
      simp only [Collected.has] at hx
      simp only [stepAttr, hx]
      refine collectAttrs_accepts hp.2 (fun y hy => ?_) hv'
      have h1 := hp.1 y hy
      have h2 := hw y hy
      cases y <;> simp_all [Collected.has, RawAttr.kind]
    | length k =>
      simp only [Collected.has] at hx
      simp only [stepAttr, hx]
      refine collectAttrs_accepts hp.2 (fun y hy => ?_) hv'
      have h1 := hp.1 y hy
      have h2 := hw y hy
      cases y <;> simp_all [Collected.has, RawAttr.kind]
    | lengthType k =>
      simp only [Collected.has] at hx
      simp only [stepAttr, hx]
      refine collectAttrs_accepts hp.2 (fun y hy => ?_) hv'
      have h1 := hp.1 y hy
      have h2 := hw y hy
      cases y <;> simp_all [Collected.has, RawAttr.kind]
    | constantPrefix k =>
      simp only [Collected.has] at hx
      simp only [stepAttr, hx]
      refine collectAttrs_accepts hp.2 (fun y hy => ?_) hv'
      have h1 := hp.1 y hy
      have h2 := hw y hy
      cases y <;> simp_all [Collected.has, RawAttr.kind]
    | skip =>
      simp only [stepAttr]
      refine collectAttrs_accepts hp.2 (fun y hy => ?_) hv'
      have h2 := hw y hy
      cases y <;> simp_all [Collected.has]
    | varint =>
      have hu : f.isU64 = true := isU64_iff.2 (hv (by simp))
      simp only [stepAttr, hu]
      refine collectAttrs_accepts hp.2 (fun y hy => ?_) hv'
      have h2 := hw y hy
      cases y <;> simp_all [Collected.has]

theorem collectAttrs_once {f : RawField} : ∀ {w : List RawAttr} {c c' : Collected}, collectAttrs f w c = .ok c' →
    w.Pairwise fun x y => x.kind = y.kind → x = .skip ∨ x = .varint
  | [], _, _, _ => .nil
  | x :: w, c, c', h => by
    refine .cons (fun y hy hk => ?_) ?_
    · obtain ⟨bs, cs, rfl⟩ := List.append_of_mem hy
      exact C69_once (as := []) (bs := bs) (cs := cs) h hk
    · rw [collectAttrs_cons] at h
      cases hs : stepAttr f.isU64 x c with
      | error e => rw [hs] at h; cases h
      | ok d =>
        rw [hs] at h
        exact collectAttrs_once (show collectAttrs f w d = .ok c' from h)

theorem collectAttrs_varintFits {f : RawField} : ∀ {w : List RawAttr} {c c' : Collected}, collectAttrs f w c = .ok c' →
    .varint ∈ w → f.known = true ∧ f.ty = .prim .u64
  | [], _, _, _, h => by simp at h
  | x :: w, c, c', h, hm => by
    rw [collectAttrs_cons] at h
    cases hs : stepAttr f.isU64 x c with
    | error e => rw [hs] at h; cases h
    | ok d =>
      rw [hs] at h
      rcases List.mem_cons.1 hm with rfl | hm
      · simp only [stepAttr] at hs
        split at hs
        · rename_i hu; exact isU64_iff.1 hu
        · cases hs
      · exact collectAttrs_varintFits (show collectAttrs f w d = .ok c' from h) hm

theorem hasLengthType_iff {t : Ty} : t.hasLengthType = true ↔ t.isContainer = true ∨ ∃ u, t = .option u ∧ u.isContainer = true := by
  cases t <;> simp [Ty.hasLengthType, Ty.isContainer]

/-- The rule leaves no choice. -/
theorem FieldRule.unique {f : SrcField} {w : List RawAttr} {a b : Attrs} (ha : FieldRule f w a) (hb : FieldRule f w b) : a = b := by
  have hs : a.skip = b.skip := Bool.eq_iff_iff.2 (ha.skip.trans hb.skip.symm)
  have he : a.defaultOnEof = b.defaultOnEof := Bool.eq_iff_iff.2 (ha.eof.trans hb.eof.symm)
  have hv : a.varint = b.varint := Bool.eq_iff_iff.2 (ha.varint.trans hb.varint.symm)
  have hd : a.dflt = b.dflt := ha.dflt.trans hb.dflt.symm
  have ho : a.opaqueTy = b.opaqueTy := ha.opaqueTy.trans hb.opaqueTy.symm
  have hp : a.pre = b.pre := by
    cases h : a.pre with
    | cons x xs => exact ((hb.pre x xs).2 ((ha.pre x xs).1 h)).symm
    | nil =>
      cases h' : b.pre with
      | nil => rfl
      | cons x xs => rw [(ha.pre x xs).2 ((hb.pre x xs).1 h')] at h; cases h
  have key : ∀ {a b : Attrs}, FieldRule f w a → FieldRule f w b → ∀ k, a.len = some k → b.len = some k := by
    intro a b ha hb k h
    cases k with
    | expr k => exact (hb.expr k).2 ((ha.expr k).1 h)
    | untilEof => exact hb.rest.2 (ha.rest.1 h)
    | typed t => exact (hb.typed t).2 ((ha.typed t).1 h)
  have hl : a.len = b.len := by
    cases h : a.len with
    | some k => exact (key ha hb k h).symm
    | none =>
      cases h' : b.len with
      | none => rfl
      | some k => rw [key hb ha k h'] at h; cases h
  cases a; cases b; simp_all

/-- What the macro makes of the items of a field follows the rule. -/
theorem finishField_rule {f : SrcField} {w : List RawAttr} {c : Collected} {a : Attrs} (hc : collectAttrs (f.raw w) w {} = .ok c)
    (ha : finishField (f.raw w) c = .ok a) : FieldRule f w a := by
  obtain ⟨h1, h2, h3, h4, h5, h6⟩ := C69_collected hc
  simp at h1 h2 h3 h4 h5 h6
  have hvf := collectAttrs_varintFits hc
  unfold finishField at ha
  split at ha
  · cases ha
  rename_i hb
  split at ha
  · cases ha
  rename_i hlf
  split at ha
  · cases ha
  rename_i htf
  cases ha
  refine ⟨collectAttrs_once hc, h4, h1, h6, ?_, ?_, ?_, ?_, rfl, rfl, ?_, ?_, hvf⟩
  · intro k
    rw [← h2 (some k)]
    rcases c.length with _ | _ | _ <;> rcases c.lengthType with _ | _ <;> simp
  · rw [← h2 none]
    rcases c.length with _ | _ | _ <;> rcases c.lengthType with _ | _ <;> simp
  · intro t
    rw [← h3 t]
    rcases hx : c.length with _ | _ | _ <;> rcases hy : c.lengthType with _ | _ <;> simp_all
  · intro b bs
    rw [← h5 (b :: bs)]
    cases c.pre <;> simp
  · intro k hk
    rw [← h2 k] at hk
    simp [hk] at hlf
    exact hlf
  · intro t ht
    rw [← h3 t] at ht
    simp [ht] at htf
    exact ⟨htf.1, hasLengthType_iff.1 htf.2⟩

/-- What follows the rule is accepted. -/
theorem finishField_accepts {f : SrcField} {w : List RawAttr} {a : Attrs} (h : FieldRule f w a) :
    ∃ c, collectAttrs (f.raw w) w {} = .ok c ∧ finishField (f.raw w) c = .ok a ∧ (c.untilEof = true ↔ a.len = some .untilEof) := by
  obtain ⟨c, hc⟩ := collectAttrs_accepts (f := f.raw w) (c := {}) h.once (fun x _ => by cases x <;> rfl) h.varintFits
  obtain ⟨_, h2, h3, _, _, _⟩ := C69_collected hc
  simp at h2 h3
  have hok : ∃ b, finishField (f.raw w) c = .ok b := by
    unfold finishField
    rw [if_neg, if_neg, if_neg]
    · exact ⟨_, rfl⟩
    · intro hn
      simp only [Bool.and_eq_true, Bool.not_eq_true', Option.isSome_iff_exists] at hn
      obtain ⟨⟨t, ht⟩, hn⟩ := hn
      have := h.typeFits t ((h3 t).1 ht)
      rw [← hasLengthType_iff] at this
      simp [SrcField.raw, this] at hn
    · intro hn
      simp only [Bool.and_eq_true, Bool.not_eq_true', Option.isSome_iff_exists] at hn
      obtain ⟨⟨k, hk⟩, hn⟩ := hn
      have := h.lengthFits k ((h2 k).1 hk)
      simp [SrcField.raw, this] at hn
    · intro hn
      simp only [Bool.and_eq_true, Option.isSome_iff_exists] at hn
      obtain ⟨⟨t, ht⟩, k, hk⟩ := hn
      have ht := (h.typed t).2 ((h3 t).1 ht)
      cases k with
      | none => rw [h.rest.2 ((h2 _).1 hk)] at ht; cases ht
      | some k => rw [(h.expr k).2 ((h2 _).1 hk)] at ht; cases ht
  obtain ⟨b, hb⟩ := hok
  have := (finishField_rule hc hb).unique h
  subst this
  refine ⟨c, hc, hb, ?_⟩
  rw [h.rest, ← h2 none]
  unfold Collected.untilEof
  split <;> simp_all

theorem untilEof_iff {f : SrcField} {w : List RawAttr} {c : Collected} {a : Attrs} (hc : collectAttrs (f.raw w) w {} = .ok c)
    (ha : finishField (f.raw w) c = .ok a) : c.untilEof = true ↔ a.len = some .untilEof := by
  obtain ⟨c', h1, _, h3⟩ := finishField_accepts (finishField_rule hc ha)
  rw [hc] at h1
  cases h1
  exact h3

/-! ## Theorems -/

/-- **C75**, fields: exactly the lists of fields which follow the rule are accepted, with the result which the rule gives. -/
theorem C75_fields : ∀ {fs : List SrcField} {F : Fields}, srcFields false fs = .ok F ↔ FieldsRule fs F
  | [], F => by
    cases F <;> simp [srcFields, FieldsRule]
  | f :: fs, F => by
    constructor
    · intro h
      simp only [srcFields] at h
      split at h
      · cases h
      rename_i w hw
      split at h
      · cases h
      rename_i c hc
      split at h
      · cases h
      rename_i a ha
      split at h
      · cases h
      rename_i rest hr
      cases h
      have hu := untilEof_iff hc ha
      have hlast : a.len = some .untilEof → fs = [] := by
        intro hl
        rw [hu.2 hl] at hr
        cases fs with
        | nil => rfl
        | cons => simp [srcFields] at hr
      refine ⟨rfl, ⟨w, parseAttributes_ok.1 hw, finishField_rule hc ha⟩, hlast, ?_⟩
      cases hue : c.untilEof with
      | false => rw [hue] at hr; exact C75_fields.1 hr
      | true =>
        obtain rfl := hlast (hu.1 hue)
        simp [srcFields] at hr
        subst hr
        trivial
    · intro h
      cases F with
      | nil => exact h.elim
      | cons a t F =>
        obtain ⟨rfl, ⟨w, hw, hf⟩, hl, hF⟩ := h
        obtain ⟨c, hc, ha, hu⟩ := finishField_accepts hf
        simp only [srcFields, parseAttributes_ok.2 hw, hc, ha]
        have : srcFields c.untilEof fs = .ok F := by
          cases hue : c.untilEof with
          | false => exact C75_fields.2 hF
          | true =>
            obtain rfl := hl (hu.1 hue)
            cases F with
            | nil => rfl
            | cons => exact hF.elim
        rw [this]

/-- **C75**, structs. -/
theorem C75_struct {attrs : List (OuterAttr Unit)} {fs : List SrcField} {forced : Bool} {F : Fields} :
    srcStruct attrs fs = .ok (forced, F) ↔ Written attrs (if forced then [()] else []) ∧ FieldsRule fs F := by
  rw [← C75_fields]
  unfold srcStruct
  constructor
  · intro h
    split at h
    · cases h
    rename_i as has
    split at h
    · cases h
    rename_i fo hfo
    split at h
    · cases h
    rename_i G hG
    cases h
    refine ⟨?_, hG⟩
    rw [← C69_once_struct hfo]
    exact parseAttributes_ok.1 has
  · rintro ⟨hw, hF⟩
    rw [parseAttributes_ok.2 hw]
    simp only
    cases forced <;> simp [collectStruct, hF]

theorem srcTag_iff {max : Nat} {prev : Option Nat} {w : List Nat} {discr : Option Discr} {tag : Nat} (hmax : max < 2 ^ 64) :
    (∃ own, collectVariant w none = .ok own ∧ srcTag max prev own discr = .ok tag) ↔ TagOf w discr prev tag ∧ tag ≤ max := by
  match w with
  | [] =>
    simp only [collectVariant, Except.ok.injEq, exists_eq_left', srcTag]
    rcases discr with _ | n | _
    · cases prev with
      | none => simp [TagOf]; constructor <;> intro h <;> omega
      | some p =>
        simp only [TagOf]
        split
        · simp; omega
        · simp; omega
    · simp only [TagOf]
      split
      · split
        · simp; omega
        · simp; omega
      · simp; omega
    · simp [TagOf]
  | [n] =>
    simp only [collectVariant, Option.isSome_none, Bool.false_eq_true, ↓reduceIte, Except.ok.injEq, exists_eq_left', srcTag, TagOf]
    split
    · simp; omega
    · simp; omega
  | m :: n :: w => simp [collectVariant, TagOf]

theorem srcVariants_iff {max : Nat} (hmax : max < 2 ^ 64) : ∀ {vs : List SrcVariant} {prev : Option Nat} {seen : List Nat} {V : Variants},
    srcVariants max prev seen vs = .ok V ↔ VariantsRule max prev vs V ∧ V.tags.Nodup ∧ ∀ tag ∈ V.tags, tag ∉ seen
  | [], prev, seen, V => by
    cases V <;> simp [srcVariants, VariantsRule, Variants.tags]
  | v :: vs, prev, seen, V => by
    constructor
    · intro h
      simp only [srcVariants] at h
      split at h
      · cases h
      rename_i w hw
      split at h
      · cases h
      rename_i own ho
      split at h
      · cases h
      rename_i tag ht
      split at h
      · cases h
      rename_i hs
      split at h
      · cases h
      rename_i F hF
      split at h
      · cases h
      rename_i rest hr
      cases h
      obtain ⟨h1, h2, h3⟩ := (srcVariants_iff hmax).1 hr
      obtain ⟨h4, h5⟩ := (srcTag_iff hmax).1 ⟨own, ho, ht⟩
      refine ⟨⟨⟨w, parseAttributes_ok.1 hw, h4⟩, h5, C75_fields.1 hF, h1⟩, ?_, ?_⟩
      · simp only [Variants.tags, List.nodup_cons]
        exact ⟨fun hm => h3 tag hm (by simp), h2⟩
      · intro tg htg
        simp only [Variants.tags, List.mem_cons] at htg
        rcases htg with rfl | htg
        · exact hs
        · exact fun hm => h3 tg htg (by simp [hm])
    · rintro ⟨h, hn, hs⟩
      cases V with
      | nil => exact h.elim
      | cons tag F V =>
        obtain ⟨⟨w, hw, ht⟩, hm, hF, hV⟩ := h
        obtain ⟨own, ho, ht⟩ := (srcTag_iff hmax).2 ⟨ht, hm⟩
        simp only [Variants.tags, List.nodup_cons] at hn
        have hs' : tag ∉ seen := hs tag (by simp [Variants.tags])
        have hr : srcVariants max (some tag) (tag :: seen) vs = .ok V := by
          refine (srcVariants_iff hmax).2 ⟨hV, hn.2, fun tg htg => ?_⟩
          simp only [List.mem_cons, not_or]
          exact ⟨fun he => hn.1 (he ▸ htg), hs tg (by simp [Variants.tags, htg])⟩
        simp only [srcVariants, parseAttributes_ok.2 hw, ho, ht, C75_fields.2 hF, hr]
        rw [if_neg hs']

theorem LenTy.max_lt (t : LenTy) : t.max < 2 ^ 64 := by cases t <;> decide

/-- **C75**, enums: exactly those are accepted where `tag_type` and `peek_tag` are written at most once each, and every variant has a tag by the
rule which fits in the type of tags, different from the tags of the others. -/
theorem C75_enum {name : Nat} {attrs : List (OuterAttr EnumAttr)} {vs : List SrcVariant} {d : EnumDesc} {V : Variants} :
    srcEnum name attrs vs = .ok (d, V) ↔
      (∃ w, ∃ tagTy : Option LenTy, Written attrs w ∧ w.Perm (tagTy.toList.map EnumAttr.tagType ++ if d.peek then [EnumAttr.peekTag] else []) ∧
        d.tagTy = tagTy.getD .u32) ∧ d.name = name ∧
      VariantsRule d.tagTy.max none vs V ∧ V.tags.Nodup := by
  constructor
  · intro h
    unfold srcEnum at h
    split at h
    · cases h
    rename_i as has
    split at h
    · cases h
    rename_i tt pk hc
    split at h
    · cases h
    rename_i W hW
    cases h
    obtain ⟨h1, h2, _⟩ := (srcVariants_iff (LenTy.max_lt _)).1 hW
    exact ⟨⟨as, tt, parseAttributes_ok.1 has, C69_once_enum hc, rfl⟩, rfl, h1, h2⟩
  · rintro ⟨⟨w, tt, hw, hp, ht⟩, hn, hV, hd⟩
    have hc : collectEnum w none false = .ok (tt, d.peek) := by
      have : collectEnum (tt.toList.map EnumAttr.tagType ++ if d.peek then [EnumAttr.peekTag] else []) none false = .ok (tt, d.peek) := by
        cases tt <;> cases d.peek <;> rfl
      rcases collectEnum_perm hp with he | ⟨_, e, he⟩
      · rw [he, this]
      · rw [he] at this; cases this
    have hr := (srcVariants_iff (LenTy.max_lt d.tagTy) (seen := [])).2 ⟨hV, hd, by simp⟩
    rw [ht] at hr
    simp only [srcEnum, parseAttributes_ok.2 hw, hc, hr]
    cases d
    simp_all

/-- `struct { a: u8, #[speedy(length = a)] b: Vec<u8>, #[speedy(default_on_eof)] #[speedy(skip, skip)] c: u64 }`: what the rule says of it. -/
example (k : List Val → Nat) : FieldsRule
    [⟨[], .prim .u8, true, .num 0⟩, ⟨[.speedy (some [some (.length (some k))])], .seq .vec (.prim .u8), true, .unit⟩,
      ⟨[.speedy (some [some .defaultOnEof]), .other, .speedy (some [some .skip, some .skip])], .prim .u64, true, .num 7⟩]
    (.cons { dflt := .num 0 } (.prim .u8) (.cons { len := some (.expr k), dflt := .unit } (.seq .vec (.prim .u8))
      (.cons { defaultOnEof := true, skip := true, dflt := .num 7 } (.prim .u64) .nil))) :=
  C75_fields.1 rfl

/-- Two fields with `length = ..`: no result follows the rule, whatever they are. -/
example (f : SrcField) (F : Fields) : srcFields false [⟨[.speedy (some [some (.length none)])], .seq .vec (.prim .u8), true, .unit⟩, f] ≠ .ok F := by
  intro h
  obtain _ | ⟨a, t, F⟩ := F
  · exact C75_fields.1 h
  · obtain ⟨_, ⟨w, hw, hr⟩, hl, _⟩ := C75_fields.1 h
    have : w = [.length none] := by
      match w, hw with
      | [_], hw => simp [Written, items] at hw; rw [← hw]
    subst this
    exact absurd (hl (hr.rest.2 (by simp))) (by simp)

/-- `#[speedy(tag_type = u8)] enum { A = 254, B, #[speedy(tag = 3)] C(String) }`; a fourth variant with `#[speedy(tag = 255)]` is rejected. -/
example : VariantsRule 255 none [⟨[], some (.lit 254), []⟩, ⟨[], none, []⟩, ⟨[.speedy (some [some 3])], some .other, [⟨[], .str .owned, true, .bytes []⟩]⟩]
      (.cons 254 .nil (.cons 255 .nil (.cons 3 (.cons { dflt := .bytes [] } (.str .owned) .nil) .nil))) ∧
    srcEnum 0 [.speedy (some [some (.tagType .u8)])] [⟨[], some (.lit 254), []⟩, ⟨[], none, []⟩, ⟨[.speedy (some [some 255])], none, []⟩] =
      .error .sameTag :=
  ⟨(C75_enum (name := 0) (attrs := [.speedy (some [some (.tagType .u8)])]) (d := ⟨.u8, false, 0⟩)).1 rfl |>.2.2.1, rfl⟩

/-! ## `Derive.lean` -/

/-- A field with its items in one `#[speedy(...)]`. -/
def RawField.src (f : RawField) : SrcField := ⟨[.speedy (some (f.attrs.map some))], f.ty, f.known, f.dflt⟩

/-- A variant with its items in one `#[speedy(...)]`; a number which is not an `u64` is not parsed. -/
def RawVariant.src (v : RawVariant) : SrcVariant :=
  ⟨[.speedy (some (v.tags.map fun n => if n < 2 ^ 64 then some n else none))], v.discr, v.fields.map RawField.src⟩

/-- `Derive.lean` does with items what `Attributes.lean` does with attributes in which they are written. -/
theorem getFields_src : ∀ (b : Bool) (fs : List RawField), srcFields b (fs.map RawField.src) = getFields b fs
  | true, [] | false, [] => rfl
  | true, _ :: _ => rfl
  | false, f :: fs => by
    have hp : parseAttributes f.src.attrs = .ok f.attrs := parseAttributes_ok.2 (by simp [Written, RawField.src, items])
    simp only [List.map_cons, srcFields, hp, getFields]
    have : f.src.raw f.attrs = f := rfl
    rw [this]
    cases collectAttrs f f.attrs {} with
    | error e => rfl
    | ok c =>
      simp only
      cases finishField f c with
      | error e => rfl
      | ok a =>
        simp only
        rw [getFields_src c.untilEof fs]
        rfl

theorem chooseTag_src (max : Nat) (prev : Option Nat) (v : RawVariant) : SameOutcome (chooseTag max prev v)
    (match parseAttributes v.src.attrs with
      | .error er => .error er
      | .ok w => match collectVariant w none with
        | .error er => .error er
        | .ok own => srcTag max prev own v.discr) := by
  obtain ⟨tags, discr, fields⟩ := v
  match tags with
  | [] => exact .refl _
  | [n] =>
    simp only [RawVariant.src, parseAttributes, List.map_cons, List.map_nil, chooseTag, variantTag]
    by_cases h : n < 2 ^ 64
    · rw [if_pos h, if_pos h]; exact .refl _
    · rw [if_neg h, if_neg h]; exact .err _ _
  | m :: n :: w =>
    simp only [chooseTag, variantTag]
    split
    · exact .err _ _
    · rename_i as has
      have : 2 ≤ as.length := by
        have h := congrArg List.length (parseAttributes_ok.1 has)
        simp [RawVariant.src, items] at h
        omega
      match as, this with
      | _ :: _ :: _, _ => exact .err _ _

theorem deriveVariants_src (max : Nat) : ∀ (vs : List RawVariant) (prev : Option Nat) (seen : List Nat),
    SameOutcome (deriveVariants max prev seen vs) (srcVariants max prev seen (vs.map RawVariant.src))
  | [], _, _ => .refl _
  | v :: vs, prev, seen => by
    have hc := chooseTag_src max prev v
    simp only [List.map_cons, srcVariants, deriveVariants]
    have hd : v.src.discr = v.discr := rfl
    have hf : srcFields false v.src.fields = getFields false v.fields := getFields_src false v.fields
    rw [hd, hf]
    cases hw : parseAttributes v.src.attrs with
    | error e =>
      rw [hw] at hc
      rcases hc with hc | ⟨⟨e', hc⟩, _⟩ <;> rw [hc] <;> exact .err _ _
    | ok w =>
      simp only [hw] at hc ⊢
      cases ho : collectVariant w none with
      | error e =>
        rw [ho] at hc
        rcases hc with hc | ⟨⟨e', hc⟩, _⟩ <;> rw [hc] <;> exact .err _ _
      | ok own =>
        simp only [ho] at hc ⊢
        rcases hc with hc | ⟨⟨e, hc⟩, e', hc'⟩
        · rw [hc]
          cases srcTag max prev own v.discr with
          | error e => exact .err _ _
          | ok tag =>
            simp only
            split
            · exact .err _ _
            · cases getFields false v.fields with
              | error e => exact .err _ _
              | ok F =>
                simp only
                rcases deriveVariants_src max vs (some tag) (tag :: seen) with h | ⟨⟨e, h⟩, e', h'⟩
                · rw [h]; exact .refl _
                · rw [h, h']; exact .err _ _
        · rw [hc, hc']; exact .err _ _

/-- **C75**, the model of C21: `deriveEnum` accepts, with the same result, what `srcEnum` accepts when the items are written in one
`#[speedy(...)]` each. -/
theorem C75_derive (name : Nat) (tagTypes : List LenTy) (peeks : Nat) (vs : List RawVariant) :
    SameOutcome (deriveEnum name tagTypes peeks vs)
      (srcEnum name [.speedy (some ((tagTypes.map EnumAttr.tagType ++ List.replicate peeks EnumAttr.peekTag).map some))] (vs.map RawVariant.src)) := by
  have hp : ∀ l : List EnumAttr, parseAttributes [.speedy (some (l.map some))] = .ok l :=
    fun l => parseAttributes_ok.2 (by simp [Written, items])
  unfold srcEnum
  rw [hp]
  simp only
  have bad : ∀ l : List EnumAttr, (∀ t peek, ¬ l.Perm (Option.toList t |>.map EnumAttr.tagType |>.append (if peek = true then [EnumAttr.peekTag] else []))) →
      ∃ e, collectEnum l none false = .error e := by
    intro l hl
    cases hc : collectEnum l none false with
    | error e => exact ⟨e, rfl⟩
    | ok r => exact absurd (C69_once_enum (t := r.1) (peek := r.2) hc) (hl r.1 r.2)
  have count : ∀ (t : Option LenTy) (peek : Bool), ((Option.toList t |>.map EnumAttr.tagType |>.append (if peek = true then [EnumAttr.peekTag] else [])).count .peekTag) ≤ 1 := by
    intro t peek
    cases t <;> cases peek <;> simp
  by_cases hpk : peeks > 1
  · obtain ⟨e, he⟩ := bad (tagTypes.map EnumAttr.tagType ++ List.replicate peeks EnumAttr.peekTag) (by
      intro t peek h
      have h1 := count t peek
      rw [← h.count_eq] at h1
      simp at h1
      omega)
    rw [he]
    unfold deriveEnum
    split
    · exact .err _ _
    · rw [if_pos hpk]; exact .err _ _
  · match tagTypes with
    | t :: u :: l =>
      simp only [deriveEnum, List.map_cons, List.cons_append, collectEnum]
      exact .err _ _
    | [] =>
      have h := deriveVariants_src LenTy.u32.max vs none []
      rcases (show peeks = 0 ∨ peeks = 1 by omega) with rfl | rfl <;>
        rcases h with h | ⟨⟨e, h⟩, e', h'⟩ <;> simp [deriveEnum, collectEnum, *] <;> first | exact .refl _ | exact .err _ _
    | [t] =>
      have h := deriveVariants_src t.max vs none []
      rcases (show peeks = 0 ∨ peeks = 1 by omega) with rfl | rfl <;>
        rcases h with h | ⟨⟨e, h⟩, e', h'⟩ <;> simp [deriveEnum, collectEnum, *] <;> first | exact .refl _ | exact .err _ _

/-! ## Cases -/

section Cases
open Samples

example : Written (α := Unit) [.other, .speedy (some [some ()])] [()] ∧ FieldsRule [⟨[], .prim .u8, true, .num 0⟩]
    (.cons { dflt := .num 0 } (.prim .u8) .nil) := (C75_struct (forced := true)).1 rfl

example (b : Attrs) (h : FieldRule ⟨[], .prim .u8, true, .num 0⟩ [] b) : b = { dflt := .num 0 } := by
  obtain ⟨_, ⟨w, hw, hr⟩, _⟩ := C75_fields.1 (show srcFields false [⟨[], .prim .u8, true, .num 0⟩] = .ok (.cons { dflt := .num 0 } (.prim .u8) .nil) from rfl)
  have : w = [] := by
    match w, hw with
    | [], _ => rfl
    | _ :: _, hw => simp [Written, items] at hw
  subst this
  exact FieldRule.unique h hr

example := C75_derive 0 [.u16] 1 []

end Cases

end Verif
