import Verif.Attributes
import Verif.PropsDerive

/-!
# C69: the order of attributes, and how they are grouped

An attribute may be written before or after another one, in the same `#[speedy(...)]` or in another one, with other attributes (documentation, `cfg`)
in between.
-/

namespace Verif

/-- Two results of the macro: the same, or both times an error (which of several errors is reported first is left open). -/
def SameOutcome {α : Type} (r r' : Except DeclErr α) : Prop := r = r' ∨ ((∃ e, r = .error e) ∧ ∃ e, r' = .error e)

/-- All items of all `#[speedy(...)]`, in the order in which they are written. -/
def items {α : Type} : List (OuterAttr α) → List (Option α)
  | [] => []
  | .speedy none :: as => none :: items as
  | .speedy (some l) :: as => l ++ items as
  | _ :: as => items as

/-- The same items in any order, grouped in any way. -/
def SameItems {α : Type} (as as' : List (OuterAttr α)) : Prop := (items as).Perm (items as')

/-- Lists of the same length with related elements. -/
inductive Each {α β : Type} (R : α → β → Prop) : List α → List β → Prop
  | nil : Each R [] []
  | cons {a b as bs} : R a b → Each R as bs → Each R (a :: as) (b :: bs)

/-- The same field with its attributes in another order. -/
structure SwapField (f f' : SrcField) : Prop where
  ty : f.ty = f'.ty
  known : f.known = f'.known
  dflt : f.dflt = f'.dflt
  attrs : SameItems f.attrs f'.attrs

/-- The same variant with its attributes, and those of its fields, in another order. -/
structure SwapVariant (v v' : SrcVariant) : Prop where
  discr : v.discr = v'.discr
  attrs : SameItems v.attrs v'.attrs
  fields : Each SwapField v.fields v'.fields

/-! ## Lemmas -/

section
variable {α β : Type}

theorem SameOutcome.refl (r : Except DeclErr α) : SameOutcome r r := .inl rfl

theorem SameOutcome.err (e e' : DeclErr) : SameOutcome (.error e : Except DeclErr α) (.error e') := .inr ⟨⟨_, rfl⟩, ⟨_, rfl⟩⟩

theorem SameOutcome.trans {r s t : Except DeclErr α} (h : SameOutcome r s) (h' : SameOutcome s t) : SameOutcome r t := by
  rcases h with rfl | ⟨h1, h2⟩
  · exact h'
  · rcases h' with rfl | ⟨-, h4⟩
    · exact .inr ⟨h1, h2⟩
    · exact .inr ⟨h1, h4⟩

theorem SameOutcome.bind {x x' : Except DeclErr α} {k k' : α → Except DeclErr β} (h : SameOutcome x x') (hk : ∀ a, SameOutcome (k a) (k' a)) :
    SameOutcome (x.bind k) (x'.bind k') := by
  rcases h with rfl | ⟨⟨e, rfl⟩, ⟨e', rfl⟩⟩
  · cases x with
    | error e => exact .refl _
    | ok a => exact hk a
  · exact .err _ _

theorem parseItems_append : ∀ (l l' : List (Option α)), parseItems (l ++ l') =
    match parseItems l with
    | .error er => .error er
    | .ok here => match parseItems l' with
      | .error er => .error er
      | .ok rest => .ok (here ++ rest)
  | [], l' => by simp only [List.nil_append, parseItems]; cases parseItems l' <;> rfl
  | none :: l, l' => rfl
  | some a :: l, l' => by
    simp only [List.cons_append, parseItems, parseItems_append l l']
    cases parseItems l with
    | error e => rfl
    | ok here => cases parseItems l' <;> rfl

theorem parseAttributes_eq : ∀ (as : List (OuterAttr α)), parseAttributes as = parseItems (items as)
  | [] => rfl
  | .speedy none :: as => rfl
  | .speedy (some l) :: as => by
    rw [items, parseItems_append, parseAttributes, parseAttributes_eq as]
    rfl
  | .repr _ :: as => by rw [items, parseAttributes, parseAttributes_eq as] <;> simp
  | .other :: as => by rw [items, parseAttributes, parseAttributes_eq as] <;> simp

/-- Either both lists of items are parsed, as lists with the same elements, or neither. -/
theorem parseItems_perm {l l' : List (Option α)} (h : l.Perm l') :
    (∃ as as', parseItems l = .ok as ∧ parseItems l' = .ok as' ∧ as.Perm as') ∨
    ((∃ e, parseItems l = .error e) ∧ ∃ e, parseItems l' = .error e) := by
  induction h with
  | nil => exact .inl ⟨[], [], rfl, rfl, .nil⟩
  | cons x _ ih =>
    cases x with
    | none => exact .inr ⟨⟨_, rfl⟩, ⟨_, rfl⟩⟩
    | some a =>
      rcases ih with ⟨as, as', h1, h2, h3⟩ | ⟨⟨e, h1⟩, ⟨e', h2⟩⟩
      · exact .inl ⟨a :: as, a :: as', by simp only [parseItems, h1], by simp only [parseItems, h2], h3.cons a⟩
      · exact .inr ⟨⟨e, by simp only [parseItems, h1]⟩, ⟨e', by simp only [parseItems, h2]⟩⟩
  | swap x y l =>
    cases x with
    | none =>
      refine .inr ⟨?_, ⟨_, rfl⟩⟩
      cases y with
      | none => exact ⟨_, rfl⟩
      | some b => exact ⟨_, rfl⟩
    | some a =>
      cases y with
      | none => exact .inr ⟨⟨_, rfl⟩, ⟨_, rfl⟩⟩
      | some b =>
        cases hl : parseItems l with
        | error e => exact .inr ⟨⟨e, by simp only [parseItems, hl]⟩, ⟨e, by simp only [parseItems, hl]⟩⟩
        | ok as => exact .inl ⟨b :: a :: as, a :: b :: as, by simp only [parseItems, hl], by simp only [parseItems, hl], .swap a b as⟩
  | trans _ _ ih ih' =>
    rcases ih with ⟨as, as', h1, h2, h3⟩ | ⟨h1, h2⟩
    · rcases ih' with ⟨bs, bs', g1, g2, g3⟩ | ⟨⟨e, g1⟩, -⟩
      · rw [h2] at g1
        cases g1
        exact .inl ⟨as, bs', h1, g2, h3.trans g3⟩
      · rw [h2] at g1
        cases g1
    · rcases ih' with ⟨bs, bs', g1, g2, g3⟩ | ⟨-, g2⟩
      · obtain ⟨e, h2⟩ := h2
        rw [h2] at g1
        cases g1
      · exact .inr ⟨h1, g2⟩

/-- A loop over items whose steps may change places. -/
theorem loop_perm {γ : Type} {loop : List α → γ → Except DeclErr β} {step : α → γ → Except DeclErr γ}
    (hc : ∀ a as c, loop (a :: as) c = (step a c).bind (loop as))
    (hs : ∀ a b c, SameOutcome ((step a c).bind (step b)) ((step b c).bind (step a))) {as as' : List α} (h : as.Perm as') :
    ∀ c, SameOutcome (loop as c) (loop as' c) := by
  induction h with
  | nil => exact fun c => .refl _
  | cons a _ ih =>
    intro c
    rw [hc, hc]
    exact SameOutcome.bind (.refl _) ih
  | swap a b as =>
    intro c
    have hb : ∀ x y : α, loop (x :: y :: as) c = ((step x c).bind (step y)).bind (loop as) := by
      intro x y
      rw [hc]
      cases step x c with
      | error e => rfl
      | ok d => exact hc y as d
    rw [hb, hb]
    exact SameOutcome.bind (hs b a c) fun _ => .refl _
  | trans _ _ ih ih' => exact fun c => (ih c).trans (ih' c)

end

/-- Is the type of the field written `u64`? -/
def RawField.isU64 (f : RawField) : Bool :=
  match f.known, f.ty with
  | true, .prim .u64 => true
  | _, _ => false

/-- One item of a field. -/
def stepAttr (u : Bool) : RawAttr → Collected → Except DeclErr Collected
  | .defaultOnEof, c => if c.defaultOnEof then .error .duplicate else .ok { c with defaultOnEof := true }
  | .length k, c => if c.length.isSome then .error .duplicate else .ok { c with length := some k }
  | .lengthType t, c => if c.lengthType.isSome then .error .duplicate else .ok { c with lengthType := some t }
  | .skip, c => .ok { c with skip := true }
  | .constantPrefix bs, c => if c.pre.isSome then .error .duplicate else .ok { c with pre := some bs }
  | .varint, c => if u then .ok { c with varint := true } else .error .badVarint

theorem collectAttrs_cons (f : RawField) (a : RawAttr) (as : List RawAttr) (c : Collected) :
    collectAttrs f (a :: as) c = (stepAttr f.isU64 a c).bind (collectAttrs f as) := by
  cases a <;> simp only [collectAttrs, stepAttr, RawField.isU64] <;> first
    | rfl
    | (split <;> first
        | rfl
        | simp_all [Except.bind])

theorem stepAttr_swap (u : Bool) (a b : RawAttr) (c : Collected) :
    SameOutcome ((stepAttr u a c).bind (stepAttr u b)) ((stepAttr u b c).bind (stepAttr u a)) := by
  obtain ⟨d, l, lt, s, v, p⟩ := c
  cases u <;> cases a <;> cases b <;> cases d <;> cases l <;> cases lt <;> cases p <;> first
      | exact .inl rfl
      | exact .err _ _

theorem collectAttrs_perm (f : RawField) {as as' : List RawAttr} (h : as.Perm as') (c : Collected) :
    SameOutcome (collectAttrs f as c) (collectAttrs f as' c) :=
  loop_perm (collectAttrs_cons f) (stepAttr_swap f.isU64) h c

/-- One item of an enum. -/
def stepEnum : EnumAttr → Option LenTy × Bool → Except DeclErr (Option LenTy × Bool)
  | .tagType t, (tagType, peekTag) => if tagType.isSome then .error .duplicate else .ok (some t, peekTag)
  | .peekTag, (tagType, peekTag) => if peekTag then .error .duplicate else .ok (tagType, true)

theorem collectEnum_perm {as as' : List EnumAttr} (h : as.Perm as') : SameOutcome (collectEnum as none false) (collectEnum as' none false) := by
  refine loop_perm (loop := fun as c => collectEnum as c.1 c.2) (step := stepEnum) ?_ ?_ h (none, false)
  · rintro a as ⟨t, p⟩
    cases a <;> simp only [collectEnum, stepEnum] <;> split <;> rfl
  · rintro a b ⟨t, p⟩
    cases a <;> cases b <;> cases t <;> cases p <;> first
      | exact .inl rfl
      | exact .err _ _

theorem collectVariant_perm {as as' : List Nat} (h : as.Perm as') : SameOutcome (collectVariant as none) (collectVariant as' none) := by
  refine loop_perm (loop := collectVariant) (step := fun n t => if t.isSome then .error .duplicate else .ok (some n)) ?_ ?_ h none
  · intro a as t
    simp only [collectVariant]
    split <;> rfl
  · intro a b t
    cases t <;> exact .err _ _

theorem collectStruct_perm {as as' : List Unit} (h : as.Perm as') : collectStruct as false = collectStruct as' false := by
  rw [show as = as' from ?_]
  apply List.ext_getElem h.length_eq
  intros
  rfl

/-- The items of an attribute list, parsed. -/
theorem parsed {α : Type} {as as' : List (OuterAttr α)} (h : SameItems as as') :
    (∃ l l', parseAttributes as = .ok l ∧ parseAttributes as' = .ok l' ∧ l.Perm l') ∨
    ((∃ e, parseAttributes as = .error e) ∧ ∃ e, parseAttributes as' = .error e) := by
  rw [parseAttributes_eq, parseAttributes_eq]
  exact parseItems_perm h

/-- A field depends on its items in no other way. -/
theorem collectAttrs_raw {f f' : SrcField} (h : SwapField f f') (l l' : List RawAttr) : ∀ (as : List RawAttr) (c : Collected),
    collectAttrs (f.raw l) as c = collectAttrs (f'.raw l') as c
  | [], c => rfl
  | a :: as, c => by
    have hs : (f.raw l).isU64 = (f'.raw l').isU64 := by simp only [RawField.isU64, SrcField.raw, h.ty, h.known]
    rw [collectAttrs_cons, collectAttrs_cons, hs]
    exact congrArg _ (funext fun c => collectAttrs_raw h l l' as c)

theorem finishField_raw {f f' : SrcField} (h : SwapField f f') (l l' : List RawAttr) (c : Collected) :
    finishField (f.raw l) c = finishField (f'.raw l') c := by
  obtain ⟨h1, h2, h3, -⟩ := h
  unfold finishField SrcField.raw
  rw [h1, h2, h3]

/-! ## The order does not matter -/

/-- **C69**, fields of structs and variants: the attributes may be written in any order and grouped in any way. -/
theorem C69_fields : ∀ (b : Bool) {fs fs' : List SrcField}, Each SwapField fs fs' → SameOutcome (srcFields b fs) (srcFields b fs')
  | b, _, _, .nil => by cases b <;> exact .refl _
  | true, _, _, .cons _ _ => .refl _
  | false, _, _, .cons (a := f) (b := f') (as := fs) (bs := fs') hf hfs => by
    simp only [srcFields]
    rcases parsed hf.attrs with ⟨l, l', h1, h2, h3⟩ | ⟨⟨e, h1⟩, ⟨e', h2⟩⟩
    · rw [h1, h2]
      simp only
      have hc := collectAttrs_perm (f'.raw l') h3 {}
      rw [← collectAttrs_raw hf l l' l] at hc
      rcases hc with hc | ⟨⟨e, hc⟩, ⟨e', hc'⟩⟩
      · rw [← hc]
        cases hcc : collectAttrs (f.raw l) l {} with
        | error e => exact .refl _
        | ok c =>
          simp only
          rw [← finishField_raw hf l l']
          cases hff : finishField (f.raw l) c with
          | error e => exact .refl _
          | ok a =>
            simp only
            rw [← hf.ty]
            rcases C69_fields c.untilEof hfs with hr | ⟨⟨e, hr⟩, ⟨e', hr'⟩⟩
            · rw [hr]
              exact .refl _
            · rw [hr, hr']
              exact .err _ _
      · rw [hc, hc']
        exact .err _ _
    · rw [h1, h2]
      exact .err _ _

/-- **C69**, variants. -/
theorem C69_variants (max : Nat) : ∀ {vs vs' : List SrcVariant}, Each SwapVariant vs vs' → ∀ (prev : Option Nat) (seen : List Nat),
    SameOutcome (srcVariants max prev seen vs) (srcVariants max prev seen vs')
  | _, _, .nil, _, _ => .refl _
  | _, _, .cons (a := v) (b := v') hv hvs, prev, seen => by
    simp only [srcVariants]
    rcases parsed hv.attrs with ⟨l, l', h1, h2, h3⟩ | ⟨⟨e, h1⟩, ⟨e', h2⟩⟩
    · rw [h1, h2]
      simp only
      rcases collectVariant_perm h3 with hc | ⟨⟨e, hc⟩, ⟨e', hc'⟩⟩
      · rw [← hc]
        cases hcc : collectVariant l none with
        | error e => exact .refl _
        | ok own =>
          simp only
          rw [← hv.discr]
          cases srcTag max prev own v.discr with
          | error e => exact .refl _
          | ok tag =>
            simp only
            by_cases ht : tag ∈ seen
            · rw [if_pos ht, if_pos ht]
              exact .refl _
            · rw [if_neg ht, if_neg ht]
              rcases C69_fields false hv.fields with hr | ⟨⟨e, hr⟩, ⟨e', hr'⟩⟩
              · rw [← hr]
                cases srcFields false v.fields with
                | error e => exact .refl _
                | ok fs =>
                  simp only
                  rcases C69_variants max hvs (some tag) (tag :: seen) with hr | ⟨⟨e, hr⟩, ⟨e', hr'⟩⟩
                  · rw [hr]
                    exact .refl _
                  · rw [hr, hr']
                    exact .err _ _
              · rw [hr, hr']
                exact .err _ _
      · rw [hc, hc']
        exact .err _ _
    · rw [h1, h2]
      exact .err _ _

/-- The word of an item. -/
def RawAttr.kind : RawAttr → Nat
  | .defaultOnEof => 0
  | .length _ => 1
  | .lengthType _ => 2
  | .skip => 3
  | .constantPrefix _ => 4
  | .varint => 5

/-- **C69**, enums: the same declaration with its attributes, those of its variants and those of their fields in any order gives the same type,
or is rejected too. -/
theorem C69_enum (name : Nat) {as as' : List (OuterAttr EnumAttr)} (ha : SameItems as as') {vs vs' : List SrcVariant}
    (hv : Each SwapVariant vs vs') : SameOutcome (srcEnum name as vs) (srcEnum name as' vs') := by
  simp only [srcEnum]
  rcases parsed ha with ⟨l, l', h1, h2, h3⟩ | ⟨⟨e, h1⟩, ⟨e', h2⟩⟩
  · rw [h1, h2]
    simp only
    rcases collectEnum_perm h3 with hc | ⟨⟨e, hc⟩, ⟨e', hc'⟩⟩
    · rw [← hc]
      cases hcc : collectEnum l none false with
      | error e => exact .refl _
      | ok p =>
        simp only
        rcases C69_variants (p.1.getD .u32).max hv none [] with hr | ⟨⟨e, hr⟩, ⟨e', hr'⟩⟩
        · rw [hr]
          exact .refl _
        · rw [hr, hr']
          exact .err _ _
    · rw [hc, hc']
      exact .err _ _
  · rw [h1, h2]
    exact .err _ _

/-- **C69**, structs. -/
theorem C69_struct {as as' : List (OuterAttr Unit)} (ha : SameItems as as') {fs fs' : List SrcField} (hf : Each SwapField fs fs') :
    SameOutcome (srcStruct as fs) (srcStruct as' fs') := by
  simp only [srcStruct]
  rcases parsed ha with ⟨l, l', h1, h2, h3⟩ | ⟨⟨e, h1⟩, ⟨e', h2⟩⟩
  · rw [h1, h2]
    simp only
    rw [← collectStruct_perm h3]
    cases hcc : collectStruct l false with
    | error e => exact .refl _
    | ok p =>
      simp only
      rcases C69_fields false hf with hr | ⟨⟨e, hr⟩, ⟨e', hr'⟩⟩
      · rw [hr]
        exact .refl _
      · rw [hr, hr']
        exact .err _ _
  · rw [h1, h2]
    exact .err _ _

open Samples in
/-- `#[serde(..)] #[speedy(constant_prefix = 1u8, length_type = u8)]` and `#[speedy(length_type = u8)] #[speedy(constant_prefix = 1u8)]`. -/
example : srcStruct [] [⟨[.other, .speedy (some [some (.constantPrefix [1]), some (.lengthType .u8)])], .str .owned, true, .bytes []⟩] =
      .ok (false, .cons { len := some (.typed .u8), pre := [1], dflt := .bytes [] } (.str .owned) .nil) ∧
    SameOutcome (srcStruct [] [⟨[.other, .speedy (some [some (.constantPrefix [1]), some (.lengthType .u8)])], .str .owned, true, .bytes []⟩])
      (srcStruct [] [⟨[.speedy (some [some (.lengthType .u8)]), .speedy (some [some (.constantPrefix [1])])], .str .owned, true, .bytes []⟩]) :=
  ⟨rfl, C69_struct (.refl _) (.cons ⟨rfl, rfl, rfl, List.Perm.swap _ _ _⟩ .nil)⟩

/-- `#[speedy(peek_tag)] #[speedy(tag_type = u16)] enum { #[speedy(tag = 3)] A, B }` and `#[speedy(tag_type = u16, peek_tag)] ...`. -/
example : srcEnum 0 [.speedy (some [some .peekTag]), .speedy (some [some (.tagType .u16)])]
        [⟨[.speedy (some [some 3])], none, []⟩, ⟨[], none, []⟩] = .ok (⟨.u16, true, 0⟩, .cons 3 .nil (.cons 4 .nil .nil)) ∧
    SameOutcome (srcEnum 0 [.speedy (some [some .peekTag]), .speedy (some [some (.tagType .u16)])]
        [⟨[.speedy (some [some 3])], none, []⟩, ⟨[], none, []⟩])
      (srcEnum 0 [.speedy (some [some (.tagType .u16), some .peekTag])] [⟨[.other, .speedy (some [some 3])], none, []⟩, ⟨[], none, []⟩]) :=
  ⟨rfl, C69_enum 0 (by exact List.Perm.swap _ _ _) (.cons ⟨rfl, List.Perm.refl _, .nil⟩ (.cons ⟨rfl, List.Perm.refl _, .nil⟩ .nil))⟩

/-! ## Nothing that is written is ignored -/

/-- **C69**: what has been collected from the attributes of an accepted field is what is written there, and everything that is written there. -/
theorem C69_collected {f : RawField} : ∀ {as : List RawAttr} {c c' : Collected}, collectAttrs f as c = .ok c' →
    (c'.defaultOnEof = true ↔ c.defaultOnEof = true ∨ .defaultOnEof ∈ as) ∧
    (∀ k, c'.length = some k ↔ c.length = some k ∨ .length k ∈ as) ∧
    (∀ t, c'.lengthType = some t ↔ c.lengthType = some t ∨ .lengthType t ∈ as) ∧
    (c'.skip = true ↔ c.skip = true ∨ .skip ∈ as) ∧
    (∀ bs, c'.pre = some bs ↔ c.pre = some bs ∨ .constantPrefix bs ∈ as) ∧
    (c'.varint = true ↔ c.varint = true ∨ .varint ∈ as)
  | [], c, c', h => by
    cases h
    simp
  | a :: as, c, c', h => by
    rw [collectAttrs_cons] at h
    cases hs : stepAttr f.isU64 a c with
    | error e => rw [hs] at h; cases h
    | ok d =>
      rw [hs] at h
      have ih := C69_collected (show collectAttrs f as d = .ok c' from h)
      cases a with
      | defaultOnEof =>
        simp only [stepAttr] at hs
        split at hs <;> cases hs
        rename_i hn
        simpa [hn] using ih
      | length k =>
        simp only [stepAttr] at hs
        split at hs <;> cases hs
        rename_i hn
        have hn : c.length = none := by cases hc : c.length <;> simp_all
        exact ⟨by simpa using ih.1, fun x => by rw [ih.2.1 x, hn]; simp [eq_comm (a := k) (b := x)], by simpa using ih.2.2.1,
          by simpa using ih.2.2.2.1, by simpa using ih.2.2.2.2.1, by simpa using ih.2.2.2.2.2⟩
      | lengthType t =>
        simp only [stepAttr] at hs
        split at hs <;> cases hs
        rename_i hn
        have hn : c.lengthType = none := by cases hc : c.lengthType <;> simp_all
        exact ⟨by simpa using ih.1, by simpa using ih.2.1, fun x => by rw [ih.2.2.1 x, hn]; simp [eq_comm (a := t) (b := x)],
          by simpa using ih.2.2.2.1, by simpa using ih.2.2.2.2.1, by simpa using ih.2.2.2.2.2⟩
      | skip =>
        simp only [stepAttr] at hs
        cases hs
        simpa using ih
      | constantPrefix bs =>
        simp only [stepAttr] at hs
        split at hs <;> cases hs
        rename_i hn
        have hn : c.pre = none := by cases hc : c.pre <;> simp_all
        exact ⟨by simpa using ih.1, by simpa using ih.2.1, by simpa using ih.2.2.1,
          by simpa using ih.2.2.2.1, fun x => by rw [ih.2.2.2.2.1 x, hn]; simp [eq_comm (a := bs) (b := x)], by simpa using ih.2.2.2.2.2⟩
      | varint =>
        simp only [stepAttr] at hs
        split at hs <;> cases hs
        simpa using ih

/-- Attributes of the same kind twice are rejected, except `skip` and `varint`. -/
theorem C69_once {f : RawField} {as bs cs : List RawAttr} {a a' : RawAttr} {c c' : Collected} (h : collectAttrs f (as ++ a :: bs ++ a' :: cs) c = .ok c')
    (hk : a.kind = a'.kind) : a = .skip ∨ a = .varint := by
  have hp : collectAttrs f (a :: a' :: (as ++ bs ++ cs)) c = .ok c' := by
    have : List.Perm (as ++ a :: bs ++ a' :: cs) (a :: a' :: (as ++ bs ++ cs)) := by
      refine (List.perm_middle (l₁ := as ++ a :: bs)).trans ?_
      refine (List.Perm.cons a' ?_).trans (.swap _ _ _)
      rw [List.append_assoc, List.append_assoc]
      exact List.perm_middle
    rcases collectAttrs_perm f this c with he | ⟨⟨e, he⟩, _⟩
    · rw [← he]; exact h
    · rw [he] at h; cases h
  rw [collectAttrs_cons] at hp
  cases hs : stepAttr f.isU64 a c with
  | error e => rw [hs] at hp; cases hp
  | ok d =>
    rw [hs] at hp
    have hp : collectAttrs f (a' :: (as ++ bs ++ cs)) d = .ok c' := hp
    rw [collectAttrs_cons] at hp
    cases hs' : stepAttr f.isU64 a' d with
    | error e => rw [hs'] at hp; cases hp
    | ok d' =>
      cases a with
      | skip => exact .inl rfl
      | varint => exact .inr rfl
      | defaultOnEof =>
        cases a' <;> cases hk
        simp only [stepAttr] at hs hs'
        split at hs <;> cases hs
        simp at hs'
      | length k =>
        cases a' <;> cases hk
        simp only [stepAttr] at hs hs'
        split at hs <;> cases hs
        simp at hs'
      | lengthType k =>
        cases a' <;> cases hk
        simp only [stepAttr] at hs hs'
        split at hs <;> cases hs
        simp at hs'
      | constantPrefix k =>
        cases a' <;> cases hk
        simp only [stepAttr] at hs hs'
        split at hs <;> cases hs
        simp at hs'

/-- Hypotheses of `C69_collected`, `C69_once`: everything that can be written before one field. -/
example : collectAttrs ⟨[], .prim .u64, true, .num 0⟩ [.varint, .constantPrefix [1], .skip, .varint, .defaultOnEof] {} =
    .ok { defaultOnEof := true, skip := true, pre := some [1], varint := true } := rfl

/-! ## `Derive.lean` -/

/-- Fields accepted here are accepted there. -/
theorem srcFields_raw : ∀ {b : Bool} {fs : List SrcField} {F : Fields}, srcFields b fs = .ok F → ∃ rs, getFields b rs = .ok F
  | b, [], F, h => ⟨[], by cases b <;> exact h⟩
  | true, _ :: _, _, h => by cases h
  | false, f :: fs, F, h => by
    simp only [srcFields] at h
    split at h
    · cases h
    · rename_i as _
      split at h
      · cases h
      · rename_i c hc
        split at h
        · cases h
        · rename_i a ha
          split at h
          · cases h
          · rename_i rest hr
            obtain ⟨rs, hrs⟩ := srcFields_raw hr
            refine ⟨f.raw as :: rs, ?_⟩
            simp only [getFields]
            rw [show (f.raw as).attrs = as from rfl, hc]
            simp only
            rw [ha]
            simp only
            have he : getFields (match c.length with | some none => true | _ => false) rs = .ok rest := hrs
            exact (congrArg (fun r : Except DeclErr Fields => match r with
              | .error er => (.error er : Except DeclErr Fields)
              | .ok rest => .ok (Fields.cons a f.ty rest)) he).trans h

theorem collectVariant_ok : ∀ {as : List Nat} {own : Option Nat}, collectVariant as none = .ok own → as = own.toList
  | [], _, h => by cases h; rfl
  | [n], _, h => by cases h; rfl
  | _ :: _ :: _, _, h => by cases h

theorem mem_parseItems {α : Type} {a : α} : ∀ {l : List (Option α)} {as : List α}, parseItems l = .ok as → a ∈ as → some a ∈ l
  | [], _, h, ha => by cases h; cases ha
  | none :: _, _, h, _ => by cases h
  | some b :: l, as, h, ha => by
    simp only [parseItems] at h
    split at h
    · cases h
    · rename_i rest hr
      cases h
      rcases List.mem_cons.1 ha with rfl | ha
      · exact List.mem_cons_self
      · exact List.mem_cons_of_mem _ (mem_parseItems hr ha)

theorem srcVariants_raw {max : Nat} : ∀ {vs : List SrcVariant}, (∀ v ∈ vs, ∀ n, some n ∈ items v.attrs → n < 2 ^ 64) →
    ∀ {prev : Option Nat} {seen : List Nat} {V : Variants}, srcVariants max prev seen vs = .ok V →
      ∃ rs, deriveVariants max prev seen rs = .ok V
  | [], _, _, _, _, h => ⟨[], h⟩
  | v :: vs, hn, prev, seen, V, h => by
    simp only [srcVariants] at h
    split at h
    · cases h
    · rename_i as has
      split at h
      · cases h
      · rename_i own hown
        split at h
        · cases h
        · rename_i tag htag
          split at h
          · cases h
          · rename_i hseen
            split at h
            · cases h
            · rename_i fs hfs
              split at h
              · cases h
              · rename_i rest hrest
                obtain ⟨rfs, hrfs⟩ := srcFields_raw hfs
                obtain ⟨rs, hrs⟩ := srcVariants_raw (fun w hw => hn w (List.mem_cons_of_mem _ hw)) hrest
                refine ⟨⟨own.toList, v.discr, rfs⟩ :: rs, ?_⟩
                have hl := collectVariant_ok hown
                have hv : variantTag own.toList = .ok own := by
                  cases own with
                  | none => rfl
                  | some n =>
                    have : n < 2 ^ 64 := hn v List.mem_cons_self n (mem_parseItems (by rw [← parseAttributes_eq]; exact has) (by rw [hl]; simp))
                    simp only [Option.toList, variantTag]
                    rw [if_pos this]
                have hc : chooseTag max prev ⟨own.toList, v.discr, rfs⟩ = .ok tag := by
                  rw [← htag]
                  simp only [chooseTag, hv, srcTag]
                  cases own with
                  | none => rfl
                  | some n => rfl
                simp only [deriveVariants, hc]
                rw [if_neg hseen, hrfs]
                simp only
                rw [hrs]
                exact h

theorem collectEnum_ok : ∀ {as : List EnumAttr} {t t' : Option LenTy} {p p' : Bool}, collectEnum as t p = .ok (t', p') →
    ∃ tt n, t'.toList = t.toList ++ tt ∧ p'.toNat = p.toNat + n
  | [], _, _, _, _, h => by
    cases h
    exact ⟨[], 0, by simp, rfl⟩
  | .tagType x :: as, t, t', p, p', h => by
    simp only [collectEnum] at h
    split at h
    · cases h
    · rename_i hn
      obtain ⟨tt, n, h1, h2⟩ := collectEnum_ok h
      have : t = none := by cases t <;> simp_all
      subst this
      exact ⟨x :: tt, n, by simpa using h1, h2⟩
  | .peekTag :: as, t, t', p, p', h => by
    simp only [collectEnum] at h
    split at h
    · cases h
    · rename_i hn
      obtain ⟨tt, n, h1, h2⟩ := collectEnum_ok h
      have : p = false := by cases p <;> simp_all
      subst this
      exact ⟨tt, n + 1, h1, by rw [h2]; simp; omega⟩

/-- **C69**, variants: `tag` is given at most once, and it is what is kept. -/
theorem C69_once_variant {as : List Nat} {own : Option Nat} (h : collectVariant as none = .ok own) : as = own.toList := collectVariant_ok h

/-- **C69**, structs: `unsafe_is_primitive` is given at most once, and it is what is kept. -/
theorem C69_once_struct : ∀ {as : List Unit} {forced : Bool}, collectStruct as false = .ok forced → as = if forced then [()] else []
  | [], _, h => by cases h; rfl
  | [()], _, h => by cases h; rfl
  | _ :: _ :: _, _, h => by cases h

theorem collectEnum_perm_ok : ∀ {as : List EnumAttr} {t t' : Option LenTy} {p p' : Bool}, collectEnum as t p = .ok (t', p') →
    (t.toList.map EnumAttr.tagType ++ (if p then [EnumAttr.peekTag] else []) ++ as).Perm (t'.toList.map EnumAttr.tagType ++ if p' then [EnumAttr.peekTag] else [])
  | [], _, _, _, _, h => by cases h; simp
  | .tagType x :: as, t, t', p, p', h => by
    simp only [collectEnum] at h
    split at h
    · cases h
    · rename_i hn
      have : t = none := by cases t <;> simp_all
      subst this
      exact .trans (by simp) (collectEnum_perm_ok h)
  | .peekTag :: as, t, t', p, p', h => by
    simp only [collectEnum] at h
    split at h
    · cases h
    · rename_i hn
      have : p = false := by cases p <;> simp_all
      subst this
      exact .trans (by simp) (collectEnum_perm_ok h)

/-- **C69**, enums: `tag_type` and `peek_tag` are given at most once each, and they are what is kept. -/
theorem C69_once_enum {as : List EnumAttr} {t : Option LenTy} {peek : Bool} (h : collectEnum as none false = .ok (t, peek)) :
    as.Perm (t.toList.map EnumAttr.tagType ++ if peek then [EnumAttr.peekTag] else []) := by
  simpa using collectEnum_perm_ok h

example : collectEnum [.peekTag, .tagType .u16] none false = .ok (some .u16, true) ∧ collectVariant [3] none = .ok (some 3) ∧
    collectStruct [()] false = .ok true := ⟨rfl, rfl, rfl⟩

/-- **C69**: an enum which is accepted as it is written is accepted by `deriveEnum`, with the same result, so that C21 and C67 hold of it. -/
theorem C69_declared {name : Nat} {as : List (OuterAttr EnumAttr)} {vs : List SrcVariant} {d : EnumDesc} {V : Variants}
    (hn : ∀ v ∈ vs, ∀ n, some n ∈ items v.attrs → n < 2 ^ 64) (h : srcEnum name as vs = .ok (d, V)) :
    ∃ tagTypes peeks rs, deriveEnum name tagTypes peeks rs = .ok (d, V) := by
  simp only [srcEnum] at h
  split at h
  · cases h
  · split at h
    · cases h
    · rename_i t p hc
      split at h
      · cases h
      · rename_i W hW
        cases h
        obtain ⟨rs, hrs⟩ := srcVariants_raw hn hW
        refine ⟨t.toList, p.toNat, rs, ?_⟩
        cases t <;> cases p <;> simp_all [deriveEnum]

example : ∃ tagTypes peeks rs, deriveEnum 0 tagTypes peeks rs = .ok (⟨.u16, true, 0⟩, .cons 3 .nil (.cons 4 .nil .nil)) :=
  C69_declared (as := [.speedy (some [some .peekTag]), .speedy (some [some (.tagType .u16)])])
    (vs := [⟨[.speedy (some [some 3])], none, []⟩, ⟨[], none, []⟩]) (by simp [items]) rfl

/-! ## Representations -/

/-- The tokens of the `#[repr(...)]`, in the order in which they are written. -/
def reprs {α : Type} : List (OuterAttr α) → List (List String)
  | [] => []
  | .repr (some tokens) :: as => tokens :: reprs as
  | _ :: as => reprs as

theorem checkRepr_eq {α : Type} (value : String) : ∀ (as : List (OuterAttr α)) (r : Bool),
    checkRepr value as r = match (reprs as).getLast? with
      | some tokens => tokens == [value]
      | none => r
  | [], r => rfl
  | .repr (some tokens) :: as, r => by
    rw [checkRepr, reprs, checkRepr_eq value as, List.getLast?_cons]
    cases (reprs as).getLast? <;> rfl
  | .repr none :: as, r => by rw [checkRepr, reprs, checkRepr_eq value as] <;> simp
  | .speedy _ :: as, r => by rw [checkRepr, reprs, checkRepr_eq value as] <;> simp
  | .other :: as, r => by rw [checkRepr, reprs, checkRepr_eq value as] <;> simp

/-- **C69**, `#[repr(...)]`: if there is only one of them it does not matter where it is written.

Full claim: the order of several `#[repr(...)]` does not matter either.  It is false: `C69_false_repr`. -/
theorem C69_repr_partial {α : Type} {as as' : List (OuterAttr α)} (h : (reprs as).Perm (reprs as')) (h1 : (reprs as).length ≤ 1) :
    seenRepr as = seenRepr as' := by
  have : reprs as = reprs as' := by
    generalize reprs as = l at h h1
    match l, h1 with
    | [], _ => exact (List.nil_perm.1 h).symm
    | [x], _ => exact List.singleton_perm.1 h
  unfold seenRepr
  simp only [checkRepr_eq, this]

/-- **C69 is false** for several `#[repr(...)]`, of which only the last one counts: the compiler combines them, so that both structs are packed.  In one case
the macro takes the struct for packed and copies its fields before they are written, in the other case it takes references to them, which the compiler
rejects for fields of packed structs (except those with an alignment of 1).  With `#[repr(C, packed)]` it is the same. -/
theorem C69_false_repr (fs : Fields) :
    let first : List (OuterAttr Unit) := [.repr (some ["C"]), .repr (some ["packed"])]
    let second : List (OuterAttr Unit) := [.repr (some ["packed"]), .repr (some ["C"])]
    let both : List (OuterAttr Unit) := [.repr (some ["C", ",", "packed"])]
    first.Perm second ∧ referenced (seenRepr first) fs = [] ∧
    ∀ t fs, referenced (seenRepr second) (.cons {} t fs) = t :: referenced (seenRepr second) fs ∧
      referenced (seenRepr both) (.cons {} t fs) = t :: referenced (seenRepr both) fs := by
  refine ⟨.swap _ _ _, ?_, fun t fs => ⟨rfl, rfl⟩⟩
  induction fs using Fields.rec (motive_1 := fun _ => True) (motive_3 := fun _ => True) with
  | nil => rfl
  | cons a t fs _ ih => exact ih
  | _ => trivial

example : seenRepr (α := Unit) [.repr (some ["packed"]), .speedy none] = .packed ∧
    seenRepr (α := Unit) [.repr (some ["packed"]), .speedy none] = seenRepr (α := Unit) [.other, .repr (some ["packed"])] :=
  ⟨rfl, C69_repr_partial (.refl _) (by decide)⟩

/-- What is written in `#[repr(...)]` for a representation; nothing for the one which the compiler chooses. -/
def Repr'.word : Repr' → Option String
  | .rust => none
  | .c => some "C"
  | .packed => some "packed"
  | .transparent => some "transparent"

/-- **C28**, which structs the macro takes for plain memory: only a struct which says so with `#[repr(...)]`.  A struct without one, whose fields the
compiler may put in any order, is never taken for one with a fixed layout. -/
theorem C28_declared {α : Type} {as : List (OuterAttr α)} {w : String} (hw : (seenRepr as).word = some w) : [w] ∈ reprs as := by
  have hm : ∀ w, checkRepr w as false = true → [w] ∈ reprs as := fun w h => by
    rw [checkRepr_eq] at h
    split at h
    · rename_i x hx
      rw [eq_of_beq h] at hx
      exact List.mem_of_getLast? hx
    · cases h
  unfold seenRepr at hw
  split at hw
  · rename_i h; cases hw; exact hm _ h
  · split at hw
    · rename_i h; cases hw; exact hm _ h
    · split at hw
      · rename_i h; cases hw; exact hm _ h
      · cases hw

/-- Conversely, a single `#[repr(...)]` with one of these words is seen, wherever it is among the attributes, and no other one. -/
theorem C28_seen {α : Type} {as : List (OuterAttr α)} (r : Repr') (h : reprs as = (r.word.map ([·])).toList) : seenRepr as = r := by
  unfold seenRepr
  simp only [checkRepr_eq, h]
  cases r <;> decide

example : seenRepr (α := Unit) [.speedy none, .other] = .rust ∧ seenRepr (α := Unit) [.speedy none, .repr (some ["C"]), .repr none] = .c :=
  ⟨C28_seen .rust rfl, C28_seen .c rfl⟩
example : ["packed"] ∈ reprs (α := Unit) [.speedy none, .repr (some ["packed"])] := C28_declared rfl

/-! ## Constant prefixes -/

/-- The bytes of a literal in Rust, if it is of one of the types which the macro mentions (strings, byte strings, bytes, characters, booleans, `u8` and
`i8`). -/
def literal : PrefixExpr → Option Bytes
  | .lit (.str s) => some s.toUTF8.toList
  | .lit (.byteStr bs) => some bs
  | .lit (.byte b) => some [b]
  | .lit (.char c) => some (String.singleton c).toUTF8.toList
  | .lit (.bool b) => some [UInt8.ofNat b.toNat]
  | .lit (.int n "u8") => if n < 256 then some [UInt8.ofNat n] else none
  | .lit (.int n "i8") => if n < 128 then some [UInt8.ofNat n] else none
  | .neg (.int n "i8") => if n ≤ 128 then some [UInt8.ofNat ((256 - n) % 256)] else none
  | _ => none

/-- **C69**, `constant_prefix`: if the macro accepts a literal, then it means the bytes which it means elsewhere in Rust. -/
theorem C69_prefix {x : PrefixExpr} {bs : Bytes} (h : prefixBytes x = .ok bs) : literal x = some bs := by
  match x with
  | .lit (.str s) => cases h; rfl
  | .lit (.byteStr bs) => cases h; rfl
  | .lit (.byte b) => cases h; rfl
  | .lit (.char c) => cases h; rfl
  | .lit (.bool b) => cases h; cases b <;> rfl
  | .lit (.int n suffix) =>
    simp only [prefixBytes] at h
    split at h
    · rename_i hs
      subst hs
      split at h <;> cases h
      simp only [literal]
      rw [if_pos (by omega)]
    · cases h
  | .lit .float => cases h
  | .lit .verbatim => cases h
  | .lit .other => cases h
  | .neg (.int n suffix) =>
    simp only [prefixBytes] at h
    split at h
    · rename_i hs
      subst hs
      split at h <;> cases h
      rename_i hn
      simp only [literal]
      rw [if_pos (by omega)]
      congr 2
      apply UInt8.toNat_inj.1
      simp [UInt8.size]
      omega
    · cases h
  | .neg (.str _) => cases h
  | .neg (.byteStr _) => cases h
  | .neg (.byte _) => cases h
  | .neg (.char _) => cases h
  | .neg (.bool _) => cases h
  | .neg .float => cases h
  | .neg .verbatim => cases h
  | .neg .other => cases h
  | .other => cases h

/-- **C69**, `constant_prefix`: other literals than `i8` which fit are accepted.

Full claim: all literals with a meaning are accepted.  It is false for `0i8` to `127i8` and for `-128i8`: `C69_false_prefix`. -/
theorem C69_prefix_partial {x : PrefixExpr} {bs : Bytes} (h : literal x = some bs) (hi : ∀ n, x ≠ .lit (.int n "i8")) (hm : x ≠ .neg (.int 128 "i8")) :
    prefixBytes x = .ok bs := by
  unfold literal at h
  split at h
  · cases h; rfl
  · cases h; rfl
  · cases h; rfl
  · cases h; rfl
  · rename_i b
    cases h; cases b <;> rfl
  · split at h <;> cases h
    simp only [prefixBytes, if_true]
    rw [if_pos (by omega)]
  · exact absurd rfl (hi _)
  · rename_i n
    split at h <;> cases h
    have : n ≠ 128 := fun hn => hm (by rw [hn])
    simp only [prefixBytes, if_true]
    rw [if_pos (by omega)]
    congr 2
    apply UInt8.toNat_inj.1
    simp [UInt8.size]
    omega
  · cases h

/-- **C69 is false** for `i8`: numbers which are not negative are rejected (with the message that `u8` or `i8` should be appended), and for `-128i8` the macro
panics. -/
theorem C69_false_prefix : (∀ n, prefixBytes (.lit (.int n "i8")) = .error .message) ∧ literal (.lit (.int 5 "i8")) = some [5] ∧
    literal (.neg (.int 128 "i8")) = some [128] ∧ prefixBytes (.neg (.int 128 "i8")) = .error .panic := by
  refine ⟨fun n => rfl, rfl, rfl, rfl⟩

example : prefixBytes (.neg (.int 1 "i8")) = .ok [255] ∧ literal (.neg (.int 1 "i8")) = some [255] := ⟨rfl, C69_prefix rfl⟩
example : prefixBytes (.lit (.int 255 "u8")) = .ok [255] := C69_prefix_partial rfl (by simp) (by simp)

/-! ## Cases -/

section Cases
open Samples

section
open Samples
example : RawAttr.varint ∈ ([.varint, .constantPrefix [1], .skip, .varint, .defaultOnEof] : List RawAttr) :=
  ((C69_collected (f := ⟨[], .prim .u64, true, .num 0⟩) (as := [.varint, .constantPrefix [1], .skip, .varint, .defaultOnEof]) (c := {})
    (c' := { defaultOnEof := true, skip := true, pre := some [1], varint := true }) rfl).2.2.2.2.2.1 rfl).resolve_left (by simp)

/-- Two `default_on_eof`. -/
example (c' : Collected) : collectAttrs ⟨[], .prim .u64, true, .num 0⟩ [.varint, .defaultOnEof, .skip, .defaultOnEof] {} ≠ .ok c' := fun h => by
  simpa using C69_once (as := [.varint]) (a := .defaultOnEof) (bs := [.skip]) (a' := .defaultOnEof) (cs := []) h rfl

example : [EnumAttr.peekTag, .tagType .u16].Perm [.tagType .u16, .peekTag] :=
  C69_once_enum (t := some .u16) (peek := true) rfl
example (r : Bool) : collectStruct [(), ()] false ≠ .ok r := fun h => by cases r <;> simpa using C69_once_struct h
example (r : Option Nat) : collectVariant [3, 4] none ≠ .ok r := fun h => by cases r <;> simpa using C69_once_variant h

example := C69_fields false (fs := [⟨[.other, .speedy (some [some (.constantPrefix [1]), some (.lengthType .u8)])], .str .owned, true, .bytes []⟩])
  (fs' := [⟨[.speedy (some [some (.lengthType .u8)]), .speedy (some [some (.constantPrefix [1])])], .str .owned, true, .bytes []⟩])
  (.cons ⟨rfl, rfl, rfl, List.Perm.swap _ _ _⟩ .nil)
example := C69_variants 255 (vs := [⟨[.speedy (some [some 3])], none, []⟩, ⟨[], none, []⟩]) (vs' := [⟨[.other, .speedy (some [some 3])], none, []⟩, ⟨[], none, []⟩])
  (.cons ⟨rfl, List.Perm.refl _, .nil⟩ (.cons ⟨rfl, List.Perm.refl _, .nil⟩ .nil)) none []
end

end Cases

end Verif
