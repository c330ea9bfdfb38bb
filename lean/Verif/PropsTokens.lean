import Verif.Tokens
import Verif.PropsOrder

/-!
# C73: what may be written in `#[speedy(...)]`

The macro accepts precisely the items described in the documentation, separated by commas; anything else (a misspelled word, an item in the wrong
place, a value which does not fit) is an error when the program is compiled, and never ignored.
-/

namespace Verif

/-- The words for the types of lengths and tags. -/
def lenWord : LenTy → String
  | .u7 => "u7"
  | .u8 => "u8"
  | .u16 => "u16"
  | .u32 => "u32"
  | .u64 => "u64"
  | .varint => "u64_varint"

/-- The tokens begin with `..`. -/
def StartsDots (ts : List Tok) : Prop := ∃ j rest, ts = .punct '.' true :: .punct '.' j :: rest

/-- An item of a field.  `Means ts e`: the tokens `ts` are the expression `e`. -/
inductive FieldItem {E : Type} (X : ExprSyntax E) (Means : List Tok → E → Prop) : List Tok → RawAttr → Prop
  | defaultOnEof : FieldItem X Means [.word "default_on_eof"] .defaultOnEof
  | skip : FieldItem X Means [.word "skip"] .skip
  | varint : FieldItem X Means [.word "varint"] .varint
  | toEnd (j j' : Bool) : FieldItem X Means [.word "length", .punct '=' j, .punct '.' true, .punct '.' j'] (.length none)
  | length (j : Bool) {ts : List Tok} {e : E} : Means ts e → ¬ StartsDots ts →
      FieldItem X Means (.word "length" :: .punct '=' j :: ts) (.length (some (X.value e)))
  | lengthType (j : Bool) (t : LenTy) : FieldItem X Means [.word "length_type", .punct '=' j, .word (lenWord t)] (.lengthType t)
  | constantPrefix (j : Bool) {ts : List Tok} {e : E} {bs : Bytes} : Means ts e → prefixBytes (X.shape e) = .ok bs →
      FieldItem X Means (.word "constant_prefix" :: .punct '=' j :: ts) (.constantPrefix bs)

/-- An item of a variant. -/
inductive VariantItem : List Tok → Nat → Prop
  | tag (j : Bool) (n : Nat) (suffix : String) : n < 2 ^ 64 → VariantItem [.word "tag", .punct '=' j, .lit (.int n suffix)] n

/-- An item of an enum. -/
inductive EnumItem : List Tok → EnumAttr → Prop
  | tagType (j : Bool) (t : LenTy) : EnumItem [.word "tag_type", .punct '=' j, .word (lenWord t)] (.tagType t)
  | peekTag : EnumItem [.word "peek_tag"] .peekTag

/-- An item of a struct. -/
inductive StructItem : List Tok → Unit → Prop
  | primitive (j : Bool) : StructItem [.word "unsafe_is_primitive", .punct '=' j, .word "always"] ()

/-- Items separated by commas, with or without a comma after the last one. -/
inductive Listed {α : Type} (S : List Tok → α → Prop) : List Tok → List α → Prop
  | nil : Listed S [] []
  | one {ts : List Tok} {a : α} : S ts a → Listed S ts [a]
  | cons {ts us : List Tok} {a : α} {as : List α} (j : Bool) : S ts a → Listed S us as → Listed S (ts ++ .punct ',' j :: us) (a :: as)

/-- Items with a comma after each of them: another item may follow. -/
inductive Before {α : Type} (S : List Tok → α → Prop) : List Tok → Prop
  | nil : Before S []
  | cons {ts us : List Tok} {a : α} (j : Bool) : S ts a → Before S us → Before S (ts ++ .punct ',' j :: us)

/-- Nothing follows, or a comma. -/
def Stops (rest : List Tok) : Prop := rest = [] ∨ ∃ j us, rest = .punct ',' j :: us

/-- What is expected of `syn::Expr`: the tokens it takes are an expression, and an expression before a comma, or at the end, is taken as a whole. -/
structure ExprLaws {E : Type} (X : ExprSyntax E) (Means : List Tok → E → Prop) : Prop where
  sound : ∀ {ts rest e}, X.parse ts = some (e, rest) → ∃ used, ts = used ++ rest ∧ Means used e
  complete : ∀ {used rest e}, Means used e → Stops rest → X.parse (used ++ rest) = some (e, rest)

/-- A parser which takes precisely the items of `S`. -/
structure Takes {α : Type} (item : TokParser α) (S : List Tok → α → Prop) : Prop where
  sound : ∀ {ts rest a}, item ts = .ok (a, rest) → ∃ used, ts = used ++ rest ∧ S used a
  complete : ∀ {used rest a}, S used a → Stops rest → item (used ++ rest) = .ok (a, rest)
  nonempty : ∀ {used a}, S used a → used ≠ []

/-! ## Lists of items -/

section
variable {α : Type} {item : TokParser α} {S : List Tok → α → Prop}

theorem parseTerminated_sound (T : Takes item S) : ∀ {n : Nat} {ts : List Tok} {as : List α}, parseTerminated item n ts = .ok as → Listed S ts as
  | 0, [], as, h => by simp only [parseTerminated, Except.ok.injEq] at h; subst h; exact .nil
  | 0, _ :: _, as, h => by simp [parseTerminated] at h
  | n + 1, [], as, h => by simp only [parseTerminated, Except.ok.injEq] at h; subst h; exact .nil
  | n + 1, t :: ts, as, h => by
    simp only [parseTerminated] at h
    split at h
    · simp at h
    · rename_i a hi
      obtain ⟨used, he, hs⟩ := T.sound hi
      simp only [Except.ok.injEq] at h
      subst h
      rw [he, List.append_nil]
      exact .one hs
    · rename_i a c j us hi
      obtain ⟨used, he, hs⟩ := T.sound hi
      split at h
      · rename_i hc
        subst hc
        split at h
        · simp at h
        · rename_i as' hr
          simp only [Except.ok.injEq] at h
          subst h
          rw [he]
          exact .cons j hs (parseTerminated_sound T hr)
      · simp at h
    · simp at h

theorem parseTerminated_step (T : Takes item S) {used us : List Tok} {a : α} {j : Bool} (hs : S used a) (n : Nat) :
    parseTerminated item (n + 1) (used ++ .punct ',' j :: us) =
      match parseTerminated item n us with
      | .error er => .error er
      | .ok as => .ok (a :: as) := by
  have hc := T.complete hs (rest := .punct ',' j :: us) (.inr ⟨j, us, rfl⟩)
  have hne := T.nonempty hs
  cases used with
  | nil => exact absurd rfl hne
  | cons t used =>
    simp only [List.cons_append] at hc ⊢
    simp only [parseTerminated, hc, if_true]
    cases parseTerminated item n us <;> rfl

theorem parseTerminated_complete (T : Takes item S) {ts : List Tok} {as : List α} (h : Listed S ts as) :
    ∀ n, ts.length ≤ n → parseTerminated item n ts = .ok as := by
  induction h with
  | nil => intro n _; cases n <;> rfl
  | @one ts a hs =>
    intro n hn
    have hc := T.complete hs (rest := []) (.inl rfl)
    have hne := T.nonempty hs
    cases ts with
    | nil => exact absurd rfl hne
    | cons t ts =>
      cases n with
      | zero => simp at hn
      | succ n =>
        rw [List.append_nil] at hc
        simp only [parseTerminated, hc]
  | @cons ts us a as j hs _ ih =>
    intro n hn
    cases n with
    | zero => simp at hn
    | succ n =>
      rw [parseTerminated_step T hs, ih n (by simp at hn; omega)]

theorem parseTokens_iff (T : Takes item S) (ts : List Tok) (as : List α) : parseTokens item ts = .ok as ↔ Listed S ts as :=
  ⟨parseTerminated_sound T, fun h => parseTerminated_complete T h _ (Nat.le_refl _)⟩

/-- What is not an item is rejected after any other items. -/
theorem parseTerminated_reject (T : Takes item S) {pre : List Tok} (hp : Before S pre) {t : Tok} {ts : List Tok}
    (hr : ∃ er, item (t :: ts) = .error er) : ∀ n, ∃ er, parseTerminated item n (pre ++ t :: ts) = .error er := by
  induction hp with
  | nil =>
    obtain ⟨er, hr⟩ := hr
    intro n
    cases n with
    | zero => exact ⟨_, rfl⟩
    | succ n => exact ⟨er, by simp only [List.nil_append, parseTerminated, hr]⟩
  | @cons us vs a j hs _ ih =>
    intro n
    cases n with
    | zero =>
      cases us with
      | nil => exact ⟨_, rfl⟩
      | cons => exact ⟨_, rfl⟩
    | succ n =>
      obtain ⟨er, he⟩ := ih n
      refine ⟨er, ?_⟩
      rw [List.append_assoc, List.cons_append, parseTerminated_step T hs, he]

end

/-! ## The items -/

theorem parseEq_ok {ts rest : List Tok} {u : Unit} (h : parseEq ts = .ok (u, rest)) : ∃ j, ts = .punct '=' j :: rest := by
  unfold parseEq at h
  split at h
  · rename_i c j ts
    split at h
    · rename_i hc
      simp only [Except.ok.injEq, Prod.mk.injEq, true_and] at h
      exact ⟨j, by rw [hc, h]⟩
    · simp at h
  · simp at h

theorem parseBasicType_ok {ts rest : List Tok} {t : LenTy} (h : parseBasicType ts = .ok (t, rest)) : ts = .word (lenWord t) :: rest := by
  unfold parseBasicType at h
  split at h
  · rename_i s ts
    repeat' split at h
    all_goals first
      | simp at h; done
      | (rename_i hs; simp only [Except.ok.injEq, Prod.mk.injEq] at h; obtain ⟨h1, h2⟩ := h; subst h1 h2; rw [hs]; rfl)
  · simp at h

theorem parseBasicType_word (t : LenTy) (rest : List Tok) : parseBasicType (.word (lenWord t) :: rest) = .ok (t, rest) := by
  cases t <;> rfl

theorem peekDots_iff (ts : List Tok) : peekDots ts = true ↔ StartsDots ts := by
  constructor
  · intro h
    unfold peekDots at h
    split at h
    · rename_i c j d j' rest
      simp only [Bool.and_eq_true, beq_iff_eq] at h
      obtain ⟨⟨hc, hj⟩, hd⟩ := h
      subst hc hj hd
      exact ⟨j', rest, rfl⟩
    · simp at h
  · rintro ⟨j, rest, rfl⟩
    rfl

theorem parseLengthKind_ok {E : Type} {X : ExprSyntax E} {Means : List Tok → E → Prop} (L : ExprLaws X Means) {ts rest : List Tok}
    {k : Option (List Val → Nat)} (h : parseLengthKind X ts = .ok (k, rest)) :
    (k = none ∧ ∃ j, ts = .punct '.' true :: .punct '.' j :: rest) ∨
      (¬ StartsDots ts ∧ ∃ used e, ts = used ++ rest ∧ Means used e ∧ k = some (X.value e)) := by
  unfold parseLengthKind at h
  split at h
  · rename_i hd
    obtain ⟨j, r, rfl⟩ := (peekDots_iff ts).1 hd
    simp only [List.drop, Except.ok.injEq, Prod.mk.injEq] at h
    obtain ⟨h1, h2⟩ := h
    subst h2
    exact .inl ⟨h1.symm, j, rfl⟩
  · rename_i hd
    split at h
    · simp at h
    · rename_i e us hp
      simp only [Except.ok.injEq, Prod.mk.injEq] at h
      obtain ⟨h1, h2⟩ := h
      subst h2
      obtain ⟨used, he, hm⟩ := L.sound hp
      exact .inr ⟨fun hs => hd ((peekDots_iff ts).2 hs), used, e, he, hm, h1.symm⟩

theorem takes_variant : Takes parseVariantItem VariantItem where
  sound {ts rest a} h := by
    unfold parseVariantItem at h
    split at h
    · rename_i s ts
      split at h
      · rename_i hs
        subst hs
        split at h
        · simp at h
        · rename_i u n suffix us he
          obtain ⟨j, rfl⟩ := parseEq_ok he
          split at h
          · rename_i hn
            simp only [Except.ok.injEq, Prod.mk.injEq] at h
            obtain ⟨h1, h2⟩ := h
            subst h1 h2
            exact ⟨_, rfl, .tag j n suffix hn⟩
          · simp at h
        · simp at h
      · simp at h
    · simp at h
  complete {used rest a} h _ := by
    cases h with
    | tag j _ suffix hn => simp [parseVariantItem, parseEq, hn]
  nonempty {used a} h := by cases h; simp

theorem takes_enum : Takes parseEnumItem EnumItem where
  sound {ts rest a} h := by
    unfold parseEnumItem at h
    split at h
    · rename_i s ts
      split at h
      · rename_i hs
        subst hs
        split at h
        · simp at h
        · rename_i u us he
          obtain ⟨j, rfl⟩ := parseEq_ok he
          split at h
          · simp at h
          · rename_i t vs hb
            simp only [Except.ok.injEq, Prod.mk.injEq] at h
            obtain ⟨h1, h2⟩ := h
            subst h1 h2
            rw [parseBasicType_ok hb]
            exact ⟨_, rfl, .tagType j t⟩
      · split at h
        · rename_i hs
          subst hs
          simp only [Except.ok.injEq, Prod.mk.injEq] at h
          obtain ⟨h1, h2⟩ := h
          subst h1 h2
          exact ⟨_, rfl, .peekTag⟩
        · simp at h
    · simp at h
  complete {used rest a} h _ := by
    cases h with
    | tagType j t => simp [parseEnumItem, parseEq, parseBasicType_word]
    | peekTag => simp [parseEnumItem]
  nonempty {used a} h := by cases h <;> simp

theorem takes_struct : Takes parseStructItem StructItem where
  sound {ts rest a} h := by
    unfold parseStructItem at h
    split at h
    · rename_i s ts
      split at h
      · rename_i hs
        subst hs
        split at h
        · simp at h
        · rename_i u us he
          obtain ⟨j, rfl⟩ := parseEq_ok he
          unfold parseIsPrimitive at h
          split at h
          · rename_i s vs
            split at h
            · rename_i hs
              subst hs
              simp only [Except.ok.injEq, Prod.mk.injEq] at h
              obtain ⟨_, h2⟩ := h
              subst h2
              exact ⟨_, rfl, .primitive j⟩
            · simp at h
          · simp at h
      · simp at h
    · simp at h
  complete {used rest a} h _ := by
    cases h with
    | primitive j => simp [parseStructItem, parseEq, parseIsPrimitive]
  nonempty {used a} h := by cases h; simp

theorem takes_field {E : Type} {X : ExprSyntax E} {Means : List Tok → E → Prop} (L : ExprLaws X Means) :
    Takes (parseFieldItem X) (FieldItem X Means) where
  sound {ts rest a} h := by
    unfold parseFieldItem at h
    split at h
    · rename_i s ts
      split at h
      · rename_i hs
        subst hs
        simp only [Except.ok.injEq, Prod.mk.injEq] at h
        obtain ⟨h1, h2⟩ := h
        subst h1 h2
        exact ⟨_, rfl, .defaultOnEof⟩
      split at h
      · rename_i hs
        subst hs
        split at h
        · simp at h
        · rename_i u us he
          obtain ⟨j, rfl⟩ := parseEq_ok he
          split at h
          · simp at h
          · rename_i k vs hk
            simp only [Except.ok.injEq, Prod.mk.injEq] at h
            obtain ⟨h1, h2⟩ := h
            subst h1 h2
            rcases parseLengthKind_ok L hk with ⟨rfl, j', rfl⟩ | ⟨hd, used, e, rfl, hm, rfl⟩
            · exact ⟨_, rfl, .toEnd j j'⟩
            · refine ⟨_, rfl, .length j hm ?_⟩
              rintro ⟨j', r, rfl⟩
              exact hd ⟨j', r ++ vs, rfl⟩
      split at h
      · rename_i hs
        subst hs
        split at h
        · simp at h
        · rename_i u us he
          obtain ⟨j, rfl⟩ := parseEq_ok he
          split at h
          · simp at h
          · rename_i t vs hb
            simp only [Except.ok.injEq, Prod.mk.injEq] at h
            obtain ⟨h1, h2⟩ := h
            subst h1 h2
            rw [parseBasicType_ok hb]
            exact ⟨_, rfl, .lengthType j t⟩
      split at h
      · rename_i hs
        subst hs
        simp only [Except.ok.injEq, Prod.mk.injEq] at h
        obtain ⟨h1, h2⟩ := h
        subst h1 h2
        exact ⟨_, rfl, .skip⟩
      split at h
      · rename_i hs
        subst hs
        split at h
        · simp at h
        · rename_i u us he
          obtain ⟨j, rfl⟩ := parseEq_ok he
          split at h
          · simp at h
          · rename_i e vs hp
            obtain ⟨used, rfl, hm⟩ := L.sound hp
            split at h
            · simp at h
            · rename_i bs hb
              simp only [Except.ok.injEq, Prod.mk.injEq] at h
              obtain ⟨h1, h2⟩ := h
              subst h1 h2
              exact ⟨_, rfl, .constantPrefix j hm hb⟩
      split at h
      · rename_i hs
        subst hs
        simp only [Except.ok.injEq, Prod.mk.injEq] at h
        obtain ⟨h1, h2⟩ := h
        subst h1 h2
        exact ⟨_, rfl, .varint⟩
      · simp at h
    · simp at h
  complete {used rest a} h hr := by
    cases h with
    | defaultOnEof => simp [parseFieldItem]
    | skip => simp [parseFieldItem]
    | varint => simp [parseFieldItem]
    | toEnd j j' => simp [parseFieldItem, parseEq, parseLengthKind, peekDots]
    | @length j ts e hm hd =>
      have hd' : peekDots (ts ++ rest) = false := by
        cases hp : peekDots (ts ++ rest) with
        | false => rfl
        | true =>
          obtain ⟨j', r, he⟩ := (peekDots_iff _).1 hp
          exfalso
          match ts, he, hd, hm with
          | [], he, _, _ =>
            rcases hr with hr | ⟨j'', us, hr⟩
            · subst hr; simp at he
            · subst hr; simp at he
          | [t], he, _, _ =>
            rcases hr with hr | ⟨j'', us, hr⟩
            · subst hr; simp at he
            · subst hr; simp at he
          | t :: t' :: ts, he, hd, _ =>
            simp only [List.cons_append, List.cons.injEq] at he
            obtain ⟨h1, h2, _⟩ := he
            subst h1 h2
            exact hd ⟨j', ts, rfl⟩
      simp [parseFieldItem, parseEq, parseLengthKind, hd', L.complete hm hr]
    | lengthType j t => simp [parseFieldItem, parseEq, parseBasicType_word]
    | constantPrefix j hm hb => simp [parseFieldItem, parseEq, L.complete hm hr, hb]
  nonempty {used a} h := by cases h <;> simp

/-! ## C73 -/

section
variable {E : Type} {X : ExprSyntax E} {Means : List Tok → E → Prop}

/-- **C73** What is accepted for a field, and what it stands for. -/
theorem C73_field (L : ExprLaws X Means) (ts : List Tok) (as : List RawAttr) :
    parseTokens (parseFieldItem X) ts = .ok as ↔ Listed (FieldItem X Means) ts as := parseTokens_iff (takes_field L) ts as

/-- **C73** What is accepted for a variant. -/
theorem C73_variant (ts : List Tok) (as : List Nat) : parseTokens parseVariantItem ts = .ok as ↔ Listed VariantItem ts as :=
  parseTokens_iff takes_variant ts as

/-- **C73** What is accepted for an enum. -/
theorem C73_enum (ts : List Tok) (as : List EnumAttr) : parseTokens parseEnumItem ts = .ok as ↔ Listed EnumItem ts as :=
  parseTokens_iff takes_enum ts as

/-- **C73** What is accepted for a struct. -/
theorem C73_struct (ts : List Tok) (as : List Unit) : parseTokens parseStructItem ts = .ok as ↔ Listed StructItem ts as :=
  parseTokens_iff takes_struct ts as

end

/-- The words with which the items of fields begin, of variants, enums and structs. -/
def fieldWords : List String := ["default_on_eof", "length", "length_type", "skip", "constant_prefix", "varint"]
def variantWords : List String := ["tag"]
def enumWords : List String := ["tag_type", "peek_tag"]
def structWords : List String := ["unsafe_is_primitive"]

/-- A word which does not begin an item, at a place where one begins; or `#[speedy]` without parentheses. -/
inductive Misspelled {α : Type} (S : List Tok → α → Prop) (words : List String) : TokAttr → Prop
  | word {pre rest : List Tok} {w : String} : Before S pre → w ∉ words → Misspelled S words (.speedy (some (pre ++ .word w :: rest)))
  | bare : Misspelled S words (.speedy none)

theorem parseFieldItem_word {E : Type} (X : ExprSyntax E) {w : String} (hw : w ∉ fieldWords) (ts : List Tok) :
    ∃ er, parseFieldItem X (.word w :: ts) = .error er := by
  simp only [fieldWords, List.mem_cons, List.not_mem_nil, or_false, not_or] at hw
  exact ⟨.malformed, by simp [parseFieldItem, hw]⟩

theorem parseVariantItem_word {w : String} (hw : w ∉ variantWords) (ts : List Tok) : ∃ er, parseVariantItem (.word w :: ts) = .error er := by
  simp only [variantWords, List.mem_cons, List.not_mem_nil, or_false] at hw
  exact ⟨.malformed, by simp [parseVariantItem, hw]⟩

theorem parseEnumItem_word {w : String} (hw : w ∉ enumWords) (ts : List Tok) : ∃ er, parseEnumItem (.word w :: ts) = .error er := by
  simp only [enumWords, List.mem_cons, List.not_mem_nil, or_false, not_or] at hw
  exact ⟨.malformed, by simp [parseEnumItem, hw]⟩

theorem parseStructItem_word {w : String} (hw : w ∉ structWords) (ts : List Tok) : ∃ er, parseStructItem (.word w :: ts) = .error er := by
  simp only [structWords, List.mem_cons, List.not_mem_nil, or_false] at hw
  exact ⟨.malformed, by simp [parseStructItem, hw]⟩

/-! ## Attributes with their tokens -/

section
variable {α : Type} {item : TokParser α} {S : List Tok → α → Prop}

theorem parseItems_some : ∀ (as : List α), parseItems (as.map some) = .ok as
  | [] => rfl
  | a :: as => by simp only [List.map_cons, parseItems, parseItems_some as]

/-- `parse_attributes` on tokens and on the items which are found in them are the same, up to which error is reported. -/
theorem tokAttributes_outer (item : TokParser α) : ∀ (as : List TokAttr),
    SameOutcome (tokAttributes item as) (parseAttributes (as.map (TokAttr.outer item)))
  | [] => .refl _
  | .speedy none :: as => .refl _
  | .repr _ :: as => tokAttributes_outer item as
  | .other :: as => tokAttributes_outer item as
  | .speedy (some ts) :: as => by
    have ih := tokAttributes_outer item as
    simp only [tokAttributes, List.map_cons, TokAttr.outer]
    cases parseTokens item ts with
    | error er => exact .err _ _
    | ok here =>
      simp only [parseAttributes, parseItems_some]
      rcases ih with ih | ⟨⟨e, h1⟩, ⟨e', h2⟩⟩
      · rw [ih]; exact .refl _
      · rw [h1, h2]; exact .err _ _

/-- What is listed in all attributes together. -/
inductive AllListed (S : List Tok → α → Prop) : List TokAttr → List α → Prop
  | nil : AllListed S [] []
  | speedy {ts : List Tok} {as : List TokAttr} {xs ys : List α} : Listed S ts xs → AllListed S as ys →
      AllListed S (.speedy (some ts) :: as) (xs ++ ys)
  | repr {r : Option (List String)} {as : List TokAttr} {xs : List α} : AllListed S as xs → AllListed S (.repr r :: as) xs
  | other {as : List TokAttr} {xs : List α} : AllListed S as xs → AllListed S (.other :: as) xs

theorem items_outer (T : Takes item S) {as : List TokAttr} {xs : List α} (h : AllListed S as xs) : items (as.map (TokAttr.outer item)) = xs.map some := by
  induction h with
  | nil => rfl
  | speedy hl _ ih => simp only [List.map_cons, TokAttr.outer, (parseTokens_iff T _ _).2 hl, items, ih, List.map_append]
  | repr _ ih => exact ih
  | other _ ih => exact ih

theorem misspelled_outer (T : Takes item S) {words : List String} (hw : ∀ w ts, w ∉ words → ∃ er, item (.word w :: ts) = .error er) {a : TokAttr}
    (h : Misspelled S words a) : ∀ {as : List TokAttr}, a ∈ as → ∃ er, parseAttributes (as.map (TokAttr.outer item)) = .error er := by
  have key : a.outer item = .speedy none ∨ a.outer item = .speedy (some [none]) := by
    cases h with
    | bare => exact .inl rfl
    | @word pre rest w hp hn =>
      obtain ⟨er, he⟩ := parseTerminated_reject T hp (hw w rest hn) (pre ++ .word w :: rest).length
      refine .inr ?_
      simp only [TokAttr.outer, parseTokens, he]
  intro as ha
  rw [parseAttributes_eq]
  have hm : none ∈ items (as.map (TokAttr.outer item)) := by
    clear h
    induction as with
    | nil => simp at ha
    | cons b as ih =>
      rcases List.mem_cons.1 ha with rfl | ha
      · rcases key with key | key <;> simp [key, items]
      · have := ih ha
        simp only [List.map_cons]
        cases b.outer item with
        | speedy l =>
          cases l with
          | none => simp [items]
          | some l => simp only [items]; exact List.mem_append_right _ this
        | repr => exact this
        | other => exact this
  cases hp : parseItems (items (as.map (TokAttr.outer item))) with
  | error er => exact ⟨er, rfl⟩
  | ok xs =>
    exfalso
    generalize items (as.map (TokAttr.outer item)) = l at hm hp
    clear ha
    induction l generalizing xs with
    | nil => simp at hm
    | cons x l ih =>
      cases x with
      | none => simp [parseItems] at hp
      | some x =>
        simp only [List.mem_cons, reduceCtorEq, false_or] at hm
        simp only [parseItems] at hp
        split at hp
        · simp at hp
        · rename_i rest hr
          exact ih rest hm hr

end

/-! ## Whole declarations -/

theorem srcFields_err : ∀ {fs : List SrcField} {f : SrcField}, f ∈ fs → (∃ er, parseAttributes f.attrs = .error er) →
    ∀ b, ∃ er, srcFields b fs = .error er
  | [], f, hf, _, _ => by simp at hf
  | g :: fs, f, hf, ⟨er, he⟩, true => ⟨_, rfl⟩
  | g :: fs, f, hf, ⟨er, he⟩, false => by
    rcases List.mem_cons.1 hf with rfl | hf
    · exact ⟨er, by simp only [srcFields, he]⟩
    · simp only [srcFields]
      split
      · exact ⟨_, rfl⟩
      · split
        · exact ⟨_, rfl⟩
        · rename_i c _
          obtain ⟨er', he'⟩ := srcFields_err hf ⟨er, he⟩ c.untilEof
          split
          · exact ⟨_, rfl⟩
          · rw [he']
            exact ⟨er', rfl⟩

theorem srcVariants_err {max : Nat} : ∀ {vs : List SrcVariant} {v : SrcVariant}, v ∈ vs →
    ((∃ er, parseAttributes v.attrs = .error er) ∨ ∃ er, srcFields false v.fields = .error er) →
    ∀ prev seen, ∃ er, srcVariants max prev seen vs = .error er
  | [], v, hv, _, _, _ => by simp at hv
  | w :: vs, v, hv, hb, prev, seen => by
    simp only [srcVariants]
    split
    · exact ⟨_, rfl⟩
    · rename_i as ha
      split
      · exact ⟨_, rfl⟩
      · split
        · exact ⟨_, rfl⟩
        · rename_i tag _
          split
          · exact ⟨_, rfl⟩
          · split
            · exact ⟨_, rfl⟩
            · rename_i F hF
              rcases List.mem_cons.1 hv with rfl | hv
              · rcases hb with ⟨er, he⟩ | ⟨er, he⟩
                · rw [ha] at he; simp at he
                · rw [hF] at he; simp at he
              · obtain ⟨er', he'⟩ := srcVariants_err hv hb (some tag) (tag :: seen)
                rw [he']
                exact ⟨er', rfl⟩

section
variable {E : Type} {X : ExprSyntax E} {Means : List Tok → E → Prop}

/-- A misspelled item somewhere among the attributes. -/
def Bad {α : Type} (S : List Tok → α → Prop) (words : List String) (as : List TokAttr) : Prop := ∃ a ∈ as, Misspelled S words a

theorem bad_field (L : ExprLaws X Means) {f : TokField} (h : Bad (FieldItem X Means) fieldWords f.attrs) :
    ∃ er, parseAttributes (f.src X).attrs = .error er := by
  obtain ⟨a, ha, hm⟩ := h
  exact misspelled_outer (takes_field L) (fun w ts hw => parseFieldItem_word X hw ts) hm ha

/-- **C73** A struct with a word in a `#[speedy(...)]` which is none of those for the place where it stands (on the struct itself, or on a field) is
rejected, whatever else it has. -/
theorem C73_rejected_struct (L : ExprLaws X Means) {attrs : List TokAttr} {fs : List TokField}
    (h : Bad StructItem structWords attrs ∨ ∃ f ∈ fs, Bad (FieldItem X Means) fieldWords f.attrs) :
    ∃ er, tokStruct X attrs fs = .error er := by
  unfold tokStruct srcStruct
  rcases h with ⟨a, ha, hm⟩ | ⟨f, hf, hb⟩
  · obtain ⟨er, he⟩ := misspelled_outer takes_struct (fun w ts hw => parseStructItem_word hw ts) hm ha
    exact ⟨er, by simp only [he]⟩
  · obtain ⟨er, he⟩ := srcFields_err (List.mem_map_of_mem (f := TokField.src X) hf) (bad_field L hb) false
    split
    · exact ⟨_, rfl⟩
    · split
      · exact ⟨_, rfl⟩
      · exact ⟨er, by simp only [he]⟩

/-- **C73** The same for an enum, its variants, and the fields of its variants. -/
theorem C73_rejected_enum (L : ExprLaws X Means) {name : Nat} {attrs : List TokAttr} {vs : List TokVariant}
    (h : Bad EnumItem enumWords attrs ∨ ∃ v ∈ vs, Bad VariantItem variantWords v.attrs ∨
      ∃ f ∈ v.fields, Bad (FieldItem X Means) fieldWords f.attrs) :
    ∃ er, tokEnum X name attrs vs = .error er := by
  unfold tokEnum srcEnum
  rcases h with ⟨a, ha, hm⟩ | ⟨v, hv, hb⟩
  · obtain ⟨er, he⟩ := misspelled_outer takes_enum (fun w ts hw => parseEnumItem_word hw ts) hm ha
    exact ⟨er, by simp only [he]⟩
  · split
    · exact ⟨_, rfl⟩
    · split
      · exact ⟨_, rfl⟩
      · rename_i tagType peek _
        have hbad : (∃ er, parseAttributes (v.src X).attrs = .error er) ∨ ∃ er, srcFields false (v.src X).fields = .error er := by
          rcases hb with ⟨a, ha, hm⟩ | ⟨f, hf, hb⟩
          · exact .inl (misspelled_outer takes_variant (fun w ts hw => parseVariantItem_word hw ts) hm ha)
          · exact .inr (srcFields_err (List.mem_map_of_mem (f := TokField.src X) hf) (bad_field L hb) false)
        obtain ⟨er, he⟩ := srcVariants_err (max := (tagType.getD .u32).max) (List.mem_map_of_mem (f := TokVariant.src X) hv) hbad none []
        exact ⟨er, by simp only [he]⟩

/-- **C73** `#[speedy(...)]` in which nothing is wrong: the items found are those which are listed, in their order. -/
theorem C73_attributes {α : Type} {item : TokParser α} {S : List Tok → α → Prop} (T : Takes item S) {as : List TokAttr} {xs : List α}
    (h : AllListed S as xs) : tokAttributes item as = .ok xs := by
  induction h with
  | nil => rfl
  | speedy hl _ ih => simp only [tokAttributes, (parseTokens_iff T _ _).2 hl, ih]
  | repr _ ih => exact ih
  | other _ ih => exact ih

/-- **C69** Attributes whose tokens list the same items, in another order or grouped in another way, are the same for the macro. -/
theorem C69_tokens {α : Type} {item : TokParser α} {S : List Tok → α → Prop} (T : Takes item S) {as as' : List TokAttr} {xs xs' : List α}
    (h : AllListed S as xs) (h' : AllListed S as' xs') (hp : xs.Perm xs') :
    SameItems (as.map (TokAttr.outer item)) (as'.map (TokAttr.outer item)) := by
  unfold SameItems
  rw [items_outer T h, items_outer T h']
  exact hp.map _

end

/-! ## Cases -/

namespace TokenSamples

/-- Expressions which are a single literal, with its number as value. -/
def single : ExprSyntax Lit where
  parse
    | .lit l :: rest => some (l, rest)
    | _ => none
  shape l := .lit l
  value l _ := match l with
    | .int n _ => n
    | _ => 0

theorem single_laws : ExprLaws single (fun ts l => ts = [.lit l]) where
  sound {ts rest e} h := by
    simp only [single] at h
    split at h
    · simp only [Option.some.injEq, Prod.mk.injEq] at h
      obtain ⟨rfl, rfl⟩ := h
      exact ⟨_, rfl, rfl⟩
    · simp at h
  complete {used rest e} h _ := by subst h; rfl

/-- `length = 4, default_on_eof,` -/
def good : List Tok := [.word "length", .punct '=' false, .lit (.int 4 ""), .punct ',' false, .word "default_on_eof", .punct ',' false]

example : Listed (FieldItem single fun ts l => ts = [.lit l]) good [.length (some (single.value (.int 4 ""))), .defaultOnEof] :=
  .cons (ts := [_, _, _]) false (.length false rfl (by rintro ⟨j, r, h⟩; simp at h)) (.cons (ts := [_]) false .defaultOnEof .nil)
example : ∃ as, parseTokens (parseFieldItem single) good = .ok as ∧ as.length = 2 := ⟨_, rfl, rfl⟩
/-- `tag = 3u8` -/
example : parseTokens parseVariantItem [.word "tag", .punct '=' false, .lit (.int 3 "u8")] = .ok [3] := by decide
/-- `tag = -3` -/
example : parseTokens parseVariantItem [.word "tag", .punct '=' false, .punct '-' false, .lit (.int 3 "")] = .error .malformed := by decide
/-- `tag_type = u7, peek_tag` -/
example : parseTokens parseEnumItem [.word "tag_type", .punct '=' false, .word "u7", .punct ',' false, .word "peek_tag"] = .ok [.tagType .u7, .peekTag] := by
  decide
/-- `tag_type = i8` -/
example : parseTokens parseEnumItem [.word "tag_type", .punct '=' false, .word "i8"] = .error .malformed := by decide
example : parseTokens parseStructItem [.word "unsafe_is_primitive", .punct '=' false, .word "always"] = .ok [()] := by decide
/-- `length = ..` and `length = ..=4`: the second is not an expression here. -/
example : (∃ as, parseTokens (parseFieldItem single) [.word "length", .punct '=' false, .punct '.' true, .punct '.' false] = .ok as) ∧
    parseTokens (parseFieldItem single) [.word "length", .punct '=' false, .punct '.' true, .punct '.' true, .punct '=' false, .lit (.int 4 "")]
      = .error .malformed := ⟨⟨_, rfl⟩, rfl⟩

/-- `length = 4, defualt_on_eof` -/
def typo : TokAttr := .speedy (some ([.word "length", .punct '=' false, .lit (.int 4 ""), .punct ',' false] ++ [.word "defualt_on_eof"]))

theorem typo_misspelled : Misspelled (FieldItem single fun ts l => ts = [.lit l]) fieldWords typo :=
  .word (.cons (ts := [_, _, _]) false (.length (e := .int 4 "") false rfl (by rintro ⟨j, r, h⟩; simp at h)) .nil) (by decide)

example : ∃ er, tokStruct single [.other] [⟨[], .seq .vec (.prim .u8), true, .list []⟩, ⟨[.other, typo], .seq .vec (.prim .u8), true, .list []⟩] = .error er :=
  C73_rejected_struct single_laws (.inr ⟨_, .tail _ (.head _), typo, .tail _ (.head _), typo_misspelled⟩)
/-- Without the slip it is accepted. -/
example : ∃ F, tokStruct single [.other] [⟨[], .seq .vec (.prim .u8), true, .list []⟩, ⟨[.other, .speedy (some good)], .seq .vec (.prim .u8), true, .list []⟩]
    = .ok (false, F) := ⟨_, rfl⟩
/-- An item in the wrong place: `tag` on the enum instead of the variant. -/
example : ∃ er, tokEnum single 0 [.speedy (some [.word "tag", .punct '=' false, .lit (.int 3 "")])] [⟨[], none, []⟩] = .error er :=
  C73_rejected_enum single_laws (.inl ⟨_, .head _, .word (pre := []) (w := "tag") .nil (by decide)⟩)
example : ∃ r, tokEnum single 0 [] [⟨[.speedy (some [.word "tag", .punct '=' false, .lit (.int 3 "")])], none, []⟩] = .ok r := ⟨_, rfl⟩

/-- `#[speedy(peek_tag, tag_type = u8)]`, and `#[speedy(tag_type = u8)] #[doc] #[speedy(peek_tag)]`. -/
example : SameItems
    ([TokAttr.speedy (some [.word "peek_tag", .punct ',' false, .word "tag_type", .punct '=' false, .word "u8"])].map (TokAttr.outer parseEnumItem))
    ([TokAttr.speedy (some [.word "tag_type", .punct '=' false, .word "u8"]), .other, .speedy (some [.word "peek_tag"])].map
      (TokAttr.outer parseEnumItem)) :=
  C69_tokens takes_enum (xs := [EnumAttr.peekTag, EnumAttr.tagType .u8]) (xs' := [EnumAttr.tagType .u8, EnumAttr.peekTag])
    (.speedy (xs := [EnumAttr.peekTag, EnumAttr.tagType .u8]) (ys := []) (.cons (ts := [_]) false EnumItem.peekTag (.one (EnumItem.tagType false .u8))) .nil)
    (.speedy (xs := [EnumAttr.tagType .u8]) (ys := [EnumAttr.peekTag]) (.one (EnumItem.tagType false .u8))
      (.other (.speedy (xs := [EnumAttr.peekTag]) (ys := []) (.one EnumItem.peekTag) .nil)))
    (List.Perm.swap _ _ _)

end TokenSamples

/-! ## Cases -/

section Cases
open Samples

section
open TokenSamples
/-- `tag_type = u16, peek_tag,` -/
example : parseTokens parseEnumItem [.word "tag_type", .punct '=' false, .word "u16", .punct ',' false, .word "peek_tag", .punct ',' false] =
    .ok [.tagType .u16, .peekTag] :=
  (C73_enum _ _).2 (.cons (ts := [_, _, _]) false (EnumItem.tagType false .u16) (.cons (ts := [_]) false EnumItem.peekTag .nil))

example : parseTokens parseVariantItem [.word "tag", .punct '=' false, .lit (.int 3 "u8")] = .ok [3] :=
  (C73_variant _ _).2 ((C73_variant _ _).1 (by decide))

example : Listed StructItem [.word "unsafe_is_primitive", .punct '=' false, .word "always"] [()] := (C73_struct _ _).1 (by decide)

example : parseTokens (parseFieldItem single) good = .ok [.length (some (single.value (.int 4 ""))), .defaultOnEof] :=
  (C73_field single_laws _ _).2
    (.cons (ts := [_, _, _]) false (.length false rfl (by rintro ⟨j, r, h⟩; simp at h)) (.cons (ts := [_]) false .defaultOnEof .nil))

example : tokAttributes parseEnumItem [.speedy (some [.word "tag_type", .punct '=' false, .word "u8"]), .other, .speedy (some [.word "peek_tag"])] =
    .ok [.tagType .u8, .peekTag] :=
  C73_attributes takes_enum (.speedy (xs := [EnumAttr.tagType .u8]) (ys := [EnumAttr.peekTag]) (.one (EnumItem.tagType false .u8))
    (.other (.speedy (xs := [EnumAttr.peekTag]) (ys := []) (.one EnumItem.peekTag) .nil)))

end

end Cases

end Verif
