import Verif.PropsEof

/-!
# Types which have got further fields at their end

Two versions of a type: the later one has further fields after the last field of a struct or variant, or of one which comes last in it.
-/

namespace Verif

mutual
/-- How the second type has come about from the first one. -/
inductive Grown : Ty → Ty → Type
  | same (t : Ty) : Grown t t
  | option {t t' : Ty} (g : Grown t t') : Grown (.option t) (.option t')
  | box {t t' : Ty} (g : Grown t t') : Grown (.box t) (.box t')
  | result {a a' b b' : Ty} (g : Grown a a') (g' : Grown b b') : Grown (.result a b) (.result a' b')
  /-- The rest of a tuple. -/
  | tuple (a : Ty) {b b' : Ty} (g : Grown b b') : Grown (.pair a b) (.pair a b')
  /-- The last component of a tuple. -/
  | last {a a' : Ty} (g : Grown a a') : Grown (.pair a .unit) (.pair a' .unit)
  | struct (d d' : StructDesc) {fs fs' : Fields} (g : GrownFields fs fs') : Grown (.struct d fs) (.struct d' fs')
  | enum (d : EnumDesc) {vs vs' : Variants} (g : GrownVariants vs vs') : Grown (.enum d vs) (.enum d vs')
/-- Fields. -/
inductive GrownFields : Fields → Fields → Type
  /-- The fields `gs` are new. -/
  | added (gs : Fields) : GrownFields .nil gs
  | next (a : Attrs) (t : Ty) {fs fs' : Fields} (g : GrownFields fs fs') : GrownFields (.cons a t fs) (.cons a t fs')
  /-- The type of the last field has grown; the fields `gs` are new. -/
  | last (a : Attrs) (hs : a.skip = false) {t t' : Ty} (g : Grown t t') (gs : Fields) : GrownFields (.cons a t .nil) (.cons a t' gs)
/-- Variants. -/
inductive GrownVariants : Variants → Variants → Type
  | nil : GrownVariants .nil .nil
  | cons (tag : Nat) {fs fs' : Fields} {vs vs' : Variants} (g : GrownFields fs fs') (g' : GrownVariants vs vs') :
    GrownVariants (.cons tag fs vs) (.cons tag fs' vs')
end

mutual
/-- The value with the new fields, which have their default values. -/
def Grown.up : {t t' : Ty} → Grown t t' → Val → Val
  | _, _, .same _, v => v
  | _, _, .option g, .some v => .some (g.up v)
  | _, _, .box g, v => g.up v
  | _, _, .result _ g', .variant 0 v => .variant 0 (g'.up v)
  | _, _, .result g _, .variant 1 v => .variant 1 (g.up v)
  | _, _, .tuple _ g, .pair v w => .pair v (g.up w)
  | _, _, .last g, .pair v w => .pair (g.up v) w
  | _, _, .struct _ _ g, v => g.up v
  | _, _, .enum _ g, .variant i v => .variant i (g.up i v)
  | _, _, _, v => v
/-- Fields. -/
def GrownFields.up : {fs fs' : Fields} → GrownFields fs fs' → Val → Val
  | _, _, .added gs, _ => gs.defaults
  | _, _, .next _ _ g, .pair v w => .pair v (g.up w)
  | _, _, .last _ _ g gs, .pair v _ => .pair (g.up v) gs.defaults
  | _, _, _, v => v
/-- Variants. -/
def GrownVariants.up : {vs vs' : Variants} → GrownVariants vs vs' → Nat → Val → Val
  | _, _, .cons _ g _, 0, v => g.up v
  | _, _, .cons _ _ g', i + 1, v => g'.up i v
  | _, _, .nil, _, v => v
end

mutual
/-- The value without the new fields. -/
def Grown.down : {t t' : Ty} → Grown t t' → Val → Val
  | _, _, .same _, v => v
  | _, _, .option g, .some v => .some (g.down v)
  | _, _, .box g, v => g.down v
  | _, _, .result _ g', .variant 0 v => .variant 0 (g'.down v)
  | _, _, .result g _, .variant 1 v => .variant 1 (g.down v)
  | _, _, .tuple _ g, .pair v w => .pair v (g.down w)
  | _, _, .last g, .pair v w => .pair (g.down v) w
  | _, _, .struct _ _ g, v => g.down v
  | _, _, .enum _ g, .variant i v => .variant i (g.down i v)
  | _, _, _, v => v
/-- Fields. -/
def GrownFields.down : {fs fs' : Fields} → GrownFields fs fs' → Val → Val
  | _, _, .added _, _ => .unit
  | _, _, .next _ _ g, .pair v w => .pair v (g.down w)
  | _, _, .last _ _ g _, .pair v _ => .pair (g.down v) .unit
  | _, _, _, v => v
/-- Variants. -/
def GrownVariants.down : {vs vs' : Variants} → GrownVariants vs vs' → Nat → Val → Val
  | _, _, .cons _ g _, 0, v => g.down v
  | _, _, .cons _ _ g', i + 1, v => g'.down i v
  | _, _, .nil, _, v => v
end

mutual
/-- All new fields are marked `default_on_eof` (or skipped), with the conditions of C23 (`fillable`). -/
def Grown.fills : {t t' : Ty} → Grown t t' → Bool
  | _, _, .same _ => true
  | _, _, .option g => g.fills
  | _, _, .box g => g.fills
  | _, _, .result g g' => g.fills && g'.fills
  | _, _, .tuple _ g => g.fills
  | _, _, .last g => g.fills
  | _, _, .struct _ _ g => g.fills
  | _, _, .enum _ g => g.fills
/-- Fields. -/
def GrownFields.fills : {fs fs' : Fields} → GrownFields fs fs' → Bool
  | _, _, .added gs => gs.all fillable
  | _, _, .next _ _ g => g.fills
  | _, _, .last _ _ g gs => g.fills && gs.all fillable
/-- Variants. -/
def GrownVariants.fills : {vs vs' : Variants} → GrownVariants vs vs' → Bool
  | _, _, .nil => true
  | _, _, .cons _ g g' => g.fills && g'.fills
end

/-! ## Heads of types -/

theorem opt_grown {t t' : Ty} (g : Grown t t') (l : LenR) : l.opt t = l.opt t' := by
  cases g <;> rfl

theorem container_grown {t t' : Ty} (g : Grown t t') : t.isContainer = t'.isContainer := by
  cases g <;> rfl

theorem tags_grown : ∀ {vs vs' : Variants}, GrownVariants vs vs' → vs.tags = vs'.tags
  | _, _, .nil => rfl
  | _, _, .cons tag _ g' => by simp only [Variants.tags, tags_grown g']

/-! ## Data from before -/

theorem P.bind_inv {α β : Type} {p : P α} {f : α → P β} {bs rest : Bytes} {b : β} (h : (P.bind p f) bs = .ok b rest) :
    ∃ a m, p bs = .ok a m ∧ f a m = .ok b rest := by
  unfold P.bind at h
  cases hp : p bs <;> simp only [hp] at h <;> first | contradiction | exact ⟨_, _, rfl, h⟩

theorem P.map_inv {α β : Type} {p : P α} {f : α → β} {bs rest : Bytes} {b : β} (h : (P.map f p) bs = .ok b rest) :
    ∃ a, p bs = .ok a rest ∧ f a = b := by
  obtain ⟨a, m, h1, h2⟩ := P.bind_inv h
  simp only [P.pure, PRes.ok.injEq] at h2
  exact ⟨a, by rw [h1, h2.2], h2.1⟩

/-- Only the whole input. -/
theorem Codes.whole {α : Type} {tl : Bool} {p : P α} {bs : Bytes} {a : α} (h : Codes tl false p bs a) : Codes true false p bs a :=
  ⟨fun rest hr => by rw [hr rfl]; exact h.1 [] (fun _ => rfl), by simp⟩

theorem codes_all {α : Type} {p : P α} {bs : Bytes} {a : α} (h : p bs = .ok a []) : Codes true false p bs a :=
  ⟨fun rest hr => by rw [hr rfl, List.append_nil]; exact h, by simp⟩

/-- The body of a field: prefix and `default_on_eof`. -/
theorem codes_field {T : Target} {a : Attrs} {p : P Val} {x : Bytes} {v : Val} (hp : a.pre.length ≤ T.isizeMax) (h : Codes true false p x v) :
    Codes true false (if a.defaultOnEof then pOnEof (if a.pre.isEmpty then p else P.bind (pConst T a.pre) fun _ => p) a.dflt
      else if a.pre.isEmpty then p else P.bind (pConst T a.pre) fun _ => p) (a.pre ++ x) v := by
  have h2 : Codes true false (if a.pre.isEmpty then p else P.bind (pConst T a.pre) fun _ => p) (a.pre ++ x) v := by
    by_cases he : a.pre.isEmpty = true
    · rw [if_pos he]
      have : a.pre = [] := by simpa using he
      rw [this]
      exact h
    · rw [if_neg he]
      exact codes_bind (codes_const hp) h
  split
  · exact codes_onEof rfl h2
  · exact h2

section
set_option linter.unusedSectionVars false
variable {T : Target} (hT : T.Ok) {e : Endian} (hfuel : 0 < T.fuel)
include hT hfuel

mutual
/-- What was written of the old type is read as the new one. -/
theorem parse_up : ∀ {t t' : Ty} (g : Grown t t') (tl : Bool) (l : LenR) (inl : Bool) (v : Val) (bs : Bytes), g.fills = true →
    layoutOk T t' = true → declOk t' = true → regular T e t' = true → ends tl false t' = true → lenOk tl false l t' = true →
    hasTy T t v → canon (Fmt.code T.toHost e) t v → wire (Fmt.code T.toHost e) t l v = .ok bs → Fits T bs →
    Codes true false (parse T e t' ⟨l.cast T.toHost, inl⟩) bs (g.up v)
  | _, _, .same t, tl, l, inl, v, bs, _, hl, hd, hr, he, hlen, hv, hc, hw, hB => by
    simp only [Grown.up]
    exact (parse_codes hT t tl l inl v bs hl hd hr he hlen hv hc hw hB).whole
  | _, _, .option (t := t) (t' := t') g, tl, l, inl, v, bs, hg, hl, hd, hr, he, hlen, hv, hc, hw, hB => by
    simp only [layoutOk] at hl
    simp only [declOk] at hd
    simp only [ends] at he
    simp only [regular] at hr
    simp only [Grown.fills] at hg
    simp only [parse]
    cases v with
    | none =>
      simp only [wire, Except.ok.injEq] at hw
      subst hw
      exact codes_then (codes_bool false) (codes_ite_neg (by simp) (codes_pure _))
    | some v =>
      simp only [hasTy] at hv
      simp only [canon] at hc
      obtain ⟨x, y, h1, h2, rfl⟩ := cat_eq_ok hw
      simp only [Except.ok.injEq] at h1
      subst h1
      simp only [Grown.up]
      refine codes_bind (codes_bool true) (codes_ite_pos rfl (codes_map ?_))
      obtain ⟨inl', hcx⟩ := cast_opt T.toHost l inl t'
      rw [hcx]
      rw [opt_grown g] at h2
      exact parse_up g tl (l.opt t') inl' v y hg hl hd hr he (lenOk_opt hlen) hv hc h2 hB.right
    | _ => simp [hasTy] at hv
  | _, _, .box g, tl, l, inl, v, bs, hg, hl, hd, hr, he, hlen, hv, hc, hw, hB => by
    simp only [layoutOk] at hl
    simp only [declOk] at hd
    simp only [ends] at he
    simp only [regular] at hr
    simp only [Grown.fills] at hg
    simp only [hasTy] at hv
    simp only [canon] at hc
    simp only [wire] at hw
    simp only [parse, Grown.up]
    exact parse_up g tl LenR.std false v bs hg hl hd hr he (lenOk_std _ _ _) hv hc hw hB
  | _, _, .result g g', tl, l, inl, .variant 1 v, bs, hg, hl, hd, hr, he, hlen, hv, hc, hw, hB => by
    simp only [layoutOk, Bool.and_eq_true] at hl
    simp only [declOk, Bool.and_eq_true] at hd
    simp only [ends, Bool.and_eq_true] at he
    simp only [regular, Bool.and_eq_true] at hr
    simp only [Grown.fills, Bool.and_eq_true] at hg
    simp only [hasTy] at hv
    simp only [canon] at hc
    simp only [parse, Grown.up]
    obtain ⟨x, y, h1, h2, rfl⟩ := cat_eq_ok hw
    simp only [Except.ok.injEq] at h1
    subst h1
    exact codes_bind (codes_bool true) (codes_ite_pos rfl (codes_map
      (parse_up g tl LenR.std false v y hg.1 hl.1 hd.1 hr.1 he.1 (lenOk_std _ _ _) hv hc h2 hB.right)))
  | _, _, .result g g', tl, l, inl, .variant 0 v, bs, hg, hl, hd, hr, he, hlen, hv, hc, hw, hB => by
    simp only [layoutOk, Bool.and_eq_true] at hl
    simp only [declOk, Bool.and_eq_true] at hd
    simp only [ends, Bool.and_eq_true] at he
    simp only [regular, Bool.and_eq_true] at hr
    simp only [Grown.fills, Bool.and_eq_true] at hg
    simp only [hasTy] at hv
    simp only [canon] at hc
    simp only [parse, Grown.up]
    obtain ⟨x, y, h1, h2, rfl⟩ := cat_eq_ok hw
    simp only [Except.ok.injEq] at h1
    subst h1
    exact codes_bind (codes_bool false) (codes_ite_neg (by simp) (codes_map
      (parse_up g' tl LenR.std false v y hg.2 hl.2 hd.2 hr.2 he.2 (lenOk_std _ _ _) hv hc h2 hB.right)))
  | _, _, .tuple a (b := b) (b' := b') g, tl, l, inl, v, bs, hg, hl, hd, hr, he, hlen, hv, hc, hw, hB => by
    by_cases hb : b'.isUnit = true
    · have hbu : b' = .unit := by cases b' <;> simp [Ty.isUnit] at hb; rfl
      subst hbu
      cases g
      cases v <;> simp only [hasTy] at hv
      rename_i v1 v2
      simp only [Grown.up]
      exact (parse_codes hT (.pair a .unit) tl l inl (.pair v1 v2) bs hl hd hr he hlen (by simpa only [hasTy] using hv) hc hw hB).whole
    · simp only [layoutOk, Bool.and_eq_true] at hl
      simp only [declOk, Bool.and_eq_true] at hd
      simp only [ends, Bool.and_eq_true] at he
      simp only [regular, Bool.and_eq_true] at hr
      simp only [Grown.fills] at hg
      cases v <;> simp only [hasTy] at hv
      rename_i v1 v2
      simp only [canon] at hc
      simp only [parse, Grown.up]
      obtain ⟨x, y, h1, h2, rfl⟩ := cat_eq_ok hw
      simp only [Bool.not_eq_true] at hb
      rw [hb] at he
      simp only [Bool.and_false] at he
      refine codes_bind (parse_codes hT a false LenR.std false v1 x hl.1 hd.1 hr.1 he.1 (lenOk_std _ _ _) hv.1 hc.1 h1
        hB.left) ?_
      exact codes_map (f := fun y => Val.pair v1 y) (parse_up g tl LenR.std false v2 y hg hl.2 hd.2 hr.2 he.2
        (lenOk_std _ _ _) hv.2 hc.2 h2 hB.right)
  | _, _, .last g, tl, l, inl, v, bs, hg, hl, hd, hr, he, hlen, hv, hc, hw, hB => by
    simp only [layoutOk, Bool.and_eq_true] at hl
    simp only [declOk, Bool.and_eq_true] at hd
    simp only [ends, Bool.and_eq_true] at he
    simp only [regular, Bool.and_eq_true] at hr
    simp only [Grown.fills] at hg
    cases v <;> simp only [hasTy] at hv
    rename_i v1 v2
    simp only [canon] at hc
    simp only [parse, Grown.up]
    obtain ⟨x, y, h1, h2, rfl⟩ := cat_eq_ok hw
    have hv2 := hv.2
    cases v2 <;> simp only [hasTy] at hv2
    simp only [wire, Except.ok.injEq] at h2
    subst h2
    have h3 := parse_up g _ LenR.std false v1 x hg hl.1 hd.1 hr.1 he.1 (lenOk_std _ _ _) hv.1 hc.1 h1 hB.left
    simp only [List.append_nil] at h3 ⊢
    exact codes_map (f := fun x => Val.pair x .unit) h3
  | _, _, .struct d d' g, tl, l, inl, v, bs, hg, hl, hd, hr, he, hlen, hv, hc, hw, hB => by
    simp only [layoutOk, Bool.and_eq_true] at hl
    simp only [declOk] at hd
    simp only [ends] at he
    simp only [regular] at hr
    simp only [Grown.fills] at hg
    simp only [hasTy] at hv
    simp only [canon] at hc
    simp only [wire] at hw
    simp only [parse, Grown.up]
    exact parse_upFields g tl [] v bs hg hl.2 hd hr he hv hc hw hB
  | _, _, .enum d g, tl, l, inl, v, bs, hg, hl, hd, hr, he, hlen, hv, hc, hw, hB => by
    simp only [layoutOk] at hl
    simp only [declOk, Bool.and_eq_true, decide_eq_true_eq] at hd
    simp only [ends] at he
    simp only [regular] at hr
    simp only [Grown.fills] at hg
    cases v with
    | variant i v =>
      simp only [hasTy] at hv
      simp only [canon] at hc
      simp only [wire] at hw
      simp only [parse, Grown.up]
      obtain ⟨tag, bs', ht, hbs, hpk, hcs⟩ := parse_upVariants d g tl i v bs 0 hg hl hd.1.1 hd.2 hr he hv hc hw hB
      simp only [Nat.zero_add] at hcs
      have htag : tag ≤ d.tagTy.max := by
        have := List.all_eq_true.mp hd.1.2 tag ht
        simpa using this
      obtain ⟨tt, pk⟩ := d
      cases pk with
      | false =>
        simp only [Bool.false_eq_true, if_false] at hbs
        subst hbs
        cases tt <;> simp only [LenTy.max] at htag
        case varint => exact codes_bind (codes_varint (by omega)) hcs
        all_goals exact codes_bind (codes_num (by simp only [LenTy.minSize]; omega)) hcs
      | true =>
        simp only [if_true, List.nil_append] at hbs
        subst hbs
        obtain ⟨h128, z, hz⟩ := hpk rfl
        subst hz
        cases tt <;> simp only [LenTy.max] at htag
        case varint => exact codes_peekVarint (h128 rfl) hcs
        all_goals exact codes_peek (by simp only [LenTy.minSize]; omega) hcs
    | _ => simp [hasTy] at hv
/-- Fields. -/
theorem parse_upFields : ∀ {fs fs' : Fields} (g : GrownFields fs fs') (tl : Bool) (prev : List Val) (v : Val) (bs : Bytes), g.fills = true →
    layoutOkFields T fs' = true → declOkFields fs' = true → regularFields T e fs' = true → endsFields tl false fs' = true →
    hasTyFields T fs v → canonFields (Fmt.code T.toHost e) fs v → wireFields (Fmt.code T.toHost e) fs prev v = .ok bs → Fits T bs →
    Codes true false (parseFields T e fs' prev) bs (g.up v)
  | _, _, .added gs, tl, prev, v, bs, hg, hl, hd, hr, he, hv, hc, hw, hB => by
    cases v <;> simp only [hasTyFields] at hv
    simp only [wireFields, Except.ok.injEq] at hw
    subst hw
    simp only [GrownFields.fills] at hg
    simp only [GrownFields.up]
    exact codes_all (parseFields_defaults hT hfuel gs prev hl hd hr he hg)
  | _, _, .next a t (fs := fs) (fs' := fs') g, tl, prev, v, bs, hg, hl, hd, hr, he, hv, hc, hw, hB => by
    cases hfs : fs'.isNil with
    | true =>
      have : fs' = .nil := by cases fs' <;> simp [Fields.isNil] at hfs; rfl
      subst this
      cases g
      cases v with
      | pair v rest =>
        have hv2 := hv
        simp only [hasTyFields] at hv2
        have hv3 := hv2.2
        cases rest <;> simp only [hasTyFields] at hv3
        simp only [GrownFields.up, Fields.defaults]
        exact (parseFields_codes hT _ tl prev _ bs hl hd hr he hv hc hw hB).whole
      | _ => simp [hasTyFields] at hv
    | false =>
      simp only [layoutOkFields, Bool.and_eq_true] at hl
      simp only [declOkFields, Bool.and_eq_true] at hd
      simp only [regularFields, Bool.and_eq_true, decide_eq_true_eq] at hr
      simp only [endsFields, hfs, Bool.and_false, Bool.and_eq_true, Bool.or_eq_true] at he
      simp only [GrownFields.fills] at hg
      cases v with
      | pair v rest =>
        simp only [hasTyFields] at hv
        simp only [canonFields] at hc
        simp only [GrownFields.up]
        by_cases hsk : a.skip = true
        · simp only [wireFields] at hw
          simp only [parseFields]
          rw [if_pos hsk] at hw hc ⊢
          rw [hc.1]
          exact codes_map (parse_upFields g tl prev rest bs hg hl.2 hd.1.2 hr.2 he.2 hv.2 hc.2 hw hB)
        · simp only [wireFields] at hw
          rw [if_neg hsk] at hw hc
          obtain ⟨xy, y, h1, h2, rfl⟩ := cat_eq_ok hw
          have ih := parse_upFields g tl (prev ++ [v]) rest y hg hl.2 hd.1.2 hr.2 he.2 hv.2 hc.2 h2 hB.right
          have hone : Codes false false (parseFields T e (.cons a t .nil) prev) xy (.pair v .unit) := by
            refine parseFields_codes hT (.cons a t .nil) false prev (.pair v .unit) xy ?_ ?_ ?_ ?_ ?_ ?_ ?_ hB.left
            · simp only [layoutOkFields, hl.1, Bool.and_true]
            · simp only [declOkFields, hd.1.1.1, hd.1.1.2, Bool.and_true]
              rcases a.len with _ | _ | _ | _ <;> rfl
            · simp only [regularFields, hr.1.2, hr.1.1, decide_true, Bool.and_true]
            · simp only [endsFields, Bool.false_and, Bool.and_true, Bool.and_eq_true, Bool.or_eq_true]
              exact he.1
            · exact ⟨hv.1, trivial⟩
            · simp only [canonFields]
              rw [if_neg hsk]
              exact ⟨hc.1, trivial⟩
            · simp only [wireFields]
              rw [if_neg hsk, h1]
              simp [cat]
          have h3 := hone.1 y (by simp)
          simp only [parseFields] at h3 ⊢
          rw [if_neg hsk] at h3 ⊢
          refine codes_all ?_
          obtain ⟨w, m, h4, h5⟩ := P.bind_inv h3
          obtain ⟨u, h6, h7⟩ := P.map_inv h5
          simp only [P.pure, PRes.ok.injEq] at h6
          simp only [Val.pair.injEq] at h7
          rw [P.bind_ok h4, h7.1, h6.2]
          have h8 := ih.1 [] (fun _ => rfl)
          rw [List.append_nil] at h8
          exact P.map_ok h8
      | _ => simp [hasTyFields] at hv
  | _, _, .last a hs (t := t) (t' := t') g gs, tl, prev, v, bs, hg, hl, hd, hr, he, hv, hc, hw, hB => by
    simp only [layoutOkFields, Bool.and_eq_true] at hl
    simp only [declOkFields, Bool.and_eq_true] at hd
    simp only [regularFields, Bool.and_eq_true, decide_eq_true_eq] at hr
    simp only [endsFields, hs, Bool.false_or, Bool.and_eq_true] at he
    simp only [GrownFields.fills, Bool.and_eq_true] at hg
    cases v with
    | pair v rest =>
      simp only [hasTyFields] at hv
      simp only [canonFields, hs, Bool.false_eq_true, if_false] at hc
      simp only [GrownFields.up]
      simp only [wireFields, hs, Bool.false_eq_true, if_false] at hw
      simp only [parseFields, hs, Bool.false_eq_true, if_false]
      have hv2 := hv.2
      cases rest <;> simp only [hasTyFields] at hv2
      obtain ⟨xy, y, h1, h2, rfl⟩ := cat_eq_ok hw
      simp only [wireFields, Except.ok.injEq] at h2
      subst h2
      obtain ⟨x1, x2, h3, h4, rfl⟩ := cat_eq_ok h1
      simp only [Except.ok.injEq] at h3
      subst h3
      have hbody : Codes true false (if a.varint then P.map .num pVarint else parse T e t' (a.cx T.toHost prev)) x2 (g.up v) := by
        by_cases hvar : a.varint = true
        · rw [if_pos hvar] at h4 ⊢
          have ht : t' = .prim .u64 := by
            have := hd.1.1.1
            simp only [Attrs.declOk, hvar, Bool.and_eq_true] at this
            have h2 := this.2
            split at h2
            · rfl
            · simp at h2
          subst ht
          cases g
          have hv1 := hv.1
          cases v <;> simp only [hasTy] at hv1
          simp only [Except.ok.injEq] at h4
          subst h4
          exact codes_map (codes_varint hv1)
        · rw [if_neg hvar] at h4 ⊢
          unfold Attrs.cx
          rw [Attrs.wcx_len]
          exact parse_up g _ (a.wlen prev) _ v x2 hg.1 hl.1 hd.1.1.2 hr.1.2 he.1.2
            (lenOk_wlen hd.1.1.1 he.1.1) hv.1 hc.1 h4 hB.left.right
      have h5 := (codes_field hr.1.1 hbody).1 [] (fun _ => rfl)
      rw [List.append_nil] at h5 ⊢
      refine codes_all ?_
      exact (P.bind_ok h5).trans (P.map_ok (parseFields_defaults hT hfuel gs _ hl.2 hd.1.2 hr.2 he.2 hg.2))
    | _ => simp [hasTyFields] at hv
/-- Variants. -/
theorem parse_upVariants (d : EnumDesc) : ∀ {vs vs' : Variants} (g : GrownVariants vs vs') (tl : Bool) (i : Nat) (v : Val)
    (bs : Bytes) (k : Nat), g.fills = true →
    layoutOkVariants T vs' = true → vs'.tags.Nodup → declOkVariants vs' = true → regularVariants T e vs' = true → endsVariants tl false vs' = true →
    hasTyVariants T vs i v → canonVariants (Fmt.code T.toHost e) d vs i v → wireVariants (Fmt.code T.toHost e) d vs i v = .ok bs → Fits T bs →
    ∃ tag bs', tag ∈ vs'.tags ∧ bs = (if d.peek then [] else wireNum e d.tagTy tag) ++ bs' ∧
      (d.peek = true → (d.tagTy = .varint → tag < 128) ∧ ∃ z, bs' = wireNum e d.tagTy tag ++ z) ∧
      Codes true false (parseVariants T e vs' tag k) bs' (.variant (k + i) (g.up i v))
  | _, _, .nil, _, _, _, _, _, _, _, _, _, _, _, hv, _, _, _ => by simp [hasTyVariants] at hv
  | _, _, .cons tag g g', tl, 0, v, bs, k, hg, hl, hn, hd, hr, he, hv, hc, hw, hB => by
    simp only [layoutOkVariants, Bool.and_eq_true] at hl
    simp only [declOkVariants, Bool.and_eq_true] at hd
    simp only [regularVariants, Bool.and_eq_true] at hr
    simp only [endsVariants, Bool.and_eq_true] at he
    simp only [GrownVariants.fills, Bool.and_eq_true] at hg
    simp only [hasTyVariants] at hv
    simp only [canonVariants] at hc
    simp only [wireVariants] at hw
    obtain ⟨x, y, h1, h2, rfl⟩ := cat_eq_ok hw
    simp only [Except.ok.injEq] at h1
    refine ⟨tag, y, by simp [Variants.tags], by rw [← h1]; rfl, ?_, ?_⟩
    · intro hp
      obtain ⟨g1, z, g2⟩ := hc.2 hp
      rw [g2] at h2
      simp only [Except.ok.injEq] at h2
      exact ⟨g1, z, h2.symm⟩
    · simp only [parseVariants, Nat.add_zero, if_true, GrownVariants.up]
      exact codes_map (parse_upFields g tl [] v y hg.1 hl.1 hd.1 hr.1 he.1 hv hc.1 h2 hB.right)
  | _, _, .cons tag0 g g', tl, i + 1, v, bs, k, hg, hl, hn, hd, hr, he, hv, hc, hw, hB => by
    simp only [layoutOkVariants, Bool.and_eq_true] at hl
    simp only [declOkVariants, Bool.and_eq_true] at hd
    simp only [regularVariants, Bool.and_eq_true] at hr
    simp only [endsVariants, Bool.and_eq_true] at he
    simp only [GrownVariants.fills, Bool.and_eq_true] at hg
    simp only [Variants.tags, List.nodup_cons] at hn
    obtain ⟨tag, bs', g1, g2, g3, g4⟩ :=
      parse_upVariants d g' tl i v bs (k + 1) hg.2 hl.2 hn.2 hd.2 hr.2 he.2 hv hc hw hB
    refine ⟨tag, bs', by simp [Variants.tags, g1], g2, g3, ?_⟩
    simp only [parseVariants, GrownVariants.up]
    refine codes_ite_neg (fun hh => hn.1 (hh ▸ g1)) ?_
    rwa [show k + (i + 1) = k + 1 + i by omega]
end

end

/-! ## Minimum size -/

mutual
theorem min_grown {T : Target} : ∀ {t t' : Ty} (g : Grown t t'), g.fills = true → minBytes T t' = minBytes T t
  | _, _, .same _, _ => rfl
  | _, _, .option _, _ => rfl
  | _, _, .box g, hg => by
    simp only [Grown.fills] at hg
    simp only [minBytes, min_grown g hg]
  | _, _, .result _ _, _ => rfl
  | _, _, .tuple _ g, hg => by
    simp only [Grown.fills] at hg
    simp only [minBytes, min_grown g hg]
  | _, _, .last g, hg => by
    simp only [Grown.fills] at hg
    simp only [minBytes, min_grown g hg]
  | _, _, .struct _ _ g, hg => by
    simp only [Grown.fills] at hg
    simp only [minBytes, min_grownFields g hg]
  | _, _, .enum _ _, _ => rfl
/-- Fields. -/
theorem min_grownFields {T : Target} : ∀ {fs fs' : Fields} (g : GrownFields fs fs'), g.fills = true → fieldsMin T fs' = fieldsMin T fs
  | _, _, .added _, hg => by
    simp only [GrownFields.fills] at hg
    rw [fieldsMin_fillable hg]
    rfl
  | _, _, .next _ _ g, hg => by
    simp only [GrownFields.fills] at hg
    simp only [fieldsMin, min_grownFields g hg]
  | _, _, .last a hs g gs, hg => by
    simp only [GrownFields.fills, Bool.and_eq_true] at hg
    have h1 := min_grown (T := T) g hg.1
    simp only [fieldsMin, fieldsMin_fillable hg.2, h1]
    cases g <;> rfl
end

theorem opt_width (lt : LenTy) : ∀ {t t' : Ty}, Grown t t' →
    (match t with | .option _ => 1 | _ => lt.minSize) = (match t' with | .option _ => 1 | _ => lt.minSize)
  | _, _, .same _ => rfl
  | _, _, .option _ => rfl
  | _, _, .box _ => rfl
  | _, _, .result _ _ => rfl
  | _, _, .tuple _ _ => rfl
  | _, _, .last _ => rfl
  | _, _, .struct _ _ _ => rfl
  | _, _, .enum _ _ => rfl

mutual
theorem min_less {T : Target} : ∀ {t t' : Ty} (_ : Grown t t'), minBytes T t ≤ minBytes T t'
  | _, _, .same _ => Nat.le_refl _
  | _, _, .option _ => Nat.le_refl _
  | _, _, .box g => by simpa only [minBytes] using min_less g
  | _, _, .result _ _ => Nat.le_refl _
  | _, _, .tuple _ g => by
    have := min_less (T := T) g
    simp only [minBytes]; omega
  | _, _, .last g => by
    have := min_less (T := T) g
    simp only [minBytes]; omega
  | _, _, .struct _ _ g => by simpa only [minBytes] using min_lessFields g
  | _, _, .enum _ _ => Nat.le_refl _
/-- Fields. -/
theorem min_lessFields {T : Target} : ∀ {fs fs' : Fields} (_ : GrownFields fs fs'), fieldsMin T fs ≤ fieldsMin T fs'
  | _, _, .added _ => by simp only [fieldsMin]; omega
  | _, _, .next _ _ g => by
    have := min_lessFields (T := T) g
    simp only [fieldsMin]; omega
  | _, _, .last a hs (t := t) (t' := t') g gs => by
    have h1 := min_less (T := T) g
    simp only [fieldsMin]
    split
    · omega
    · split
      · omega
      · omega
      · rename_i lt _
        exact Nat.add_le_add (Nat.add_le_add_left (Nat.le_of_eq (opt_width lt g)) _) (Nat.zero_le _)
      · split <;> omega
end

/-! ## Data from later -/

/-- The parser takes `used` and leaves `extra`, and whatever else follows (nothing, if `tail`). -/
def Leaves {α : Type} (tail : Bool) (p : P α) (used extra : Bytes) (a : α) : Prop :=
  ∀ rest, (tail = true → rest = []) → p (used ++ (extra ++ rest)) = .ok a (extra ++ rest)

theorem Codes.leaves {α : Type} {tl : Bool} {p : P α} {bs : Bytes} {a : α} (h : Codes tl false p bs a) : Leaves tl p bs [] a :=
  fun rest hr => by simpa using h.1 rest hr

theorem leaves_bind {α β : Type} {tl : Bool} {p : P α} {f : α → P β} {x used extra : Bytes} {a : α} {b : β} (h1 : Codes false false p x a)
    (h2 : Leaves tl (f a) used extra b) : Leaves tl (P.bind p f) (x ++ used) extra b := fun rest hr => by
  rw [List.append_assoc, P.bind_ok (h1.1 _ (by simp))]
  exact h2 rest hr

theorem leaves_map {α β : Type} {tl : Bool} {p : P α} {f : α → β} {used extra : Bytes} {a : α} (h : Leaves tl p used extra a) :
    Leaves tl (P.map f p) used extra (f a) := fun rest hr => P.map_ok (h rest hr)

theorem leaves_ite_pos {α : Type} {tl : Bool} {c : Prop} [Decidable c] {p q : P α} {used extra : Bytes} {a : α} (hc : c)
    (h : Leaves tl p used extra a) : Leaves tl (if c then p else q) used extra a := by rw [if_pos hc]; exact h

theorem leaves_ite_neg {α : Type} {tl : Bool} {c : Prop} [Decidable c] {p q : P α} {used extra : Bytes} {a : α} (hc : ¬ c)
    (h : Leaves tl q used extra a) : Leaves tl (if c then p else q) used extra a := by rw [if_neg hc]; exact h

/-- A tag which is looked at may be part of what is left. -/
theorem leaves_peek {β : Type} {tl : Bool} {e : Endian} {n tag : Nat} {f : Nat → P β} {used extra z : Bytes} {b : β} (ht : tag < 256 ^ n)
    (hz : used ++ extra = e.bytes n tag ++ z) (h : Leaves tl (f tag) used extra b) : Leaves tl (P.bind (pPeekNum e n) f) used extra b := fun rest hr => by
  have hw := h rest hr
  have h2 : P.bind (pPeekNum e n) f (used ++ (extra ++ rest)) = f tag (used ++ (extra ++ rest)) := by
    rw [← List.append_assoc, hz, List.append_assoc]
    refine P.bind_ok ?_
    refine (P.map_ok (a := e.bytes n tag) (rest := e.bytes n tag ++ (z ++ rest)) ?_).trans ?_
    · unfold pPeek
      rw [if_pos (by simp)]
      congr 1
      rw [List.take_left' (by simp)]
    · rw [Endian.num_bytes ht]
  rw [h2, hw]

theorem leaves_peekVarint {β : Type} {tl : Bool} {tag : Nat} {f : Nat → P β} {used extra z : Bytes} {b : β} (ht : tag < 128)
    (hz : used ++ extra = specVarint tag ++ z) (h : Leaves tl (f tag) used extra b) : Leaves tl (P.bind pPeekVarint f) used extra b := fun rest hr => by
  have hw := h rest hr
  have hk : specExtra tag = 0 := by unfold specExtra; rw [if_pos (by omega)]
  obtain ⟨c, h1, h2, h3⟩ := specVarint_cons (v := tag) (by omega)
  rw [hk] at h1 h2 h3
  have h1 : specVarint tag = [c] := by simpa [leBytes] using h1
  rw [h1] at hz
  have h2 : P.bind pPeekVarint f (used ++ (extra ++ rest)) = f tag (used ++ (extra ++ rest)) := by
    rw [← List.append_assoc, hz]
    simp only [List.cons_append, List.nil_append]
    refine P.bind_ok ?_
    unfold pPeekVarint
    rw [P.bind_ok (a := [c]) (rest := c :: (z ++ rest)) (by simp [pPeek])]
    refine (P.map_ok (a := []) (rest := c :: (z ++ rest)) ?_).trans ?_
    · simp only [hd, List.headD_cons, h2]; simp [pPeek]
    · simp only [hd, List.headD_cons]
      have : specVarintVal c [] = tag := by simpa [leBytes] using h3
      rw [this]
  rw [h2, hw]

/-- The body of a field. -/
theorem leaves_field {T : Target} {tl : Bool} {a : Attrs} {p : P Val} {x extra : Bytes} {v : Val} (hp : a.pre.length ≤ T.isizeMax) (h : Leaves tl p x extra v) :
    Leaves tl (if a.defaultOnEof then pOnEof (if a.pre.isEmpty then p else P.bind (pConst T a.pre) fun _ => p) a.dflt
      else if a.pre.isEmpty then p else P.bind (pConst T a.pre) fun _ => p) (a.pre ++ x) extra v := by
  have h2 : Leaves tl (if a.pre.isEmpty then p else P.bind (pConst T a.pre) fun _ => p) (a.pre ++ x) extra v := by
    by_cases he : a.pre.isEmpty = true
    · rw [if_pos he]
      have : a.pre = [] := by simpa using he
      rw [this]
      exact h
    · rw [if_neg he]
      exact leaves_bind (codes_const hp) h
  split
  · intro rest hr
    unfold pOnEof
    rw [h2 rest hr]
  · exact h2

section
set_option linter.unusedSectionVars false
variable {T : Target} (hT : T.Ok) {e : Endian}
include hT

mutual
/-- What was written of the new type is read as the old one. -/
theorem parse_down : ∀ {t t' : Ty} (g : Grown t t') (tl : Bool) (l : LenR) (inl : Bool) (v : Val) (bs : Bytes),
    layoutOk T t = true → declOk t = true → regular T e t = true → declOk t' = true → ends tl false t' = true → lenOk tl false l t' = true →
    hasTy T t' v → canon (Fmt.code T.toHost e) t' v → wire (Fmt.code T.toHost e) t' l v = .ok bs → Fits T bs →
    ∃ used extra, bs = used ++ extra ∧ Leaves tl (parse T e t ⟨l.cast T.toHost, inl⟩) used extra (g.down v)
  | _, _, .same t, tl, l, inl, v, bs, hl, hd, hr, hd', he, hlen, hv, hc, hw, hB => by
    simp only [Grown.down]
    exact ⟨bs, [], by simp, (parse_codes hT t tl l inl v bs hl hd hr he hlen hv hc hw hB).leaves⟩
  | _, _, .option (t := t) (t' := t') g, tl, l, inl, v, bs, hl, hd, hr, hd', he, hlen, hv, hc, hw, hB => by
    simp only [layoutOk] at hl
    simp only [declOk] at hd hd'
    simp only [ends] at he
    simp only [regular] at hr
    simp only [parse]
    cases v with
    | none =>
      simp only [wire, Except.ok.injEq] at hw
      subst hw
      exact ⟨[0], [], rfl, (codes_then (codes_bool false) (codes_ite_neg (by simp) (codes_pure _))).leaves⟩
    | some v =>
      simp only [hasTy] at hv
      simp only [canon] at hc
      obtain ⟨x, y, h1, h2, rfl⟩ := cat_eq_ok hw
      simp only [Except.ok.injEq] at h1
      subst h1
      simp only [Grown.down]
      obtain ⟨inl', hcx⟩ := cast_opt T.toHost l inl t'
      obtain ⟨u, ex, rfl, h3⟩ := parse_down g tl (l.opt t') inl' v y hl hd hr hd' he (lenOk_opt hlen) hv hc h2 hB.right
      refine ⟨[1] ++ u, ex, by rw [List.append_assoc], leaves_bind (codes_bool true) (leaves_ite_pos rfl (leaves_map ?_))⟩
      have : (⟨l.cast T.toHost, inl⟩ : Cx).opt t = (⟨l.cast T.toHost, inl⟩ : Cx).opt t' := by cases g <;> rfl
      rw [this, hcx]
      exact h3
    | _ => simp [hasTy] at hv
  | _, _, .box g, tl, l, inl, v, bs, hl, hd, hr, hd', he, hlen, hv, hc, hw, hB => by
    simp only [layoutOk] at hl
    simp only [declOk] at hd hd'
    simp only [ends] at he
    simp only [regular] at hr
    simp only [hasTy] at hv
    simp only [canon] at hc
    simp only [wire] at hw
    simp only [parse, Grown.down]
    exact parse_down g tl LenR.std false v bs hl hd hr hd' he (lenOk_std _ _ _) hv hc hw hB
  | _, _, .result g g', tl, l, inl, .variant 1 v, bs, hl, hd, hr, hd', he, hlen, hv, hc, hw, hB => by
    simp only [layoutOk, Bool.and_eq_true] at hl
    simp only [declOk, Bool.and_eq_true] at hd hd'
    simp only [ends, Bool.and_eq_true] at he
    simp only [regular, Bool.and_eq_true] at hr
    simp only [hasTy] at hv
    simp only [canon] at hc
    simp only [parse, Grown.down]
    obtain ⟨x, y, h1, h2, rfl⟩ := cat_eq_ok hw
    simp only [Except.ok.injEq] at h1
    subst h1
    obtain ⟨u, ex, rfl, h3⟩ := parse_down g tl LenR.std false v y hl.1 hd.1 hr.1 hd'.1 he.1 (lenOk_std _ _ _) hv hc h2 hB.right
    exact ⟨[1] ++ u, ex, by rw [List.append_assoc], leaves_bind (codes_bool true) (leaves_ite_pos rfl (leaves_map h3))⟩
  | _, _, .result g g', tl, l, inl, .variant 0 v, bs, hl, hd, hr, hd', he, hlen, hv, hc, hw, hB => by
    simp only [layoutOk, Bool.and_eq_true] at hl
    simp only [declOk, Bool.and_eq_true] at hd hd'
    simp only [ends, Bool.and_eq_true] at he
    simp only [regular, Bool.and_eq_true] at hr
    simp only [hasTy] at hv
    simp only [canon] at hc
    simp only [parse, Grown.down]
    obtain ⟨x, y, h1, h2, rfl⟩ := cat_eq_ok hw
    simp only [Except.ok.injEq] at h1
    subst h1
    obtain ⟨u, ex, rfl, h3⟩ := parse_down g' tl LenR.std false v y hl.2 hd.2 hr.2 hd'.2 he.2 (lenOk_std _ _ _) hv hc h2 hB.right
    exact ⟨[0] ++ u, ex, by rw [List.append_assoc], leaves_bind (codes_bool false) (leaves_ite_neg (by simp) (leaves_map h3))⟩
  | _, _, .tuple a (b := b) (b' := b') g, tl, l, inl, v, bs, hl, hd, hr, hd', he, hlen, hv, hc, hw, hB => by
    by_cases hb : b'.isUnit = true
    · have hbu : b' = .unit := by cases b' <;> simp [Ty.isUnit] at hb; rfl
      subst hbu
      cases g
      cases v <;> simp only [hasTy] at hv
      rename_i v1 v2
      simp only [Grown.down]
      exact ⟨bs, [], by simp,
        (parse_codes hT (.pair a .unit) tl l inl (.pair v1 v2) bs hl hd hr he hlen (by simpa only [hasTy] using hv) hc hw hB).leaves⟩
    · simp only [layoutOk, Bool.and_eq_true] at hl
      simp only [declOk, Bool.and_eq_true] at hd hd'
      simp only [ends, Bool.and_eq_true] at he
      simp only [regular, Bool.and_eq_true] at hr
      cases v <;> simp only [hasTy] at hv
      rename_i v1 v2
      simp only [canon] at hc
      simp only [parse, Grown.down]
      obtain ⟨x, y, h1, h2, rfl⟩ := cat_eq_ok hw
      simp only [Bool.not_eq_true] at hb
      rw [hb] at he
      simp only [Bool.and_false] at he
      obtain ⟨u, ex, rfl, h3⟩ := parse_down g tl LenR.std false v2 y hl.2 hd.2 hr.2 hd'.2 he.2 (lenOk_std _ _ _) hv.2 hc.2 h2 hB.right
      refine ⟨x ++ u, ex, by rw [List.append_assoc], leaves_bind (parse_codes hT a false LenR.std false v1 x hl.1 hd.1 hr.1 he.1
        (lenOk_std _ _ _) hv.1 hc.1 h1 hB.left) ?_⟩
      exact leaves_map (f := fun y => Val.pair v1 y) h3
  | _, _, .last g, tl, l, inl, v, bs, hl, hd, hr, hd', he, hlen, hv, hc, hw, hB => by
    simp only [layoutOk, Bool.and_eq_true] at hl
    simp only [declOk, Bool.and_eq_true] at hd hd'
    simp only [ends, Ty.isUnit, Bool.and_true] at he
    simp only [regular, Bool.and_eq_true] at hr
    cases v <;> simp only [hasTy] at hv
    rename_i v1 v2
    simp only [canon] at hc
    simp only [parse, Grown.down]
    obtain ⟨x, y, h1, h2, rfl⟩ := cat_eq_ok hw
    have hv2 := hv.2
    cases v2 <;> simp only [hasTy] at hv2
    simp only [wire, Except.ok.injEq] at h2
    subst h2
    obtain ⟨u, ex, rfl, h3⟩ := parse_down g tl LenR.std false v1 x hl.1 hd.1 hr.1 hd'.1 he (lenOk_std _ _ _) hv.1 hc.1 h1 hB.left
    exact ⟨u, ex, by simp, leaves_map (f := fun x => Val.pair x .unit) h3⟩
  | _, _, .struct d d' g, tl, l, inl, v, bs, hl, hd, hr, hd', he, hlen, hv, hc, hw, hB => by
    simp only [layoutOk, Bool.and_eq_true] at hl
    simp only [declOk] at hd hd'
    simp only [ends] at he
    simp only [regular] at hr
    simp only [hasTy] at hv
    simp only [canon] at hc
    simp only [wire] at hw
    simp only [parse, Grown.down]
    exact parse_downFields g tl [] v bs hl.2 hd hr hd' he hv hc hw hB
  | _, _, .enum d g, tl, l, inl, v, bs, hl, hd, hr, hd', he, hlen, hv, hc, hw, hB => by
    simp only [layoutOk] at hl
    simp only [declOk, Bool.and_eq_true, decide_eq_true_eq] at hd hd'
    simp only [ends] at he
    simp only [regular] at hr
    cases v with
    | variant i v =>
      simp only [hasTy] at hv
      simp only [canon] at hc
      simp only [wire] at hw
      simp only [parse, Grown.down]
      obtain ⟨tag, u, ex, ht, hbs, hpk, hcs⟩ := parse_downVariants d g tl i v bs 0 hl hd.1.1 hd.2 hr hd'.2 he hv hc hw hB
      simp only [Nat.zero_add] at hcs
      have htag : tag ≤ d.tagTy.max := by
        have := List.all_eq_true.mp hd.1.2 tag ht
        simpa using this
      obtain ⟨tt, pk⟩ := d
      cases pk with
      | false =>
        simp only [Bool.false_eq_true, if_false] at hbs
        refine ⟨wireNum e tt tag ++ u, ex, by rw [hbs, List.append_assoc], ?_⟩
        cases tt <;> simp only [LenTy.max] at htag
        case varint => exact leaves_bind (codes_varint (by omega)) hcs
        all_goals exact leaves_bind (codes_num (by simp only [LenTy.minSize]; omega)) hcs
      | true =>
        simp only [if_true, List.nil_append] at hbs
        refine ⟨u, ex, hbs, ?_⟩
        obtain ⟨h128, z, hz⟩ := hpk rfl
        cases tt <;> simp only [LenTy.max] at htag
        case varint => exact leaves_peekVarint (h128 rfl) hz hcs
        all_goals exact leaves_peek (by simp only [LenTy.minSize]; omega) hz hcs
    | _ => simp [hasTy] at hv
/-- Fields. -/
theorem parse_downFields : ∀ {fs fs' : Fields} (g : GrownFields fs fs') (tl : Bool) (prev : List Val) (v : Val) (bs : Bytes),
    layoutOkFields T fs = true → declOkFields fs = true → regularFields T e fs = true → declOkFields fs' = true → endsFields tl false fs' = true →
    hasTyFields T fs' v → canonFields (Fmt.code T.toHost e) fs' v → wireFields (Fmt.code T.toHost e) fs' prev v = .ok bs → Fits T bs →
    ∃ used extra, bs = used ++ extra ∧ Leaves tl (parseFields T e fs prev) used extra (g.down v)
  | _, _, .added gs, tl, prev, v, bs, hl, hd, hr, hd', he, hv, hc, hw, hB => by
    simp only [GrownFields.down]
    exact ⟨[], bs, rfl, fun _ _ => rfl⟩
  | _, _, .next a t (fs := fs) (fs' := fs') g, tl, prev, v, bs, hl, hd, hr, hd', he, hv, hc, hw, hB => by
    cases hfs : fs'.isNil with
    | true =>
      have : fs' = .nil := by cases fs' <;> simp [Fields.isNil] at hfs; rfl
      subst this
      cases g
      cases v with
      | pair v rest =>
        have hv2 := hv
        simp only [hasTyFields] at hv2
        have hv3 := hv2.2
        cases rest <;> simp only [hasTyFields] at hv3
        simp only [GrownFields.down]
        exact ⟨bs, [], by simp, (parseFields_codes hT _ tl prev _ bs hl hd hr he hv hc hw hB).leaves⟩
      | _ => simp [hasTyFields] at hv
    | false =>
      simp only [layoutOkFields, Bool.and_eq_true] at hl
      simp only [declOkFields, Bool.and_eq_true] at hd hd'
      simp only [regularFields, Bool.and_eq_true, decide_eq_true_eq] at hr
      simp only [endsFields, hfs, Bool.and_false, Bool.and_eq_true, Bool.or_eq_true] at he
      cases v with
      | pair v rest =>
        simp only [hasTyFields] at hv
        simp only [canonFields] at hc
        simp only [GrownFields.down]
        by_cases hsk : a.skip = true
        · simp only [wireFields] at hw
          simp only [parseFields]
          rw [if_pos hsk] at hw hc ⊢
          rw [hc.1]
          obtain ⟨u, ex, rfl, h3⟩ := parse_downFields g tl prev rest bs hl.2 hd.1.2 hr.2 hd'.1.2 he.2 hv.2 hc.2 hw hB
          exact ⟨u, ex, rfl, leaves_map h3⟩
        · simp only [wireFields] at hw
          rw [if_neg hsk] at hw hc
          obtain ⟨xy, y, h1, h2, rfl⟩ := cat_eq_ok hw
          obtain ⟨u, ex, rfl, ih⟩ := parse_downFields g tl (prev ++ [v]) rest y hl.2 hd.1.2 hr.2 hd'.1.2 he.2 hv.2 hc.2 h2 hB.right
          have hone : Codes false false (parseFields T e (.cons a t .nil) prev) xy (.pair v .unit) := by
            refine parseFields_codes hT (.cons a t .nil) false prev (.pair v .unit) xy ?_ ?_ ?_ ?_ ?_ ?_ ?_ hB.left
            · simp only [layoutOkFields, hl.1, Bool.and_true]
            · simp only [declOkFields, hd.1.1.1, hd.1.1.2, Bool.and_true]
              rcases a.len with _ | _ | _ | _ <;> rfl
            · simp only [regularFields, hr.1.2, hr.1.1, decide_true, Bool.and_true]
            · simp only [endsFields, Bool.false_and, Bool.and_true, Bool.and_eq_true, Bool.or_eq_true]
              exact he.1
            · exact ⟨hv.1, trivial⟩
            · simp only [canonFields]
              rw [if_neg hsk]
              exact ⟨hc.1, trivial⟩
            · simp only [wireFields]
              rw [if_neg hsk, h1]
              simp [cat]
          refine ⟨xy ++ u, ex, by rw [List.append_assoc], fun r hr' => ?_⟩
          have h3 := hone.1 (u ++ (ex ++ r)) (by simp)
          simp only [parseFields] at h3 ⊢
          rw [if_neg hsk] at h3 ⊢
          obtain ⟨w, m, h4, h5⟩ := P.bind_inv h3
          obtain ⟨w', h6, h7⟩ := P.map_inv h5
          simp only [P.pure, PRes.ok.injEq] at h6
          simp only [Val.pair.injEq] at h7
          rw [List.append_assoc, P.bind_ok h4, h7.1, h6.2]
          exact P.map_ok (ih r hr')
      | _ => simp [hasTyFields] at hv
  | _, _, .last a hs (t := t) (t' := t') g gs, tl, prev, v, bs, hl, hd, hr, hd', he, hv, hc, hw, hB => by
    simp only [layoutOkFields, Bool.and_eq_true] at hl
    simp only [declOkFields, Bool.and_eq_true] at hd hd'
    simp only [regularFields, Bool.and_eq_true, decide_eq_true_eq] at hr
    simp only [endsFields, hs, Bool.false_or, Bool.and_eq_true] at he
    cases v with
    | pair v rest =>
      simp only [hasTyFields] at hv
      simp only [canonFields, hs, Bool.false_eq_true, if_false] at hc
      simp only [GrownFields.down]
      simp only [wireFields, hs, Bool.false_eq_true, if_false] at hw
      simp only [parseFields, hs, Bool.false_eq_true, if_false]
      obtain ⟨xy, y, h1, h2, rfl⟩ := cat_eq_ok hw
      obtain ⟨x1, x2, h3, h4, rfl⟩ := cat_eq_ok h1
      simp only [Except.ok.injEq] at h3
      subst h3
      have hbody : ∃ u ex, x2 = u ++ ex ∧
          Leaves (tl && gs.isNil) (if a.varint then P.map .num pVarint else parse T e t (a.cx T.toHost prev)) u ex (g.down v) := by
        by_cases hvar : a.varint = true
        · rw [if_pos hvar] at h4 ⊢
          have ht : t' = .prim .u64 := by
            have := hd'.1.1.1
            simp only [Attrs.declOk, hvar, Bool.and_eq_true] at this
            have h2 := this.2
            split at h2
            · rfl
            · simp at h2
          subst ht
          cases g
          have hv1 := hv.1
          cases v <;> simp only [hasTy] at hv1
          simp only [Except.ok.injEq] at h4
          subst h4
          exact ⟨_, [], (List.append_nil _).symm, (codes_map (codes_varint hv1)).leaves⟩
        · rw [if_neg hvar] at h4 ⊢
          unfold Attrs.cx
          rw [Attrs.wcx_len]
          exact parse_down g _ (a.wlen prev) _ v x2 hl.1 hd.1.1.2 hr.1.2 hd'.1.1.2 he.1.2
            (lenOk_wlen hd'.1.1.1 he.1.1) hv.1 hc.1 h4 hB.left.right
      obtain ⟨u, ex, rfl, hb⟩ := hbody
      refine ⟨a.pre ++ u, ex ++ y, by simp only [List.append_assoc], fun r hr' => ?_⟩
      have hy : (tl && gs.isNil) = true → y ++ r = [] := by
        intro hh
        simp only [Bool.and_eq_true] at hh
        have hgs : gs = .nil := by
          cases gs with
          | nil => rfl
          | cons _ _ _ => simp [Fields.isNil] at hh
        subst hgs
        have hv2 := hv.2
        cases rest <;> simp only [hasTyFields] at hv2
        simp only [wireFields, Except.ok.injEq] at h2
        rw [← h2, hr' hh.1]
        rfl
      have h5 := leaves_field (a := a) hr.1.1 hb (y ++ r) hy
      rw [List.append_assoc ex y r]
      exact (P.bind_ok h5).trans (P.map_ok rfl)
    | _ => simp [hasTyFields] at hv
/-- Variants. -/
theorem parse_downVariants (d : EnumDesc) : ∀ {vs vs' : Variants} (g : GrownVariants vs vs') (tl : Bool) (i : Nat) (v : Val)
    (bs : Bytes) (k : Nat), layoutOkVariants T vs = true → vs.tags.Nodup → declOkVariants vs = true → regularVariants T e vs = true →
    declOkVariants vs' = true → endsVariants tl false vs' = true →
    hasTyVariants T vs' i v → canonVariants (Fmt.code T.toHost e) d vs' i v → wireVariants (Fmt.code T.toHost e) d vs' i v = .ok bs → Fits T bs →
    ∃ tag used extra, tag ∈ vs.tags ∧ bs = (if d.peek then [] else wireNum e d.tagTy tag) ++ (used ++ extra) ∧
      (d.peek = true → (d.tagTy = .varint → tag < 128) ∧ ∃ z, used ++ extra = wireNum e d.tagTy tag ++ z) ∧
      Leaves tl (parseVariants T e vs tag k) used extra (.variant (k + i) (g.down i v))
  | _, _, .nil, _, _, _, _, _, _, _, _, _, _, _, hv, _, _, _ => by simp [hasTyVariants] at hv
  | _, _, .cons tag g g', tl, 0, v, bs, k, hl, hn, hd, hr, hd', he, hv, hc, hw, hB => by
    simp only [layoutOkVariants, Bool.and_eq_true] at hl
    simp only [declOkVariants, Bool.and_eq_true] at hd hd'
    simp only [regularVariants, Bool.and_eq_true] at hr
    simp only [endsVariants, Bool.and_eq_true] at he
    simp only [hasTyVariants] at hv
    simp only [canonVariants] at hc
    simp only [wireVariants] at hw
    obtain ⟨x, y, h1, h2, rfl⟩ := cat_eq_ok hw
    simp only [Except.ok.injEq] at h1
    obtain ⟨u, ex, rfl, h3⟩ := parse_downFields g tl [] v y hl.1 hd.1 hr.1 hd'.1 he.1 hv hc.1 h2 hB.right
    refine ⟨tag, u, ex, by simp [Variants.tags], by rw [← h1]; rfl, ?_, ?_⟩
    · intro hp
      obtain ⟨g1, z, g2⟩ := hc.2 hp
      rw [g2] at h2
      simp only [Except.ok.injEq] at h2
      exact ⟨g1, z, h2.symm⟩
    · simp only [parseVariants, Nat.add_zero, if_true, GrownVariants.down]
      exact leaves_map h3
  | _, _, .cons tag0 g g', tl, i + 1, v, bs, k, hl, hn, hd, hr, hd', he, hv, hc, hw, hB => by
    simp only [layoutOkVariants, Bool.and_eq_true] at hl
    simp only [declOkVariants, Bool.and_eq_true] at hd hd'
    simp only [regularVariants, Bool.and_eq_true] at hr
    simp only [endsVariants, Bool.and_eq_true] at he
    simp only [Variants.tags, List.nodup_cons] at hn
    obtain ⟨tag, u, ex, g1, g2, g3, g4⟩ :=
      parse_downVariants d g' tl i v bs (k + 1) hl.2 hn.2 hd.2 hr.2 hd'.2 he.2 hv hc hw hB
    refine ⟨tag, u, ex, by simp [Variants.tags, g1], g2, g3, ?_⟩
    simp only [parseVariants, GrownVariants.down]
    refine leaves_ite_neg (fun hh => hn.1 (hh ▸ g1)) ?_
    rwa [show k + (i + 1) = k + 1 + i by omega]
end

end

end Verif
