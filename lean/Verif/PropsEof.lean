import Verif.PropsAttrs

/-!
# `default_on_eof` (C23)
-/

namespace Verif

open Samples

/-! ## With and without the attribute -/

/-- `p` does what `q` does, unless `q` ends with an end-of-input error. -/
def Keeps {α σ : Type} (R : ReaderOps σ) (p q : M α) : Prop :=
  ∀ s, (∀ a s', q.run R s = (.ok a, s') → p.run R s = (.ok a, s')) ∧
    (∀ er s', q.run R s = (.error er, s') → er.isEof = false → p.run R s = (.error er, s'))

section
variable {σ : Type} {R : ReaderOps σ} {α β : Type}

theorem keeps_refl (p : M α) : Keeps R p p := fun _ => ⟨fun _ _ h => h, fun _ _ h _ => h⟩

theorem keeps_bind {p q : M α} {f g : α → M β} (h1 : Keeps R p q) (h2 : ∀ a, Keeps R (f a) (g a)) :
    Keeps R (M.bind p f) (M.bind q g) := by
  intro s
  constructor
  · intro b s' h
    obtain ⟨a, s1, h3, h4⟩ := M.run_bind_inv h
    rw [M.run_bind_ok ((h1 s).1 a s1 h3)]
    exact (h2 a s1).1 b s' h4
  · intro er s' h he
    rcases hq : q.run R s with ⟨er' | a, s1⟩
    · rw [M.run_bind_err hq] at h
      simp only [Prod.mk.injEq, Except.error.injEq] at h
      obtain ⟨rfl, rfl⟩ := h
      rw [M.run_bind_err ((h1 s).2 _ _ hq he)]
    · rw [M.run_bind_ok hq] at h
      rw [M.run_bind_ok ((h1 s).1 a s1 hq)]
      exact (h2 a s1).2 er s' h he

theorem keeps_map {p q : M α} {f : α → β} (h1 : Keeps R p q) : Keeps R (M.map f p) (M.map f q) :=
  keeps_bind h1 fun _ => keeps_refl _

theorem keeps_onEof {p q : M α} {d : α} (h1 : Keeps R p q) : Keeps R (onEof p d) q := by
  intro s
  unfold onEof
  rw [Prog.run_bind]
  constructor
  · intro a s' h
    rw [(h1 s).1 a s' h]
    rfl
  · intro er s' h he
    rw [(h1 s).2 er s' h he]
    simp [he, M.fail, Prog.run]

theorem keeps_readLenR {h : Host} {e : Endian} {lt : LenTy} {d : Bool} :
    Keeps R (readLenR h e (.typed lt d)) (readLenR h e (.typed lt false)) := by
  cases d
  · exact keeps_refl _
  · exact keeps_map (keeps_onEof (keeps_refl _))

theorem keeps_decode {T : Target} {e : Endian} {lt : LenTy} {d inl : Bool} : ∀ (t : Ty),
    Keeps R (decode T e t ⟨.typed lt d, inl⟩) (decode T e t ⟨.typed lt false, inl⟩)
  | .str k => by simp only [decode]; exact keeps_bind keeps_readLenR fun _ => keeps_refl _
  | .seq k t => by
    simp only [decode]
    split
    · exact keeps_refl _
    · exact keeps_bind keeps_readLenR fun _ => keeps_refl _
  | .set t => by simp only [decode]; exact keeps_bind keeps_readLenR fun _ => keeps_refl _
  | .map k v => by simp only [decode]; exact keeps_bind keeps_readLenR fun _ => keeps_refl _
  | .option t => by
    simp only [decode]
    refine keeps_bind (keeps_refl _) fun flag => ?_
    split
    · refine keeps_map ?_
      cases t with
      | option t => exact keeps_refl _
      | _ => exact keeps_decode _
    · exact keeps_refl _
  | .prim _ | .usize | .bool | .char | .nonZero _ | .atomic _ | .ipv4 | .ipv6 | .ipAddr | .duration | .systemTime
  | .endianness | .varint64 | .uuid | .array _ _ | .refArray _ _ | .result _ _ | .range _ | .rangeInc _ | .unit
  | .pair _ _ | .box _ | .via _ _ | .struct _ _ | .enum _ _ => by simp only [decode]; exact keeps_refl _

end

/-- The same fields without `default_on_eof`. -/
def Fields.plain : Fields → Fields
  | .nil => .nil
  | .cons a t fs => .cons { a with defaultOnEof := false } t fs.plain

theorem keeps_fields {T : Target} {e : Endian} {σ : Type} {R : ReaderOps σ} : ∀ (fs : Fields) (prev : List Val),
    Keeps R (decodeFields T e fs prev) (decodeFields T e fs.plain prev)
  | .nil, prev => keeps_refl _
  | .cons a t fs, prev => by
    rw [Fields.plain, decodeFields_cons, decodeFields_cons]
    by_cases hsk : a.skip = true
    · simp only [hsk, if_true]
      exact keeps_map (keeps_fields fs prev)
    · simp only [hsk, Bool.false_eq_true, if_false]
      refine keeps_bind ?_ fun v => keeps_map (keeps_fields fs _)
      unfold fieldBody
      simp only [Bool.false_eq_true, if_false]
      have hb : Keeps R (if a.varint then M.map Val.num (readVarint T.toHost e) else decode T e t (a.cx T.toHost prev))
          (if a.varint then M.map Val.num (readVarint T.toHost e)
            else decode T e t (Attrs.cx T.toHost { a with defaultOnEof := false } prev)) := by
        split
        · exact keeps_refl _
        · unfold Attrs.cx Attrs.wcx
          simp only
          split
          · exact keeps_refl _
          · split
            · exact keeps_decode t
            · exact keeps_refl _
            · exact keeps_refl _
            · exact keeps_decode t
      have hb2 : Keeps R
          (if a.pre.isEmpty then (if a.varint then M.map Val.num (readVarint T.toHost e)
              else decode T e t (a.cx T.toHost prev))
            else M.bind (readConstant T.toHost e (u8Elem T e) a.pre) fun _ =>
              (if a.varint then M.map Val.num (readVarint T.toHost e) else decode T e t (a.cx T.toHost prev)))
          (if a.pre.isEmpty then (if a.varint then M.map Val.num (readVarint T.toHost e)
              else decode T e t (Attrs.cx T.toHost { a with defaultOnEof := false } prev))
            else M.bind (readConstant T.toHost e (u8Elem T e) a.pre) fun _ =>
              (if a.varint then M.map Val.num (readVarint T.toHost e)
                else decode T e t (Attrs.cx T.toHost { a with defaultOnEof := false } prev))) := by
        split
        · exact hb
        · exact keeps_bind (keeps_refl _) fun _ => hb
      split
      · exact keeps_onEof hb2
      · exact hb2

/-- **C23**: complete inputs are read as without the attribute: if the struct declared
without `default_on_eof` can be read, then the same value is read with it, and the same
bytes are consumed.  For every reader, and whatever it does. -/
theorem C23_complete {T : Target} {e : Endian} {σ : Type} {R : ReaderOps σ} {s s' : σ} {d d' : StructDesc} {cx : Cx}
    {fs : Fields} {v : Val} (h : (decode T e (.struct d' fs.plain) cx).run R s = (.ok v, s')) :
    (decode T e (.struct d fs) cx).run R s = (.ok v, s') := by
  simp only [decode] at h ⊢
  exact (keeps_fields fs [] s).1 v s' h

/-- **C23**: an error other than the end of the input is not masked. -/
theorem C23_not_masked {T : Target} {e : Endian} {σ : Type} {R : ReaderOps σ} {s s' : σ} {d d' : StructDesc} {cx : Cx}
    {fs : Fields} {er : Err} (h : (decode T e (.struct d' fs.plain) cx).run R s = (.error er, s'))
    (he : er.isEof = false) : (decode T e (.struct d fs) cx).run R s = (.error er, s') := by
  simp only [decode] at h ⊢
  exact (keeps_fields fs [] s).2 er s' h he

/-! ## Inputs which end before a marked field -/

/-- The empty container. -/
def Ty.emptyVal : Ty → Val
  | .str _ => .bytes []
  | _ => .list []

/-- The field notices the end of the input, or yields an empty container whose default
is the same.  Not so: types which are read from nothing (their value need not be the
default), and containers with a length expression. -/
def fillable (a : Attrs) (t : Ty) : Bool :=
  a.skip || (a.defaultOnEof && (a.varint || !a.pre.isEmpty ||
    if t.isContainer then
      a.opaqueTy || (decide (a.dflt = t.emptyVal) && (match a.len with
        | some (.expr _) => false
        | _ => true))
    else starts t))

/-- The default values of fields. -/
def Fields.defaults : Fields → Val
  | .nil => .unit
  | .cons a _ fs => .pair a.dflt fs.defaults

theorem hasTy_empty {T : Target} {t : Ty} (hc : t.isContainer = true) : hasTy T t t.emptyVal := by
  cases t <;> simp only [Ty.isContainer, Bool.false_eq_true] at hc <;>
    simp [Ty.emptyVal, hasTy, utf8Valid, keys]

theorem canon_empty {F : Fmt} {t : Ty} (hc : t.isContainer = true) : canon F t t.emptyVal := by
  cases t <;> simp only [Ty.isContainer, Bool.false_eq_true] at hc <;>
    simp [Ty.emptyVal, canon]

theorem wire_empty {F : Fmt} {t : Ty} (hc : t.isContainer = true) {l : LenR} (hl : l = .fixed 0 ∨ l = .untilEof) :
    wire F t l t.emptyVal = .ok [] := by
  rcases hl with rfl | rfl <;>
    cases t <;> simp only [Ty.isContainer, Bool.false_eq_true] at hc <;>
    simp [Ty.emptyVal, wire, wireLen, catAll, cat]

theorem fits_nil {T : Target} (hf : 0 < T.fuel) : Fits T [] := ⟨by simp, by simpa using hf⟩

theorem parse_typed_nil {T : Target} {e : Endian} {t : Ty} {lt : LenTy} {inl : Bool} (hc : t.isContainer = true) :
    parse T e t ⟨.typed lt true, inl⟩ [] = parse T e t ⟨.fixed 0, inl⟩ [] := by
  have h : pLenR T.toHost e (.typed lt true) [] = .ok (some 0) [] := by
    simp only [pLenR]
    refine P.map_ok ?_
    unfold pOnEof
    rw [pLen_nil]
    simp [Err.isEof]
  have h0 : pLenR T.toHost e (.fixed 0) [] = .ok (some 0) [] := rfl
  cases t <;> simp only [Ty.isContainer, Bool.false_eq_true] at hc
  case seq k t =>
    simp only [parse]
    split
    · rfl
    · rw [P.bind_ok h, P.bind_ok h0]
  all_goals
    simp only [parse]
    rw [P.bind_ok h, P.bind_ok h0]

section
variable {T : Target} (hT : T.Ok) {e : Endian} (hfuel : 0 < T.fuel)
include hT hfuel

/-- A field which is filled. -/
theorem parseField_default {a : Attrs} {t : Ty} {tl : Bool} {prev : List Val} (hl : layoutOk T t = true)
    (hd : a.declOk t = true) (hd2 : declOk t = true) (hr : regular T e t = true) (hp : a.pre.length ≤ T.isizeMax)
    (he : a.ends tl false t = true) (he2 : ends tl false t = true) (hsk : a.skip = false)
    (hf : fillable a t = true) :
    (let body := if a.varint then P.map .num pVarint else parse T e t (a.cx T.toHost prev)
     let body := if a.pre.isEmpty then body else P.bind (pConst T a.pre) fun _ => body
     if a.defaultOnEof then pOnEof body a.dflt else body) [] = .ok a.dflt [] := by
  simp only [fillable, hsk, Bool.false_or, Bool.and_eq_true] at hf
  obtain ⟨hde, hf⟩ := hf
  simp only [hde, if_true]
  have key : ∀ p : P Val, p [] = .fail .unexpectedEndOfInput ∨ p [] = .ok a.dflt [] →
      pOnEof p a.dflt [] = .ok a.dflt [] := by
    intro p h
    unfold pOnEof
    rcases h with h | h <;> rw [h] <;> simp [Err.isEof]
  refine key _ ?_
  by_cases hpre : a.pre.isEmpty = true
  rotate_left
  · left
    rw [if_neg hpre]
    refine P.bind_fail ?_
    unfold pConst
    rw [if_neg (by omega)]
    have : 0 < a.pre.length := by
      cases h : a.pre with
      | nil => rw [h] at hpre; simp at hpre
      | cons => simp
    exact P.bind_fail (pTake_fail (by simpa using this))
  rw [if_pos hpre]
  by_cases hvi : a.varint = true
  · left
    rw [if_pos hvi]
    exact P.map_fail pVarint_nil
  rw [if_neg hvi]
  simp only [hvi, hpre, Bool.false_or, Bool.not_true] at hf
  by_cases hc : t.isContainer = true
  rotate_left
  · left
    simp only [hc, Bool.false_eq_true, if_false] at hf
    exact parse_nil t _ hf hr (by simp [hc])
  simp only [hc, if_true, Bool.or_eq_true, Bool.and_eq_true, decide_eq_true_eq] at hf
  have hnoref := hr
  by_cases ho : a.opaqueTy = true
  · left
    refine parse_nil t _ ?_ hr fun _ => ?_
    · cases t <;> simp only [Ty.isContainer, Bool.false_eq_true] at hc <;> rfl
    · unfold Attrs.cx Attrs.wcx
      rw [if_pos ho]
      rfl
  simp only [ho, Bool.false_eq_true, false_or] at hf
  obtain ⟨hdf, hf⟩ := hf
  right
  rw [hdf]
  have hfix : parse T e t ⟨.fixed 0, true⟩ [] = .ok t.emptyVal [] := by
    have h := (parse_codes hT (e := e) (st := false) t tl (.fixed 0) true t.emptyVal [] hl hd2 hr he2
      (by simp [lenOk, LenR.ends]) (hasTy_empty hc) (canon_empty hc) (wire_empty hc (.inl rfl))
      (fits_nil hfuel)).1 [] (by simp)
    simpa [LenR.cast] using h
  unfold Attrs.cx Attrs.wcx
  rw [if_neg ho]
  have hend := he
  simp only [Attrs.ends, Bool.and_eq_true] at hend
  rcases hlen : a.len with _ | lt | f | _ <;> rw [hlen] at hf hend
  · simp only [LenR.cast, hde]
    rw [parse_typed_nil hc]; exact hfix
  · simp only [LenR.cast, hde]
    rw [parse_typed_nil hc]; exact hfix
  · simp at hf
  · simp only [Bool.and_eq_true] at hend
    have h := (parse_codes hT (e := e) (st := false) t tl .untilEof true t.emptyVal [] hl hd2 hr he2
      (by simp [lenOk, LenR.ends, hc, hend.2.1.1, hend.2.2]) (hasTy_empty hc) (canon_empty hc) (wire_empty hc (.inr rfl))
      (fits_nil hfuel)).1 [] (by simp)
    simpa [LenR.cast] using h

theorem parseFields_defaults {tl : Bool} : ∀ (gs : Fields) (prev : List Val), layoutOkFields T gs = true →
    declOkFields gs = true → regularFields T e gs = true → endsFields tl false gs = true →
    gs.all fillable = true → parseFields T e gs prev [] = .ok gs.defaults []
  | .nil, prev, _, _, _, _, _ => rfl
  | .cons a t gs, prev, hl, hd, hr, he, hf => by
    simp only [layoutOkFields, Bool.and_eq_true] at hl
    simp only [declOkFields, Bool.and_eq_true] at hd
    simp only [regularFields, Bool.and_eq_true, decide_eq_true_eq] at hr
    simp only [endsFields, Bool.and_eq_true] at he
    simp only [Fields.all, Bool.and_eq_true] at hf
    have ih := fun prev => parseFields_defaults gs prev hl.2 hd.1.2 hr.2 he.2 hf.2
    simp only [parseFields, Fields.defaults]
    by_cases hsk : a.skip = true
    · simp only [hsk, if_true]
      exact P.map_ok (ih prev)
    · simp only [hsk, Bool.false_eq_true, if_false]
      have he1 := he.1
      simp only [hsk, Bool.false_or, Bool.and_eq_true] at he1
      have h := parseField_default hT hfuel (prev := prev) hl.1 hd.1.1.1 hd.1.1.2 hr.1.2 hr.1.1 he1.1 he1.2
        (by simpa using hsk) hf.1
      exact (P.bind_ok h).trans (P.map_ok (ih _))

end

theorem fieldsMin_append {T : Target} {gs : Fields} : ∀ {fs : Fields},
    fieldsMin T (fs.append gs) = fieldsMin T fs + fieldsMin T gs
  | .nil => by simp [Fields.append, fieldsMin]
  | .cons a t fs => by
    simp only [Fields.append, fieldsMin]
    rw [fieldsMin_append]
    omega

theorem fieldsMin_fillable {T : Target} : ∀ {gs : Fields}, gs.all fillable = true → fieldsMin T gs = 0
  | .nil, _ => by simp [fieldsMin]
  | .cons a t gs, h => by
    simp only [Fields.all, Bool.and_eq_true] at h
    have h1 : (a.defaultOnEof || a.skip) = true := by
      have := h.1
      unfold fillable at this
      cases h2 : a.skip <;> cases h3 : a.defaultOnEof <;> simp_all
    simp [fieldsMin, h1, fieldsMin_fillable h.2]

section
variable {T : Target} (hT : T.Ok) {e : Endian} (hfuel : 0 < T.fuel) {d : StructDesc} {fs gs : Fields}
  (hl : layoutOkFields T gs = true) (hd : declOkFields gs = true) (hr : regularFields T e gs = true)
  (he : endsFields true false gs = true) (hf : gs.all fillable = true)
include hT hfuel hl hd hr he hf

/-- **C23**: if, after the fields `fs`, nothing is left of the input, and the remaining
fields `gs` are all marked (or skipped), these get their default values.  For every reader.

Missing: fields which are not `fillable`: containers with `length = expr` and types which can be read
from nothing, whose default need not be that value (`C23_false`). -/
theorem C23_default_partial {σ : Type} {R : ReaderOps σ} {Inv : σ → Prop} {pend : σ → Bytes} (L : Lawful R Inv pend)
    {s s1 : σ} (hs : Inv s) {cx : Cx} {u : Val} (hb : (decodeFields T e fs []).run R s = (.ok u, s1))
    (hend : pend s1 = []) (hn : noRefsFields gs = true ∨ Borrows R Inv) :
    ((decode T e (.struct d (fs.append gs)) cx).run R s).1 = .ok (fs.join u gs.defaults) := by
  have hs1 : Inv s1 := by have := (L.run (decodeFields T e fs []) s hs).1; rwa [hb] at this
  have h := decodeFields_refines L hT (B := 0) (Nat.zero_le _) hfuel (e := e) gs ([] ++ fs.kept u) hl hn s1 hs1
    (by rw [hend]; simp)
  rw [hend, parseFields_defaults hT hfuel gs _ hl hd hr he hf] at h
  simp only [decode]
  rw [decodeFields_run_ok gs fs [] hb, M.run_map, h.1]
  rfl

end

section
variable {T : Target} (hT : T.Ok) {e : Endian} {d : StructDesc} {fs gs : Fields} {u w : Val} {x : Bytes}
  (hl : layoutOk T (.struct d (fs.append gs)) = true) (hd : declOk (.struct d (fs.append gs)) = true)
  (hr : regular T e (.struct d (fs.append gs)) = true) (hef : endsFields false false fs = true)
  (he : endsFields true false gs = true) (hf : gs.all fillable = true) (hu : hasTyFields T fs u)
  (hc : canonFields (Fmt.code T.toHost e) fs u)
  (hx : (encodeFields T e fs [] u).out T.toHost e = (x, .ok ()))
include hT hl hd hr hef he hf hu hc hx

theorem cut_parse (hx' : Fits T x) : fieldsMin T (fs.append gs) ≤ x.length ∧
    parse T e (.struct d (fs.append gs)) Cx.std x = .ok (fs.join u gs.defaults) [] := by
  have hl2 : layoutOkFields T (fs.append gs) = true := by
    simp only [layoutOk, Bool.and_eq_true] at hl; exact hl.2
  simp only [declOk] at hd
  simp only [regular] at hr
  obtain ⟨hl3, hl4⟩ := layoutOkFields_append hl2
  obtain ⟨hd3, hd4⟩ := declOkFields_append hd
  obtain ⟨hr3, hr4⟩ := regularFields_append hr
  have hsl : sliceOkFields T fs = true := by
    have := regular_slice (.struct d fs) (T := T) (e := e) (by simpa only [regular] using hr3)
    simpa only [sliceOk] using this
  have hw := encodeFields_wire hT (e := e) fs [] u hl3 hd3 hsl hu
  have hwx : wireFields (Fmt.code T.toHost e) fs [] u = .ok x := by
    cases h : wireFields (Fmt.code T.toHost e) fs [] u with
    | error er => rw [h] at hw; have : _ = _ := hw; rw [hx] at this; simp at this
    | ok y =>
      rw [h] at hw
      have : _ = _ := hw
      rw [hx] at this
      simp only [Prod.mk.injEq] at this
      rw [this.1]
  have hcodes := parseFields_codes hT (e := e) (st := false) fs false [] u x hl3 hd3 hr3 hef hu hc hwx hx'
  have hp := hcodes.1 [] (by simp)
  rw [List.append_nil] at hp
  refine ⟨?_, ?_⟩
  · rw [fieldsMin_append, fieldsMin_fillable hf]
    exact wireFields_min (e := e) fs [] u x hl3 hd3 hr3 hu hc hwx
  · simp only [parse]
    rw [parseFields_append gs fs [] hp]
    exact P.map_ok (parseFields_defaults hT (Nat.lt_of_le_of_lt (Nat.zero_le _) hx'.fuel) gs _ hl4 hd4 hr4 he hf)

/-- C23 for `read_from_buffer`: what was written of a struct, cut before the fields `gs`, is
read as the struct with these fields' default values.

Missing: as above, and the exceptions of C01. -/
theorem C23_cut_buffer_partial {base : Nat} (hm : InMem T base x) :
    readFromBuffer T e (.struct d (fs.append gs)) base x = .ok (fs.join u gs.defaults) := by
  obtain ⟨h1, h2⟩ := cut_parse hT hl hd hr hef he hf hu hc hx hm.fits
  unfold readFromBuffer
  rw [buffer_ok hT hl hm (by simpa only [minBytes] using h1) h2]

/-- C23 for `read_from_buffer_copying_data`. -/
theorem C23_cut_copying_partial {base : Nat} (hm : InMem T base x) (hn : noRefs (.struct d (fs.append gs)) = true) :
    readFromBufferCopying T e (.struct d (fs.append gs)) base x = .ok (fs.join u gs.defaults) := by
  obtain ⟨h1, h2⟩ := cut_parse hT hl hd hr hef he hf hu hc hx hm.fits
  unfold readFromBufferCopying
  rw [copying_ok hT hl hm hn (by simpa only [minBytes] using h1) h2]

/-- C23 for both stream readers. -/
theorem C23_cut_stream_partial {grow : Nat → Nat} (hg : ∀ n, n ≤ grow n) {b : Bool} {src : Src} (hs : src.Clean)
    (hi : src.data = x) (hx' : Fits T x) (hn : noRefs (.struct d (fs.append gs)) = true) :
    (readFromStream T e (.struct d (fs.append gs)) grow b src).1 = .ok (fs.join u gs.defaults) := by
  obtain ⟨_, h2⟩ := cut_parse hT hl hd hr hef he hf hu hc hx hx'
  subst hi
  have h4 := stream_outcome hT hl (e := e) hg (b := b) hs hx' hn
  rw [h2] at h4
  exact h4.1

end

/-! ## Examples -/

/-- `struct Versioned { a: u16, #[speedy(default_on_eof)] b: Vec<u8>, #[speedy(default_on_eof)] c: u32 }` -/
def versioned : Ty := .struct ⟨.rust, 32, 8, [28, 0, 24], true⟩ ((Fields.cons {} (.prim .u16) .nil).append
  (.cons { defaultOnEof := true, dflt := .list [] } (.seq .vec (.prim .u8))
    (.cons { defaultOnEof := true, dflt := .num 0 } (.prim .u32) .nil)))

example : readFromBuffer x64 .little versioned 4096 [5, 1] =
    .ok (.pair (.num 0x0105) (.pair (.list []) (.pair (.num 0) .unit))) :=
  C23_cut_buffer_partial x64_ok (fs := .cons {} (.prim .u16) .nil) (u := .pair (.num 0x0105) .unit)
    (by decide) (by decide) (by decide) (by decide) (by decide) (by decide) (by simp [hasTyFields, hasTy, Prim.size])
    (by simp [canonFields, canon]) (by decide) ⟨by decide, by decide, by decide⟩

/-- `struct Inner { #[speedy(default_on_eof)] x: u8 }`, whose own default has `x = 7`, in
`struct Outer { #[speedy(default_on_eof)] inner: Inner }`. -/
def outer : Ty := .struct ⟨.rust, 1, 1, [0], true⟩ (.cons { defaultOnEof := true, dflt := .pair (.num 7) .unit }
  (.struct ⟨.rust, 1, 1, [0], true⟩ (.cons { defaultOnEof := true, dflt := .num 0 } (.prim .u8) .nil)) .nil)

/-- **C23 is false** for a field which can be read from nothing: it does not get its default value,
`Inner { x: 7 }`, but `Inner { x: 0 }`. -/
theorem C23_false :
    readFromBuffer x64 .little outer 4096 [] = .ok (.pair (.pair (.num 0) .unit) .unit) := by
  decide

/-! ## Cases -/

section Cases
open Samples

example : readFromBufferCopying x64 .little versioned 4096 [5, 1] =
    .ok (.pair (.num 0x0105) (.pair (.list []) (.pair (.num 0) .unit))) :=
  C23_cut_copying_partial x64_ok (fs := .cons {} (.prim .u16) .nil) (u := .pair (.num 0x0105) .unit)
    (by decide) (by decide) (by decide) (by decide) (by decide) (by decide) (by simp [hasTyFields, hasTy, Prim.size])
    (by simp [canonFields, canon]) (by decide) ⟨by decide, by decide, by decide⟩ (by decide)

example : (readFromStream x64 .little versioned (· + 100) true ⟨[5, 1], [.give 1]⟩).1 =
    .ok (.pair (.num 0x0105) (.pair (.list []) (.pair (.num 0) .unit))) :=
  C23_cut_stream_partial x64_ok (fs := .cons {} (.prim .u16) .nil) (u := .pair (.num 0x0105) .unit)
    (by decide) (by decide) (by decide) (by decide) (by decide) (by decide) (by simp [hasTyFields, hasTy, Prim.size])
    (by simp [canonFields, canon]) (by decide) (fun n => by omega) (by simp [Src.Clean]) rfl ⟨by decide, by decide⟩ (by decide)

example : ((decode x64 .little versioned Cx.std).run (bufferReader x64.toHost) (BufSt.init 4096 [5, 1])).1 =
    .ok (.pair (.num 0x0105) (.pair (.list []) (.pair (.num 0) .unit))) :=
  C23_default_partial x64_ok (by decide) (fs := .cons {} (.prim .u16) .nil) (u := .pair (.num 0x0105) .unit)
    (by decide) (by decide) (by decide) (by decide) (by decide) (bufferReader_lawful _) (BufSt.init_inv (by decide)) (cx := Cx.std)
    (Prod.ext rfl rfl) (by decide) (.inl (by decide))

/-- The fields of `Versioned`. -/
def versionedFields : Fields := .cons {} (.prim .u16)
  (.cons { defaultOnEof := true, dflt := .list [] } (.seq .vec (.prim .u8))
    (.cons { defaultOnEof := true, dflt := .num 0 } (.prim .u32) .nil))

/-- With all fields, the attributes make no difference. -/
example := C23_complete (T := x64) (e := .little) (R := bufferReader x64.toHost) (cx := Cx.std) (fs := versionedFields)
  (d := ⟨.rust, 32, 8, [28, 0, 24], true⟩) (d' := ⟨.rust, 32, 8, [28, 0, 24], true⟩)
  (s := BufSt.init 4096 [5, 1, 1, 0, 0, 0, 7, 4, 3, 2, 1])
  (v := .pair (.num 0x0105) (.pair (.list [.num 7]) (.pair (.num 0x01020304) .unit))) (Prod.ext rfl rfl)

/-- `struct { #[speedy(default_on_eof)] s: String }` with two bytes which are not UTF-8. -/
example := C23_not_masked (T := x64) (e := .little) (R := bufferReader x64.toHost) (cx := Cx.std)
  (fs := .cons { defaultOnEof := true, dflt := .bytes [] } (.str .owned) .nil)
  (d := ⟨.rust, 24, 8, [0], true⟩) (d' := ⟨.rust, 24, 8, [0], true⟩)
  (s := BufSt.init 4096 [2, 0, 0, 0, 0xff, 0xff]) (er := .invalidUtf8) (Prod.ext rfl rfl) (by decide)

end Cases

end Verif
