import Verif.PropsPlain

/-!
# Data exchanged between machines: C56

`T` and `T'` are two machines, with different byte orders, sizes of `usize` and layouts of structs; `t` and `t'` are what the same
declaration is on them, up to `#[repr(…)]` and the spelling of types.
-/

namespace Verif

/-- Attributes, without the way in which the type of the field is spelled (`opaqueTy`: recognised by the derive macro or not); an explicit
`length_type = u32` is the default. -/
def Attrs.source (a : Attrs) : Attrs :=
  match a.len with
  | none | some (.typed .u32) => { a with len := none, opaqueTy := false }
  | _ => a

mutual
/-- The declaration, without what the compiler and `#[repr(…)]` decide on the layout of structs. -/
def Ty.source : Ty → Ty
  | .seq k t => .seq k t.source
  | .set t => .set t.source
  | .map k v => .map k.source v.source
  | .array n t => .array n t.source
  | .refArray n t => .refArray n t.source
  | .option t => .option t.source
  | .result a b => .result a.source b.source
  | .range t => .range t.source
  | .rangeInc t => .rangeInc t.source
  | .pair a b => .pair a.source b.source
  | .box t => .box t.source
  | .via c t => .via c t.source
  | .struct _ fs => .struct ⟨.rust, 0, 0, [], false⟩ fs.source
  | .enum d vs => .enum d vs.source
  | t => t
/-- Fields. -/
def Fields.source : Fields → Fields
  | .nil => .nil
  | .cons a t fs => .cons a.source t.source fs.source
/-- Variants. -/
def Variants.source : Variants → Variants
  | .nil => .nil
  | .cons tag fs vs => .cons tag fs.source vs.source
end

theorem opt_source (l : LenR) (t : Ty) : l.opt t.source = l.opt t := by cases t <;> simp [Ty.source, LenR.opt]

/-- The flag of `default_on_eof` does not matter for writing. -/
theorem wire_typed {F : Fmt} (lt : LenTy) (b b' : Bool) : ∀ (t : Ty), wire F t (.typed lt b) = wire F t (.typed lt b')
  | .option t => by
    funext v
    cases v <;> simp only [wire]
    have h := wire_typed (F := F) lt b b' t
    cases t <;> simp only [LenR.opt] <;> rw [h]
  | .prim _ | .usize | .bool | .char | .nonZero _ | .atomic _ | .ipv4 | .ipv6 | .ipAddr
  | .duration | .systemTime | .endianness | .varint64 | .uuid | .str _ | .unit
  | .seq _ _ | .set _ | .array _ _ | .refArray _ _ | .map _ _ | .result _ _ | .range _ | .rangeInc _ | .pair _ _ | .box _ | .via _ _
  | .struct _ _ | .enum _ _ => by
    funext v
    cases v <;> first
      | rfl
      | (simp only [wire, wireLen]; done)
      | (rename_i i v; rcases i with _ | _ | i <;> first | rfl | (cases v <;> rfl))
      | (rename_i x y; cases y <;> first | rfl | (rename_i z; cases z <;> rfl) | (cases x <;> rfl))

theorem wire_wlen {F : Fmt} (a : Attrs) (prev : List Val) (t : Ty) : wire F t (a.source.wlen prev) = wire F t (a.wlen prev) := by
  unfold Attrs.source
  split
  · rename_i h
    unfold Attrs.wlen
    simp only [Bool.false_eq_true, if_false, h]
    split
    · exact wire_typed _ _ _ _
    · rfl
  · rename_i h
    unfold Attrs.wlen
    simp only [Bool.false_eq_true, if_false, h]
    split
    · exact wire_typed _ _ _ _
    · rfl
  · rfl

theorem Attrs.source_eq (a : Attrs) : a.source.skip = a.skip ∧ a.source.defaultOnEof = a.defaultOnEof ∧ a.source.dflt = a.dflt ∧
    a.source.varint = a.varint ∧ a.source.pre = a.pre := by
  unfold Attrs.source
  split <;> simp

mutual
theorem wire_source {F : Fmt} : ∀ (t : Ty) (l : LenR), wire F t.source l = wire F t l
  | .prim _, _ | .usize, _ | .bool, _ | .char, _ | .nonZero _, _ | .atomic _, _ | .ipv4, _ | .ipv6, _ | .ipAddr, _
  | .duration, _ | .systemTime, _ | .endianness, _ | .varint64, _ | .uuid, _ | .str _, _ | .unit, _ => by simp [Ty.source]
  | .seq _ t, l | .set t, l | .array _ t, l | .refArray _ t, l => by
    funext v; cases v <;> simp only [Ty.source, wire, wire_source t]
  | .map k t, l => by
    funext v; cases v <;> simp only [Ty.source, wire, wire_source k, wire_source t]
  | .option t, l => by
    funext v; cases v <;> simp only [Ty.source, wire, opt_source, wire_source t]
  | .result a b, l => by
    funext v
    cases v <;> try (simp only [Ty.source, wire]; done)
    rename_i i v
    match i with
    | 0 => simp only [Ty.source, wire, wire_source b]
    | 1 => simp only [Ty.source, wire, wire_source a]
    | _ + 2 => simp only [Ty.source, wire]
  | .range t, l => by
    funext v
    cases v <;> try (simp only [Ty.source, wire]; done)
    rename_i a b
    cases b <;> try (simp only [Ty.source, wire]; done)
    rename_i b c
    cases c <;> simp only [Ty.source, wire, wire_source t]
  | .rangeInc t, l => by
    funext v
    cases v <;> try (simp only [Ty.source, wire]; done)
    rename_i a b
    cases b <;> try (simp only [Ty.source, wire]; done)
    rename_i b c
    cases c <;> simp only [Ty.source, wire, wire_source t]
  | .pair a b, l => by
    funext v; cases v <;> simp only [Ty.source, wire, wire_source a, wire_source b]
  | .box t, l | .via _ t, l => by
    funext v; simp only [Ty.source, wire, wire_source t]
  | .struct d fs, l => by
    funext v; simp only [Ty.source, wire, wireFields_source fs]
  | .enum d vs, l => by
    funext v; cases v <;> simp only [Ty.source, wire, wireVariants_source d vs]
theorem wireFields_source {F : Fmt} : ∀ (fs : Fields) (prev : List Val), wireFields F fs.source prev = wireFields F fs prev
  | .nil, _ => by simp [Fields.source]
  | .cons a t fs, prev => by
    obtain ⟨h1, h2, h3, h4, h5⟩ := a.source_eq
    funext v; cases v <;> simp only [Fields.source, wireFields, wire_source t, wireFields_source fs, wire_wlen, h1, h2, h3, h4, h5]
theorem wireVariants_source {F : Fmt} (d : EnumDesc) : ∀ (vs : Variants), wireVariants F d vs.source = wireVariants F d vs
  | .nil => by simp [Variants.source]
  | .cons tag fs vs => by
    funext i v; cases i <;> simp only [Variants.source, wireVariants, wireFields_source fs, wireVariants_source d vs]
end

/-! ## Two parsers which do not disagree -/

/-- If both succeed on the same input, then with the same result. -/
def Concur {α : Type} (p p' : P α) : Prop := ∀ bs a r b s, p bs = .ok a r → p' bs = .ok b s → a = b ∧ r = s

theorem Concur.refl {α : Type} (p : P α) : Concur p p := fun bs a r b s h h' => by rw [h] at h'; cases h'; exact ⟨rfl, rfl⟩

theorem Concur.bind {α β : Type} {p p' : P α} {f f' : α → P β} (h : Concur p p') (hf : ∀ a, Concur (f a) (f' a)) :
    Concur (P.bind p f) (P.bind p' f') := by
  intro bs a r b s h1 h2
  unfold P.bind at h1 h2
  cases hp : p bs with
  | ok x u =>
    cases hp' : p' bs with
    | ok y w =>
      obtain ⟨rfl, rfl⟩ := h bs x u y w hp hp'
      rw [hp] at h1; rw [hp'] at h2
      exact hf x u a r b s h1 h2
    | _ => rw [hp'] at h2; cases h2
  | _ => rw [hp] at h1; cases h1

theorem Concur.map {α β : Type} {p p' : P α} (f : α → β) (h : Concur p p') : Concur (P.map f p) (P.map f p') :=
  h.bind fun _ => .refl _

theorem Concur.failL {α : Type} {p : P α} (er : Err) : Concur (P.fail er) p := fun _ _ _ _ _ h _ => by cases h
theorem Concur.failR {α : Type} {p : P α} (er : Err) : Concur p (P.fail er) := fun _ _ _ _ _ _ h => by cases h
theorem Concur.unspecL {α : Type} {p : P α} : Concur P.unspec p := fun _ _ _ _ _ h _ => by cases h
theorem Concur.unspecR {α : Type} {p : P α} : Concur p P.unspec := fun _ _ _ _ _ _ h => by cases h
theorem Concur.ambL {α : Type} {p : P α} (er : Err) : Concur (P.amb er) p := fun _ _ _ _ _ h _ => by cases h
theorem Concur.ambR {α : Type} {p : P α} (er : Err) : Concur p (P.amb er) := fun _ _ _ _ _ _ h => by cases h

theorem Concur.iteL {α : Type} {p q r : P α} {c : Prop} [Decidable c] (hp : c → Concur p r) (hq : ¬ c → Concur q r) :
    Concur (if c then p else q) r := by
  split
  · exact hp ‹_›
  · exact hq ‹_›

theorem Concur.iteR {α : Type} {p q r : P α} {c : Prop} [Decidable c] (hp : c → Concur r p) (hq : ¬ c → Concur r q) :
    Concur r (if c then p else q) := by
  split
  · exact hp ‹_›
  · exact hq ‹_›

theorem Concur.rep {α : Type} {p p' : P α} (h : Concur p p') : ∀ n, Concur (pRep n p) (pRep n p')
  | 0 => .refl _
  | n + 1 => h.bind fun _ => (Concur.rep h n).bind fun _ => .refl _

theorem same_len {h h' : Host} {e : Endian} : ∀ lt, Concur (pLen h e lt) (pLen h' e lt)
  | .u7 | .u8 | .u16 | .u32 => .refl _
  | .u64 | .varint => Concur.bind (.refl _) fun _ => .iteL (fun _ => .failL _) fun _ => .iteR (fun _ => .failR _) fun _ => .refl _

theorem same_str {T T' : Target} (n : Nat) : Concur (pStr T (some n)) (pStr T' (some n)) := by
  unfold pStr
  exact .iteL (fun _ => .unspecL) fun _ => .iteL (fun _ => .ambL _) fun _ => .iteR (fun _ => .unspecR) fun _ =>
    .iteR (fun _ => .ambR _) fun _ => .refl _

/-- A `Vec` of elements with a size is read element by element. -/
theorem vec_elems {T : Target} {e : Endian} {t : Ty} {p : P Val} {n : Nat} (hz : sizeOf T t ≠ 0) {bs : Bytes} {vs : List Val}
    {r : Bytes} (h : pVec T e t p n bs = .ok vs r) : pRep n p bs = .ok vs r := by
  unfold pVec at h
  split at h
  · cases h
  · split at h
    · cases h
    · simp only at h
      split at h
      · revert h
        generalize (if n * sizeOf T t > T.isizeMax then PRes.fail (.panic .capacityOverflow)
          else if (!isPrimitive T t && sizeOf T t == 0) = true then .ok (List.replicate n (zstVal t)) bs else pRep n p bs) = x
        intro h
        cases x <;> simp only [precheck] at h
        · cases h
        · split at h <;> cases h
        · cases h
        · cases h
      · split at h
        · cases h
        · split at h
          · rename_i hc
            simp [hz] at hc
          · exact h

theorem same_vec {T T' : Target} {e : Endian} {t t' : Ty} {p p' : P Val} (hz : sizeOf T t ≠ 0) (hz' : sizeOf T' t' ≠ 0)
    (h : Concur p p') (n : Nat) : Concur (pVec T e t p n) (pVec T' e t' p' n) := fun bs a r b s h1 h2 =>
  Concur.rep h n bs a r b s (vec_elems hz h1) (vec_elems hz' h2)

theorem coll_elems {T : Target} {e : Endian} {t : Ty} {p : P Val} {n : Nat} {bs : Bytes} {vs : List Val} {r : Bytes}
    (h : pColl T e t p n bs = .ok vs r) : pRep n p bs = .ok vs r := by
  unfold pColl at h
  split at h
  · split at h
    · cases h
    · split at h
      · cases h
      · exact h
  · exact h

theorem kv_elems {T : Target} {e : Endian} {k t : Ty} {p q : P Val} {n : Nat} {bs : Bytes} {vs : List Val} {r : Bytes}
    (h : pKV T e k t p q n bs = .ok vs r) : pRep n (pPair p q) bs = .ok vs r := by
  unfold pKV at h
  split at h
  · split at h
    · cases h
    · split at h
      · cases h
      · exact h
  · exact h

theorem same_array {T T' : Target} {e : Endian} {x x' : Bool} {t t' : Ty} {p p' : P Val} (h : Concur p p') (n : Nat) :
    Concur (pArray T e x t p n) (pArray T' e x' t' p' n) := by
  unfold pArray
  exact .iteL (fun _ => .unspecL) fun _ => .iteR (fun _ => .unspecR) fun _ => (h.rep n).map _

theorem same_const {T T' : Target} (c : Bytes) : Concur (pConst T c) (pConst T' c) := by
  unfold pConst
  exact .iteL (fun _ => .unspecL) fun _ => .iteR (fun _ => .unspecR) fun _ => .refl _

/-- No IPv6 addresses, or the same byte order. -/
def NoIp6 (T T' : Target) (t : Ty) : Prop := T.native = T'.native ∨ ∃ l, fmtOk (fun _ => true) false t l = true

theorem same_ipv6 {T T' : Target} {e : Endian} (h : T.native = T'.native) : Concur (pIpv6 T e) (pIpv6 T' e) := by
  have : e.conv T.toHost = e.conv T'.toHost := by unfold Endian.conv; rw [h]
  unfold pIpv6
  rw [this]
  exact .refl _

theorem same_lenR {h h' : Host} {e : Endian} {l l' : LenR} {lt : LenTy} (hl : l = .typed lt false) (hl' : l' = .typed lt false) :
    Concur (pLenR h e l) (pLenR h' e l') := by
  subst hl hl'
  exact (same_len lt).map _

theorem lenR_some {h : Host} {e : Endian} {lt : LenTy} {bs r : Bytes} (hn : pLenR h e (.typed lt false) bs = .ok none r) : False := by
  simp only [pLenR, P.map, P.bind, P.pure] at hn
  split at hn <;> cases hn

/-- With a length before it. -/
theorem Concur.len {h h' : Host} {e : Endian} {l l' : LenR} {lt : LenTy} (hl : l = .typed lt false) (hl' : l' = .typed lt false)
    {α : Type} {f f' : Option Nat → P α} (hf : ∀ n, Concur (f (some n)) (f' (some n))) :
    Concur (P.bind (pLenR h e l) f) (P.bind (pLenR h' e l') f') := by
  subst hl hl'
  simp only [pLenR, P.map]
  have assoc : ∀ (q : P Nat) (g : Option Nat → P α),
      P.bind (P.bind q fun a => P.pure (some a)) g = P.bind q fun a => g (some a) := by
    intro q g
    funext bs
    unfold P.bind P.pure
    cases q bs <;> rfl
  rw [assoc, assoc]
  exact (same_len lt).bind hf

theorem simple_len {a : Attrs} (h : a.simple = true) (h0 : Host) (prev : List Val) :
    (a.cx h0 prev).len = .typed (if a.opaqueTy then .u32 else match a.len with | some (.typed lt) => lt | _ => .u32) false := by
  simp only [Attrs.simple, Bool.and_eq_true, Bool.not_eq_true'] at h
  unfold Attrs.cx Attrs.wcx
  split
  · rfl
  · cases hl : a.len with
    | none => simp [h.1.1.2, LenR.cast]
    | some k =>
      cases k with
      | typed lt => simp [h.1.1.2, LenR.cast]
      | expr f => simp [hl] at h
      | untilEof => simp [hl] at h

theorem simple_cx {a a' : Attrs} (hs : a.source = a'.source) (h : a.simple = true) (h' : a'.simple = true) (h0 h1 : Host) (prev : List Val) :
    ∃ lt, (a.cx h0 prev).len = .typed lt false ∧ (a'.cx h1 prev).len = .typed lt false := by
  refine ⟨_, simple_len h h0 prev, ?_⟩
  rw [simple_len h' h1 prev]
  congr 1
  have key : ∀ b : Attrs, (if b.opaqueTy then LenTy.u32 else match b.len with | some (.typed lt) => lt | _ => .u32) =
      if b.source.opaqueTy then LenTy.u32 else match b.source.len with | some (.typed lt) => lt | _ => .u32 := by
    intro b
    cases ho : b.opaqueTy <;> cases hl : b.len with
    | none => simp [Attrs.source, hl]
    | some k => cases k with
      | typed lt => cases lt <;> simp [Attrs.source, ho, hl]
      | expr f => simp [Attrs.source, ho, hl]
      | untilEof => simp [Attrs.source, ho, hl]
  rw [key a, key a', hs]

section
variable {T T' : Target} (hT : T.Ok) (hT' : T'.Ok) {e : Endian}
include hT hT'

mutual
/-- Two machines do not disagree on what they read. -/
theorem parse_same : ∀ (t t' : Ty) (cx cx' : Cx) (lt : LenTy), plain t = true → plain t' = true → t.source = t'.source →
    NoIp6 T T' t → cx.len = .typed lt false → cx'.len = .typed lt false → Concur (parse T e t cx) (parse T' e t' cx')
  | .prim _, t', _, _, _, _, _, hs, _, _, _ | .bool, t', _, _, _, _, _, hs, _, _, _ | .char, t', _, _, _, _, _, hs, _, _, _
  | .nonZero _, t', _, _, _, _, _, hs, _, _, _ | .atomic _, t', _, _, _, _, _, hs, _, _, _ | .ipv4, t', _, _, _, _, _, hs, _, _, _
  | .duration, t', _, _, _, _, _, hs, _, _, _ | .systemTime, t', _, _, _, _, _, hs, _, _, _
  | .endianness, t', _, _, _, _, _, hs, _, _, _ | .varint64, t', _, _, _, _, _, hs, _, _, _ | .uuid, t', _, _, _, _, _, hs, _, _, _
  | .unit, t', _, _, _, _, _, hs, _, _, _ => by
    cases t' <;> simp only [Ty.source, reduceCtorEq] at hs <;> cases hs <;> simp only [parse] <;> exact .refl _
  | .usize, t', _, _, _, _, _, hs, _, _, _ => by
    cases t' <;> simp only [Ty.source, reduceCtorEq] at hs
    simp only [parse]
    exact Concur.bind (.refl _) fun _ => .iteL (fun _ => .failL _) fun _ => .iteR (fun _ => .failR _) fun _ => .refl _
  | .ipv6, t', _, _, _, _, _, hs, h6, _, _ => by
    cases t' <;> simp only [Ty.source, reduceCtorEq] at hs
    rcases h6 with h6 | ⟨l, h6⟩
    · simp only [parse]; exact same_ipv6 h6
    · simp [fmtOk] at h6
  | .ipAddr, t', _, _, _, _, _, hs, h6, _, _ => by
    cases t' <;> simp only [Ty.source, reduceCtorEq] at hs
    rcases h6 with h6 | ⟨l, h6⟩
    · simp only [parse]
      refine Concur.bind (.refl _) fun n => ?_
      split
      · exact .refl _
      · split
        · exact (same_ipv6 h6).map _
        · exact .refl _
    · simp [fmtOk] at h6
  | .str k, t', _, _, _, _, _, hs, _, hc, hc' => by
    cases t' <;> simp only [Ty.source, reduceCtorEq] at hs
    simp only [parse]
    exact .len hc hc' fun n => same_str n
  | .seq k t, t', cx, cx', lt, hp, hp', hs, h6, hc, hc' => by
    cases t' <;> simp only [Ty.source, reduceCtorEq, Ty.seq.injEq] at hs
    rename_i k' t'
    simp only [plain, Bool.and_eq_true, beq_iff_eq, Bool.not_eq_true'] at hp hp'
    obtain ⟨⟨rfl, hz⟩, hp⟩ := hp
    obtain ⟨⟨rfl, hz'⟩, hp'⟩ := hp'
    have ih := parse_same t t' Cx.std Cx.std .u32 hp hp' hs.2
      (h6.imp id fun ⟨l, h⟩ => ⟨some .u32, by simp only [fmtOk, Bool.and_eq_true] at h; exact h.2⟩) rfl rfl
    simp only [parse]
    exact .len hc hc' fun n => (same_vec (sizeOf_pos hT hz) (sizeOf_pos hT' hz') ih n).map _
  | .set t, t', cx, cx', lt, hp, hp', hs, h6, hc, hc' => by
    cases t' <;> simp only [Ty.source, reduceCtorEq, Ty.set.injEq] at hs
    rename_i t'
    simp only [plain, Bool.and_eq_true] at hp hp'
    have ih := parse_same t t' Cx.std Cx.std .u32 hp.2 hp'.2 hs
      (h6.imp id fun ⟨l, h⟩ => ⟨some .u32, by simp only [fmtOk, Bool.and_eq_true] at h; exact h.2⟩) rfl rfl
    simp only [parse]
    refine .len hc hc' fun n => Concur.map _ ?_
    exact fun bs a r b s h1 h2 => Concur.rep ih n bs a r b s (coll_elems h1) (coll_elems h2)
  | .map k t, t', cx, cx', lt, hp, hp', hs, h6, hc, hc' => by
    cases t' <;> simp only [Ty.source, reduceCtorEq, Ty.map.injEq] at hs
    rename_i k' t'
    simp only [plain, Bool.and_eq_true] at hp hp'
    have ih := parse_same k k' Cx.std Cx.std .u32 hp.1.2 hp'.1.2 hs.1
      (h6.imp id fun ⟨l, h⟩ => ⟨some .u32, by simp only [fmtOk, Bool.and_eq_true] at h; exact h.1.2⟩) rfl rfl
    have ih' := parse_same t t' Cx.std Cx.std .u32 hp.2 hp'.2 hs.2
      (h6.imp id fun ⟨l, h⟩ => ⟨some .u32, by simp only [fmtOk, Bool.and_eq_true] at h; exact h.2⟩) rfl rfl
    have hpair : Concur (pPair (parse T e k Cx.std) (parse T e t Cx.std)) (pPair (parse T' e k' Cx.std) (parse T' e t' Cx.std)) :=
      ih.bind fun _ => ih'.bind fun _ => .refl _
    simp only [parse]
    refine .len hc hc' fun n => Concur.map _ ?_
    exact fun bs a r b s h1 h2 => Concur.rep hpair n bs a r b s (kv_elems h1) (kv_elems h2)
  | .array n t, t', cx, cx', lt, hp, hp', hs, h6, hc, hc' => by
    cases t' <;> simp only [Ty.source, reduceCtorEq, Ty.array.injEq] at hs
    rename_i n' t'
    obtain ⟨rfl, hs⟩ := hs
    simp only [plain] at hp hp'
    have ih := parse_same t t' Cx.std Cx.std .u32 hp hp' hs
      (h6.imp id fun ⟨l, h⟩ => ⟨some .u32, by simpa only [fmtOk] using h⟩) rfl rfl
    simp only [parse]
    exact same_array ih n
  | .option t, t', cx, cx', lt, hp, hp', hs, h6, hc, hc' => by
    cases t' <;> simp only [Ty.source, reduceCtorEq, Ty.option.injEq] at hs
    rename_i t'
    simp only [plain] at hp hp'
    have ho : ∃ lt, (cx.opt t).len = .typed lt false ∧ (cx'.opt t').len = .typed lt false := by
      rw [Cx.opt_len, Cx.opt_len, ← opt_source _ t, ← opt_source _ t', hs, hc, hc']
      cases t'.source <;> exact ⟨_, rfl, rfl⟩
    obtain ⟨lt', ho, ho'⟩ := ho
    have ih := parse_same t t' (cx.opt t) (cx'.opt t') lt' hp hp' hs
      (h6.imp id fun ⟨l, h⟩ => ⟨_, by simp only [fmtOk] at h; exact h⟩) ho ho'
    simp only [parse]
    refine Concur.bind (.refl _) fun b => ?_
    split
    · exact ih.map _
    · exact .refl _
  | .result k t, t', cx, cx', lt, hp, hp', hs, h6, hc, hc' => by
    cases t' <;> simp only [Ty.source, reduceCtorEq, Ty.result.injEq] at hs
    rename_i k' t'
    simp only [plain, Bool.and_eq_true] at hp hp'
    have ih := parse_same k k' Cx.std Cx.std .u32 hp.1 hp'.1 hs.1
      (h6.imp id fun ⟨l, h⟩ => ⟨some .u32, by simp only [fmtOk, Bool.and_eq_true] at h; exact h.1⟩) rfl rfl
    have ih' := parse_same t t' Cx.std Cx.std .u32 hp.2 hp'.2 hs.2
      (h6.imp id fun ⟨l, h⟩ => ⟨some .u32, by simp only [fmtOk, Bool.and_eq_true] at h; exact h.2⟩) rfl rfl
    simp only [parse]
    refine Concur.bind (.refl _) fun b => ?_
    split
    · exact ih.map _
    · exact ih'.map _
  | .range t, t', cx, cx', lt, hp, hp', hs, h6, hc, hc' => by
    cases t' <;> simp only [Ty.source, reduceCtorEq, Ty.range.injEq] at hs
    rename_i t'
    simp only [plain] at hp hp'
    have ih := parse_same t t' Cx.std Cx.std .u32 hp hp' hs
      (h6.imp id fun ⟨l, h⟩ => ⟨some .u32, by simpa only [fmtOk] using h⟩) rfl rfl
    simp only [parse]
    exact ih.bind fun _ => ih.bind fun _ => .refl _
  | .pair k t, t', cx, cx', lt, hp, hp', hs, h6, hc, hc' => by
    cases t' <;> simp only [Ty.source, reduceCtorEq, Ty.pair.injEq] at hs
    rename_i k' t'
    simp only [plain, Bool.and_eq_true] at hp hp'
    have ih := parse_same k k' Cx.std Cx.std .u32 hp.1 hp'.1 hs.1
      (h6.imp id fun ⟨l, h⟩ => ⟨some .u32, by simp only [fmtOk, Bool.and_eq_true] at h; exact h.1⟩) rfl rfl
    have ih' := parse_same t t' Cx.std Cx.std .u32 hp.2 hp'.2 hs.2
      (h6.imp id fun ⟨l, h⟩ => ⟨some .u32, by simp only [fmtOk, Bool.and_eq_true] at h; exact h.2⟩) rfl rfl
    simp only [parse]
    exact ih.bind fun _ => ih'.bind fun _ => .refl _
  | .box t, t', cx, cx', lt, hp, hp', hs, h6, hc, hc' => by
    cases t' <;> simp only [Ty.source, reduceCtorEq, Ty.box.injEq] at hs
    rename_i t'
    simp only [plain] at hp hp'
    simp only [parse]
    exact parse_same t t' Cx.std Cx.std .u32 hp hp' hs
      (h6.imp id fun ⟨l, h⟩ => ⟨some .u32, by simpa only [fmtOk] using h⟩) rfl rfl
  | .struct d fs, t', cx, cx', lt, hp, hp', hs, h6, hc, hc' => by
    cases t' <;> simp only [Ty.source, reduceCtorEq, Ty.struct.injEq] at hs
    rename_i d' fs'
    simp only [plain, Bool.and_eq_true] at hp hp'
    simp only [parse]
    exact parseFields_same fs fs' [] hp.2 hp'.2 hs.2 (h6.imp id fun ⟨l, h⟩ => by simpa only [fmtOk] using h)
  | .enum d vs, t', cx, cx', lt, hp, hp', hs, h6, hc, hc' => by
    cases t' <;> simp only [Ty.source, reduceCtorEq, Ty.enum.injEq] at hs
    rename_i d' vs'
    obtain ⟨rfl, hs⟩ := hs
    simp only [plain, Bool.and_eq_true] at hp hp'
    simp only [parse]
    exact Concur.bind (.refl _) fun tag => parseVariants_same vs vs' tag 0 hp.2 hp'.2 hs
      (h6.imp id fun ⟨l, h⟩ => by simp only [fmtOk, Bool.and_eq_true] at h; exact h.2)
  | .refArray _ _, _, _, _, _, h, _, _, _, _, _ | .rangeInc _, _, _, _, _, h, _, _, _, _, _
  | .via _ _, _, _, _, _, h, _, _, _, _, _ => by simp [plain] at h
theorem parseFields_same : ∀ (fs fs' : Fields) (prev : List Val), plainFields fs = true → plainFields fs' = true →
    fs.source = fs'.source → (T.native = T'.native ∨ fmtOkFields (fun _ => true) false fs = true) →
    Concur (parseFields T e fs prev) (parseFields T' e fs' prev)
  | .nil, fs', _, _, _, hs, _ => by
    cases fs' <;> simp only [Fields.source, reduceCtorEq] at hs
    simp only [parseFields]
    exact .refl _
  | .cons a t fs, fs', prev, hp, hp', hs, h6 => by
    cases fs' <;> simp only [Fields.source, reduceCtorEq, Fields.cons.injEq] at hs
    rename_i a' t' fs'
    obtain ⟨has, hs, hss⟩ := hs
    simp only [plainFields, Bool.and_eq_true] at hp hp'
    have ha := hp.1.1
    have ha' := hp'.1.1
    simp only [Attrs.simple, Bool.and_eq_true, Bool.not_eq_true'] at ha ha'
    obtain ⟨lt, hc, hc'⟩ := simple_cx has hp.1.1 hp'.1.1 T.toHost T'.toHost prev
    have hvar : a'.varint = a.varint := by rw [← a.source_eq.2.2.2.1, ← a'.source_eq.2.2.2.1, has]
    have hpre : a'.pre = a.pre := by rw [← a.source_eq.2.2.2.2, ← a'.source_eq.2.2.2.2, has]
    have ih' := fun v => parseFields_same fs fs' (prev ++ [v]) hp.2 hp'.2 hss
      (h6.imp id fun h => by simp only [fmtOkFields, Bool.and_eq_true] at h; exact h.2)
    simp only [parseFields, ha.1.1.1, ha.1.1.2, ha'.1.1.1, ha'.1.1.2, hvar, hpre, Bool.false_eq_true, if_false]
    refine Concur.bind ?_ fun v => (ih' v).map _
    have body : Concur (if a.varint = true then P.map Val.num pVarint else parse T e t (a.cx T.toHost prev))
        (if a.varint = true then P.map Val.num pVarint else parse T' e t' (a'.cx T'.toHost prev)) := by
      split
      · exact .refl _
      · rename_i hv
        refine parse_same t t' _ _ lt hp.1.2 hp'.1.2 hs (h6.imp id fun h => ?_) hc hc'
        simp only [fmtOkFields, Bool.and_eq_true, ha.1.1.1, Bool.false_or, Bool.or_eq_true] at h
        rcases h.1 with h | h
        · exact absurd h hv
        · exact ⟨_, h⟩
    split
    · exact body
    · exact (same_const _).bind fun _ => body
theorem parseVariants_same : ∀ (vs vs' : Variants) (tag i : Nat), plainVariants vs = true → plainVariants vs' = true →
    vs.source = vs'.source → (T.native = T'.native ∨ fmtOkVariants (fun _ => true) false vs = true) →
    Concur (parseVariants T e vs tag i) (parseVariants T' e vs' tag i)
  | .nil, vs', _, _, _, _, hs, _ => by
    cases vs' <;> simp only [Variants.source, reduceCtorEq] at hs
    simp only [parseVariants]
    exact .refl _
  | .cons tag0 fs vs, vs', tag, i, hp, hp', hs, h6 => by
    cases vs' <;> simp only [Variants.source, reduceCtorEq, Variants.cons.injEq] at hs
    rename_i tag0' fs' vs'
    obtain ⟨rfl, hs, hss⟩ := hs
    simp only [plainVariants, Bool.and_eq_true] at hp hp'
    simp only [parseVariants]
    split
    · exact (parseFields_same fs fs' [] hp.1 hp'.1 hs
        (h6.imp id fun h => by simp only [fmtOkVariants, Bool.and_eq_true] at h; exact h.1)).map _
    · exact parseVariants_same vs vs' tag (i + 1) hp.2 hp'.2 hss
        (h6.imp id fun h => by simp only [fmtOkVariants, Bool.and_eq_true] at h; exact h.2)
end
end

/-! ## C56 -/

section
variable {T T' : Target} (hT : T.Ok) (hT' : T'.Ok) {e : Endian} {t t' : Ty} (hs : t.source = t'.source)
  (hl : layoutOk T t = true) (hl' : layoutOk T' t' = true) (hd : declOk t = true) (hd' : declOk t' = true)
  (h6 : T.native = T'.native ∨ fmtOk (fun _ => true) false t (some .u32) = true)
include hT hT' hs hl hl' hd hd' h6

omit hT hT' hl hl' hd hd' in
/-- The two machines use the same format. -/
theorem wire_machines (v : Val) :
    wire (Fmt.code T.toHost e) t LenR.std v = wire (Fmt.code T'.toHost e) t' LenR.std v := by
  rw [← wire_source t', ← hs, wire_source t]
  rcases h6 with h6 | h6
  · have : Fmt.code T.toHost e = Fmt.code T'.toHost e := by unfold Fmt.code Endian.conv; rw [h6]
    rw [this]
  · have key : ∀ T : Target, wire (Fmt.code T.toHost e) t LenR.std v = wire (Fmt.doc e) t LenR.std v := fun T =>
      wire_rel (F := Fmt.code T.toHost e) (F' := Fmt.doc e) (R := Eq)
        ⟨fun _ => rfl, fun h1 h2 => by rw [h1, h2], fun _ _ _ => rfl, by simp⟩ t LenR.std v h6
    rw [key T, key T']

/-- **C56**: a value written on one machine is read on another one, on which it exists, whatever the byte orders, sizes of
`usize` and layouts of structs are; and the other machine would have written the same bytes.

Full claim: all types.  Missing: `Ipv6Addr` between machines of different byte orders, for which it is false (`C56_false`), and
the exceptions of C01. -/
theorem C56_portable_partial {v : Val} (hsl : sliceOk T t = true) (hr' : regular T' e t' = true) (hv : hasTy T t v) (hv' : hasTy T' t' v)
    (hc' : canon (Fmt.code T'.toHost e) t' v) (he' : ends true false t' = true) {bs : Bytes} {junk : Nat → UInt8}
    (hw : writeToVec T e t v junk = .ok bs) {base : Nat} (hm : InMem T' base bs) :
    readFromBuffer T' e t' base bs = .ok v ∧ (∀ junk', writeToVec T' e t' v junk' = .ok bs) ∧
    (noRefs t' = true → readFromBufferCopying T' e t' base bs = .ok v ∧
      ∀ (grow : Nat → Nat), (∀ n, n ≤ grow n) → ∀ (b : Bool) (src : Src), src.Clean → src.data = bs →
        (readFromStream T' e t' grow b src).1 = .ok v) := by
  have h1 := (vec_inv hT hl hd hsl hv hw).1
  rw [wire_machines hs h6] at h1
  have hw' : ∀ junk', writeToVec T' e t' v junk' = .ok bs := fun junk' =>
    vec_ok hT' hl' hd' (regular_slice t' hr') hv' h1 hm.fits.mem
  exact ⟨C01_round_trip_partial hT' hl' hd' hr' hv' hc' (hw' junk) he' hm, hw', fun hn =>
    ⟨C01_round_trip_copying_partial hT' hl' hd' hr' hv' hc' (hw' junk) he' hn hm, fun grow hg b src hsc hb =>
      C01_round_trip_stream_partial hT' hl' hd' hr' hv' hc' (hw' junk) hg he' hn hsc hb hm.fits⟩⟩

section
variable (hp : plain t = true) (hp' : plain t' = true)
include hp hp'

/-- **C56** for plain data. -/
theorem C56_portable_plain {v : Val} (hv : hasTy T t v) (hv' : hasTy T' t' v) {bs : Bytes} {junk : Nat → UInt8}
    (hw : writeToVec T e t v junk = .ok bs) {base : Nat} (hm : InMem T' base bs) :
    readFromBuffer T' e t' base bs = .ok v ∧ (∀ junk', writeToVec T' e t' v junk' = .ok bs) ∧
    readFromBufferCopying T' e t' base bs = .ok v ∧
      ∀ (grow : Nat → Nat), (∀ n, n ≤ grow n) → ∀ (b : Bool) (src : Src), src.Clean → src.data = bs →
        (readFromStream T' e t' grow b src).1 = .ok v := by
  have f := plain_facts hT e t hp
  have f' := plain_facts hT' e t' hp'
  obtain ⟨h1, h2, h3⟩ := C56_portable_partial hT hT' hs hl hl' hd hd' h6 (regular_slice t f.regular) f'.regular hv hv'
    (plain_canon _ t' v hp' hv') (f'.ends _ _) hw hm
  exact ⟨h1, h2, h3 f'.noRefs⟩

/-- **C56**, any input: if both machines accept it, then they read the same value and as many bytes. -/
theorem C56_never_disagree {base base' : Nat} {buf : Bytes} (hm : InMem T base buf) (hm' : InMem T' base' buf) {v v' : Val} {n n' : Nat}
    (h : readWithLengthFromBuffer T e t base buf = (.ok v, n)) (h' : readWithLengthFromBuffer T' e t' base' buf = (.ok v', n')) :
    v = v' ∧ n = n' := by
  have f := plain_facts hT e t hp
  have f' := plain_facts hT' e t' hp'
  have ha : Agreeable T e t := ⟨hl, hd, f.regular, f.ends _ _, f.peekOk, f.cowOk _⟩
  have ha' : Agreeable T' e t' := ⟨hl', hd', f'.regular, f'.ends _ _, f'.peekOk, f'.cowOk _⟩
  obtain ⟨r, h1, rfl⟩ := (ha.buffer_iff hT hm v n).1 h
  obtain ⟨r', h1', rfl⟩ := (ha'.buffer_iff hT' hm' v' n').1 h'
  obtain ⟨rfl, rfl⟩ := parse_same hT hT' (e := e) t t' Cx.std Cx.std .u32 hp hp' hs (h6.imp id fun h => ⟨_, h⟩) rfl rfl buf v r v' r' h1 h1'
  exact ⟨rfl, rfl⟩

/-- **C56**: data written on one machine is not taken for another value on another machine, even if the value does not exist there
(say, an `usize` above `2^32`). -/
theorem C56_no_other_value {v v' : Val} (hv : hasTy T t v) {bs : Bytes} {junk : Nat → UInt8} (hw : writeToVec T e t v junk = .ok bs)
    {base base' : Nat} (hm : InMem T base bs) (hm' : InMem T' base' bs) (h' : readFromBuffer T' e t' base' bs = .ok v') : v' = v := by
  have h1 := (C55_read hT hp hl hd hv hw (rest := []) (by simpa using hm)).1
  rw [List.append_nil] at h1
  exact (C56_never_disagree hT hT' hs hl hl' hd hd' h6 hp hp' hm hm' h1 (Prod.ext h' rfl)).1.symm

end
end

/-- C56 is false for `Ipv6Addr`: what a little-endian machine writes for `::1` in little endian is read as another address on a
big-endian machine. -/
theorem C56_false : ∃ bs v', writeToVec Samples.x64 .little .ipv6 (.bytes (List.replicate 15 0 ++ [1])) (fun _ => 0) = .ok bs ∧
    readFromBuffer Samples.be64 .little .ipv6 4096 bs = .ok v' ∧ v' ≠ .bytes (List.replicate 15 0 ++ [1]) :=
  ⟨[1, 0, 0, 0, 0, 0, 0, 0, 0, 0, 0, 0, 0, 0, 0, 0], .bytes ([1] ++ List.replicate 15 0), by decide, by decide, by decide⟩

/-! ## Examples -/

namespace Samples

/-- `struct Record { name: String, #[speedy(length_type = u8)] points: Vec<Point>, count: usize }` on a 64-bit machine.  (All types without a
defined layout have 24 bytes on the sample machines.) -/
def record64 : Ty := .struct ⟨.rust, 72, 8, [0, 24, 48], true⟩
  (.cons {} (.str .owned) (.cons { len := some (.typed .u8) } (.seq .vec point) (.cons {} .usize .nil)))

/-- The same on a 32-bit machine, where the compiler has put `count` first. -/
def record32 : Ty := .struct ⟨.rust, 72, 4, [24, 48, 0], true⟩
  (.cons {} (.str .owned) (.cons { len := some (.typed .u8) } (.seq .vec point) (.cons {} .usize .nil)))

/-- `Record { name: "hi", points: vec![Point { x: 1, y: 2 }], count: 5 }` -/
def record (count : Nat) : Val := .pair (.bytes [0x68, 0x69]) (.pair (.list [.pair (.num 1) (.pair (.num 2) .unit)])
  (.pair (.num count) .unit))

/-- Its encoding in big endian. -/
def recordBe (count : UInt8) : Bytes := [0, 0, 0, 2, 0x68, 0x69, 1, 0, 1, 0, 2, 0, 0, 0, 0, 0, 0, 0, count]

theorem record_plain : plain record64 = true ∧ plain record32 = true := by decide
theorem record_source : record64.source = record32.source := rfl
theorem record_ample : ample be64 LenTy.u32.max record64 = true := by decide
theorem record_ty : hasTy be64 record64 (record 5) := by
  simp [record64, record, point, hasTy, hasTyFields, Prim.size]; decide
theorem record_ty32 : hasTy le32 record32 (record 5) := by
  simp [record32, record, point, hasTy, hasTyFields, Prim.size]; decide

theorem record_fit : lengthsFit LenTy.u32.max record64 (record 5) := by
  simp [record64, record, point, lengthsFit, lengthsFitFields, Attrs.maxLen, LenTy.max]

theorem record_vec (junk : Nat → UInt8) : writeToVec be64 .big record64 (record 5) junk = .ok (recordBe 5) :=
  vec_ok be64_ok (by decide) (by decide) (regular_slice (e := .big) _ (plain_facts be64_ok .big _ record_plain.1).regular) record_ty
    (by rfl) (by decide)

end Samples

open Samples in
example : ∃ bs, ∀ junk, writeToVec be64 .big record64 (record 5) junk = .ok bs := ⟨_, record_vec⟩

open Samples in
example (s : Sink) (hs : s.Works) : ∃ s', writeToStream be64 .big record64 (record 5) s = (.ok (), s') :=
  ((C55_written be64_ok record_plain.1 (by decide) (by decide) record_ty).1 s hs).2 record_fit

open Samples in
example (rest : Bytes) (base : Nat) (hm : InMem be64 base (recordBe 5 ++ rest)) :
    readWithLengthFromBuffer be64 .big record64 base (recordBe 5 ++ rest) = (.ok (record 5), 19) :=
  (C55_read be64_ok record_plain.1 (by decide) (by decide) record_ty (record_vec fun _ => 0) hm).1

open Samples in
example : ∃ er, readFromBuffer be64 .big record64 4096 [0, 0, 0, 2, 0x68] = .error er :=
  (C55_truncated be64_ok record_plain.1 (by decide) (by decide) record_ty (record_vec fun _ => 0)
    (x := [0, 0, 0, 2, 0x68]) (y := [0x69, 1, 0, 1, 0, 2, 0, 0, 0, 0, 0, 0, 0, 5]) rfl (by simp)
    (base := 4096) ⟨by decide, by decide, by decide⟩).1.imp fun _ h => h.1

open Samples in
example (base : Nat) (buf : Bytes) (hm : InMem be64 base buf) :
    (∃ v, readFromBuffer be64 .big record64 base buf = .ok v) ∨
      ∃ er, readFromBuffer be64 .big record64 base buf = .error er ∧ (∀ p, er ≠ .panic p) ∧ er ≠ .diverge :=
  (C55_no_panic be64_ok record_plain.1 (by decide) (by decide) record_ample).1 base buf hm _ (.inl rfl)

open Samples in
example : readFromBuffer le32 .big record32 4096 (recordBe 5) = .ok (record 5) :=
  (C56_portable_plain be64_ok le32_ok record_source (by decide) (by decide) (by decide) (by decide) (.inr (by decide))
    record_plain.1 record_plain.2 record_ty record_ty32 (record_vec fun _ => 0) ⟨by decide, by decide, by decide⟩).1

/-- An `usize` above `2^32` is an error on a 32-bit machine. -/
example : readFromBuffer Samples.le32 .little .usize 4096 [0, 0, 0, 0, 1, 0, 0, 0] = .error .outOfRangeUsize := by decide

/-! ## Cases -/

section Cases
open Samples

section
open Samples

example (v' : Val) (rest : Bytes) (junk : Nat → UInt8) (h : hasTy be64 record64 v')
    (hw : writeToVec be64 .big record64 v' junk = .ok (recordBe 5 ++ rest)) (hf : Fits be64 (recordBe 5 ++ rest)) :
    v' = record 5 ∧ rest = [] :=
  C55_distinct be64_ok record_plain.1 (by decide) (by decide) record_ty (record_vec fun _ => 0) h hw hf

example (v : Val) := C55_readers_agree be64_ok (e := .big) record_plain.1 (by decide) (by decide) (base := 4096) (base' := 5001)
  (buf := recordBe 5) ⟨by decide, by decide, by decide⟩ ⟨by decide, by decide, by decide⟩ v

example : Valid be64 record64 (record 5) ∧ minBytes be64 record64 ≤ 19 ∧ 19 ≤ (recordBe 5).length :=
  (C55_valid be64_ok (e := .big) record_plain.1 (by decide) (by decide) (base := 4096) (buf := recordBe 5) ⟨by decide, by decide, by decide⟩
    (v := record 5)).1 19 (.inl (by decide))

example (v v' : Val) (n n' : Nat) (h : readWithLengthFromBuffer be64 .big record64 4096 (recordBe 5) = (.ok v, n))
    (h' : readWithLengthFromBuffer le32 .big record32 4097 (recordBe 5) = (.ok v', n')) : v = v' ∧ n = n' :=
  C56_never_disagree be64_ok le32_ok record_source (by decide) (by decide) (by decide) (by decide) (.inr (by decide))
    record_plain.1 record_plain.2 ⟨by decide, by decide, by decide⟩ ⟨by decide, by decide, by decide⟩ h h'

example (v' : Val) (h : readFromBuffer le32 .big record32 4097 (recordBe 5) = .ok v') : v' = record 5 :=
  C56_no_other_value be64_ok le32_ok record_source (by decide) (by decide) (by decide) (by decide) (.inr (by decide))
    record_plain.1 record_plain.2 record_ty (record_vec fun _ => 0) (base := 4096) ⟨by decide, by decide, by decide⟩
    ⟨by decide, by decide, by decide⟩ h

example : readFromBuffer le32 .big record32 4097 (recordBe 5) = .ok (record 5) :=
  (C56_portable_partial be64_ok le32_ok record_source (by decide) (by decide) (by decide) (by decide) (.inr (by decide))
    (by decide) (by decide) record_ty record_ty32 (by simp [canon, canonFields, record32, record, point]) (by decide)
    (record_vec fun _ => 0) ⟨by decide, by decide, by decide⟩).1
end

end Cases

end Verif
