import Verif.Bounds
import Verif.PropsSpelling

/-!
# Bounds of derived implementations: C64
-/

namespace Verif

/-! ## Which types depend on the parameters -/

/-- What is put for the parameters of a declaration.  The parts of types which the macro does not look into (`dyn Trait`, constants,
`<T as Trait>::Item`, `T::Item`) may change in any way. -/
structure Subst where
  ty : String → Option SynTy
  inTy : SynTy → SynTy
  inArgs : SynArgs → SynArgs
  inGens : SynGens → SynGens

/-- Only parameters in the list are replaced. -/
def Subst.Of (σ : Subst) (gs : List String) : Prop := ∀ s, s ∉ gs → σ.ty s = none

mutual
/-- A type with types put for the parameters.  In `a::b::c`, only `a` can be one. -/
def SynTy.subst (σ : Subst) : SynTy → SynTy
  | .path false false (.cons s args rest) =>
    match σ.ty s with
    | some u =>
      match args, rest with
      | .none, .nil => u
      | _, _ => σ.inTy (.path false false (.cons s args rest))
    | none => .path false false (.cons s (args.subst σ) (rest.subst σ))
  | .path false false .nil => .path false false .nil
  | .slice t => .slice (t.subst σ)
  | .tuple ts => .tuple (ts.subst σ)
  | .ref l m t => .ref l m (t.subst σ)
  | .paren t => .paren (t.subst σ)
  | .ptr t => .ptr (t.subst σ)
  | .group t => .group (t.subst σ)
  | .array t (some n) => .array (t.subst σ) (some n)
  | .never => .never
  | t => σ.inTy t
/-- Every type in a list. -/
def SynTys.subst (σ : Subst) : SynTys → SynTys
  | .nil => .nil
  | .cons t ts => .cons (t.subst σ) (ts.subst σ)
/-- The arguments of the segments. -/
def SynSegs.subst (σ : Subst) : SynSegs → SynSegs
  | .nil => .nil
  | .cons s args segs => .cons s (args.subst σ) (segs.subst σ)
/-- All arguments. -/
def SynArgs.subst (σ : Subst) : SynArgs → SynArgs
  | .none => .none
  | .angle c args => .angle c (args.subst σ)
  | .paren => σ.inArgs .paren
/-- All arguments. -/
def SynGens.subst (σ : Subst) : SynGens → SynGens
  | .nil => .nil
  | .lifetime l rest => .lifetime l (rest.subst σ)
  | .ty t rest => .ty (t.subst σ) (rest.subst σ)
  | .assoc t rest => .assoc (t.subst σ) (rest.subst σ)
  | .other rest => σ.inGens (.other rest)
end

/-- A type which does not depend on the parameters. -/
def Closed (gs : List String) (t : SynTy) : Prop := ∀ σ : Subst, σ.Of gs → t.subst σ = t

mutual
theorem subst_ty {gs : List String} {σ : Subst} (hσ : σ.Of gs) : ∀ t : SynTy, usesGeneric gs t = false → t.subst σ = t
  | .path false false (.cons s args rest), h => by
    simp only [usesGeneric, segsUseGeneric, Bool.or_eq_false_iff] at h
    have hs : s ∉ gs := fun hm => by simp [hm] at h
    simp only [SynTy.subst, hσ s hs, subst_args hσ args h.1.2, subst_segs hσ rest h.2]
  | .path false false .nil, _ => by simp only [SynTy.subst]
  | .path true _ _, h => by simp [usesGeneric] at h
  | .path false true _, h => by simp [usesGeneric] at h
  | .slice t, h => by simp only [SynTy.subst, subst_ty hσ t (by simpa only [usesGeneric] using h)]
  | .tuple ts, h => by simp only [SynTy.subst, subst_tys hσ ts (by simpa only [usesGeneric] using h)]
  | .ref _ _ t, h => by simp only [SynTy.subst, subst_ty hσ t (by simpa only [usesGeneric] using h)]
  | .paren t, h => by simp only [SynTy.subst, subst_ty hσ t (by simpa only [usesGeneric] using h)]
  | .ptr t, h => by simp only [SynTy.subst, subst_ty hσ t (by simpa only [usesGeneric] using h)]
  | .group t, h => by simp only [SynTy.subst, subst_ty hσ t (by simpa only [usesGeneric] using h)]
  | .array t (some n), h => by
    simp only [usesGeneric, Bool.or_eq_false_iff] at h
    simp only [SynTy.subst, subst_ty hσ t h.1]
  | .array _ none, h => by simp [usesGeneric] at h
  | .never, _ => by simp only [SynTy.subst]
  | .other, h => by simp [usesGeneric] at h
theorem subst_tys {gs : List String} {σ : Subst} (hσ : σ.Of gs) : ∀ ts : SynTys, tysUseGeneric gs ts = false → ts.subst σ = ts
  | .nil, _ => by simp only [SynTys.subst]
  | .cons t ts, h => by
    simp only [tysUseGeneric, Bool.or_eq_false_iff] at h
    simp only [SynTys.subst, subst_ty hσ t h.1, subst_tys hσ ts h.2]
theorem subst_segs {gs : List String} {σ : Subst} (hσ : σ.Of gs) : ∀ ts : SynSegs, segsUseGeneric gs ts = false → ts.subst σ = ts
  | .nil, _ => by simp only [SynSegs.subst]
  | .cons s args rest, h => by
    simp only [segsUseGeneric, Bool.or_eq_false_iff] at h
    simp only [SynSegs.subst, subst_args hσ args h.1.2, subst_segs hσ rest h.2]
theorem subst_args {gs : List String} {σ : Subst} (hσ : σ.Of gs) : ∀ ts : SynArgs, argsUseGeneric gs ts = false → ts.subst σ = ts
  | .none, _ => by simp only [SynArgs.subst]
  | .angle c args, h => by
    simp only [argsUseGeneric] at h
    simp only [SynArgs.subst, subst_gens hσ args h]
  | .paren, h => by simp [argsUseGeneric] at h
theorem subst_gens {gs : List String} {σ : Subst} (hσ : σ.Of gs) : ∀ ts : SynGens, gensUseGeneric gs ts = false → ts.subst σ = ts
  | .nil, _ => by simp only [SynGens.subst]
  | .lifetime l rest, h => by
    simp only [gensUseGeneric] at h
    simp only [SynGens.subst, subst_gens hσ rest h]
  | .ty t rest, h => by
    simp only [gensUseGeneric, Bool.or_eq_false_iff] at h
    simp only [SynGens.subst, subst_ty hσ t h.1, subst_gens hσ rest h.2]
  | .assoc t rest, h => by
    simp only [gensUseGeneric, Bool.or_eq_false_iff] at h
    simp only [SynGens.subst, subst_ty hσ t h.1, subst_gens hσ rest h.2]
  | .other _, h => by simp [gensUseGeneric] at h
end

/-- **C64**: a type for which the macro makes no bound does not depend on the parameters. -/
theorem C64_closed {gs : List String} {t : SynTy} (h : usesGeneric gs t = false) : Closed gs t :=
  fun _ hσ => subst_ty hσ t h

mutual
/-- The names in the paths of a type. -/
def SynTy.names : SynTy → List String
  | .path false false segs => segs.names
  | .slice t | .ref _ _ t | .paren t | .ptr t | .group t | .array t _ => t.names
  | .tuple ts => ts.names
  | _ => []
/-- The names in the paths of types. -/
def SynTys.names : SynTys → List String
  | .nil => []
  | .cons t ts => t.names ++ ts.names
/-- The names in a path and in its arguments. -/
def SynSegs.names : SynSegs → List String
  | .nil => []
  | .cons s args segs => s :: (args.names ++ segs.names)
/-- The names in arguments. -/
def SynArgs.names : SynArgs → List String
  | .angle _ args => args.names
  | _ => []
/-- The names in arguments. -/
def SynGens.names : SynGens → List String
  | .nil => []
  | .lifetime _ rest | .other rest => rest.names
  | .ty t rest | .assoc t rest => t.names ++ rest.names
end

mutual
/-- There are parts the macro does not look into. -/
def SynTy.unseen : SynTy → Bool
  | .path false false segs => segs.unseen
  | .slice t | .ref _ _ t | .paren t | .ptr t | .group t | .array t (some _) => t.unseen
  | .tuple ts => ts.unseen
  | .never => false
  | _ => true
/-- There are parts the macro does not look into. -/
def SynTys.unseen : SynTys → Bool
  | .nil => false
  | .cons t ts => t.unseen || ts.unseen
/-- There are parts the macro does not look into. -/
def SynSegs.unseen : SynSegs → Bool
  | .nil => false
  | .cons _ args segs => args.unseen || segs.unseen
/-- There are parts the macro does not look into. -/
def SynArgs.unseen : SynArgs → Bool
  | .none => false
  | .angle _ args => args.unseen
  | .paren => true
/-- There are parts the macro does not look into. -/
def SynGens.unseen : SynGens → Bool
  | .nil => false
  | .lifetime _ rest => rest.unseen
  | .ty t rest | .assoc t rest => t.unseen || rest.unseen
  | .other _ => true
end

mutual
theorem uses_ty (gs : List String) : ∀ t : SynTy, usesGeneric gs t = true → t.unseen = true ∨ ∃ s ∈ t.names, s ∈ gs
  | .path false false segs, h => by
    simp only [usesGeneric] at h
    simpa only [SynTy.unseen, SynTy.names] using uses_segs gs segs h
  | .path true _ _, _ => by simp [SynTy.unseen]
  | .path false true _, _ => by simp [SynTy.unseen]
  | .slice t, h => by
    simp only [usesGeneric] at h
    simpa only [SynTy.unseen, SynTy.names] using uses_ty gs t h
  | .tuple ts, h => by
    simp only [usesGeneric] at h
    simpa only [SynTy.unseen, SynTy.names] using uses_tys gs ts h
  | .ref _ _ t, h => by
    simp only [usesGeneric] at h
    simpa only [SynTy.unseen, SynTy.names] using uses_ty gs t h
  | .paren t, h => by
    simp only [usesGeneric] at h
    simpa only [SynTy.unseen, SynTy.names] using uses_ty gs t h
  | .ptr t, h => by
    simp only [usesGeneric] at h
    simpa only [SynTy.unseen, SynTy.names] using uses_ty gs t h
  | .group t, h => by
    simp only [usesGeneric] at h
    simpa only [SynTy.unseen, SynTy.names] using uses_ty gs t h
  | .array t (some n), h => by
    simp only [usesGeneric, Option.isNone_some, Bool.or_false] at h
    simpa only [SynTy.unseen, SynTy.names] using uses_ty gs t h
  | .array _ none, _ => by simp [SynTy.unseen]
  | .never, h => by simp [usesGeneric] at h
  | .other, _ => by simp [SynTy.unseen]
theorem uses_tys (gs : List String) : ∀ ts : SynTys, tysUseGeneric gs ts = true → ts.unseen = true ∨ ∃ s ∈ ts.names, s ∈ gs
  | .nil, h => by simp [tysUseGeneric] at h
  | .cons t ts, h => by
    simp only [tysUseGeneric, Bool.or_eq_true] at h
    simp only [SynTys.unseen, SynTys.names, Bool.or_eq_true, List.mem_append]
    rcases h with h | h
    · rcases uses_ty gs t h with h | ⟨s, h, hs⟩
      · exact .inl (.inl h)
      · exact .inr ⟨s, .inl h, hs⟩
    · rcases uses_tys gs ts h with h | ⟨s, h, hs⟩
      · exact .inl (.inr h)
      · exact .inr ⟨s, .inr h, hs⟩
theorem uses_segs (gs : List String) : ∀ ts : SynSegs, segsUseGeneric gs ts = true → ts.unseen = true ∨ ∃ s ∈ ts.names, s ∈ gs
  | .nil, h => by simp [segsUseGeneric] at h
  | .cons s args rest, h => by
    simp only [segsUseGeneric, Bool.or_eq_true, List.contains_iff_mem] at h
    simp only [SynSegs.unseen, SynSegs.names, Bool.or_eq_true, List.mem_append, List.mem_cons]
    rcases h with (h | h) | h
    · exact .inr ⟨s, .inl rfl, h⟩
    · rcases uses_args gs args h with h | ⟨s, h, hs⟩
      · exact .inl (.inl h)
      · exact .inr ⟨s, .inr (.inl h), hs⟩
    · rcases uses_segs gs rest h with h | ⟨s, h, hs⟩
      · exact .inl (.inr h)
      · exact .inr ⟨s, .inr (.inr h), hs⟩
theorem uses_args (gs : List String) : ∀ ts : SynArgs, argsUseGeneric gs ts = true → ts.unseen = true ∨ ∃ s ∈ ts.names, s ∈ gs
  | .none, h => by simp [argsUseGeneric] at h
  | .angle _ args, h => by
    simp only [argsUseGeneric] at h
    simpa only [SynArgs.unseen, SynArgs.names] using uses_gens gs args h
  | .paren, _ => by simp [SynArgs.unseen]
theorem uses_gens (gs : List String) : ∀ ts : SynGens, gensUseGeneric gs ts = true → ts.unseen = true ∨ ∃ s ∈ ts.names, s ∈ gs
  | .nil, h => by simp [gensUseGeneric] at h
  | .lifetime _ rest, h => by
    simp only [gensUseGeneric] at h
    simpa only [SynGens.unseen, SynGens.names] using uses_gens gs rest h
  | .ty t rest, h => by
    simp only [gensUseGeneric, Bool.or_eq_true] at h
    simp only [SynGens.unseen, SynGens.names, Bool.or_eq_true, List.mem_append]
    rcases h with h | h
    · rcases uses_ty gs t h with h | ⟨s, h, hs⟩
      · exact .inl (.inl h)
      · exact .inr ⟨s, .inl h, hs⟩
    · rcases uses_gens gs rest h with h | ⟨s, h, hs⟩
      · exact .inl (.inr h)
      · exact .inr ⟨s, .inr h, hs⟩
  | .assoc t rest, h => by
    simp only [gensUseGeneric, Bool.or_eq_true] at h
    simp only [SynGens.unseen, SynGens.names, Bool.or_eq_true, List.mem_append]
    rcases h with h | h
    · rcases uses_ty gs t h with h | ⟨s, h, hs⟩
      · exact .inl (.inl h)
      · exact .inr ⟨s, .inl h, hs⟩
    · rcases uses_gens gs rest h with h | ⟨s, h, hs⟩
      · exact .inl (.inr h)
      · exact .inr ⟨s, .inr h, hs⟩
  | .other _, _ => by simp [SynGens.unseen]
end

/-- **C64**: no needless bounds: a type for which the macro makes a bound has a parameter's name in it, or a part which the macro does
not look into. -/
theorem C64_needed {gs : List String} {t : SynTy} (h : usesGeneric gs t = true) : t.unseen = true ∨ ∃ s ∈ t.names, s ∈ gs :=
  uses_ty gs t h

theorem mem_typeParams {ps : List (ParamKind × String)} {n : String} : n ∈ typeParams ps ↔ (.type, n) ∈ ps := by
  simp only [typeParams, List.mem_map, List.mem_filter, beq_iff_eq]
  exact ⟨fun ⟨p, ⟨h1, h2⟩, h3⟩ => by rw [← h2, ← h3]; exact h1, fun h => ⟨_, ⟨h, rfl⟩, rfl⟩⟩

/-- The bounds of a declaration: the names are those of its type parameters. -/
theorem C64_needed_params {s : GenStruct} {t : SynTy} (h : t ∈ s.readBounds ++ s.writeBounds) :
    t.unseen = true ∨ ∃ n ∈ t.names, (.type, n) ∈ s.params := by
  simp only [GenStruct.readBounds, GenStruct.writeBounds, List.mem_append, List.mem_filter] at h
  rcases h with h | h <;> (rcases C64_needed h.2 with h | ⟨n, h1, h2⟩; exact .inl h; exact .inr ⟨n, h1, mem_typeParams.1 h2⟩)

/-- A declaration without type parameters has a bound only for such parts. -/
theorem C64_no_params {s : GenStruct} (h : ∀ n, (.type, n) ∉ s.params) :
    (∀ t ∈ s.readBounds, t.unseen = true) ∧ ∀ t ∈ s.writeBounds, t.unseen = true := by
  refine ⟨fun t ht => ?_, fun t ht => ?_⟩
  · exact (C64_needed_params (List.mem_append_left _ ht)).elim id fun ⟨n, _, h1⟩ => absurd h1 (h n)
  · exact (C64_needed_params (List.mem_append_right _ ht)).elim id fun ⟨n, _, h1⟩ => absurd h1 (h n)

mutual
theorem trusted_ty : ∀ t : SynTy, nonRecursive t = true → t.unseen = false ∧ ∀ s ∈ t.names, s ∈ knownNames
  | .path false false (.cons s args .nil), h => by
    simp only [nonRecursive, Bool.and_eq_true, List.contains_iff_mem] at h
    have := trusted_args args h.2
    simp only [SynTy.unseen, SynSegs.unseen, SynTy.names, SynSegs.names, Bool.or_false, List.append_nil, List.mem_cons]
    exact ⟨this.1, fun u hu => hu.elim (fun e => e ▸ h.1) (this.2 u)⟩
  | .path false false .nil, h => by simp [nonRecursive] at h
  | .path false false (.cons _ _ (.cons _ _ _)), h => by simp [nonRecursive] at h
  | .path true _ _, h => by simp [nonRecursive] at h
  | .path false true _, h => by simp [nonRecursive] at h
  | .slice t, h => by
    simpa only [SynTy.unseen, SynTy.names] using trusted_ty t (by simpa only [nonRecursive] using h)
  | .tuple ts, h => by
    simpa only [SynTy.unseen, SynTy.names] using trusted_tys ts (by simpa only [nonRecursive] using h)
  | .ref _ _ t, h => by
    simpa only [SynTy.unseen, SynTy.names] using trusted_ty t (by simpa only [nonRecursive] using h)
  | .paren t, h => by
    simpa only [SynTy.unseen, SynTy.names] using trusted_ty t (by simpa only [nonRecursive] using h)
  | .ptr t, h => by
    simpa only [SynTy.unseen, SynTy.names] using trusted_ty t (by simpa only [nonRecursive] using h)
  | .group t, h => by
    simpa only [SynTy.unseen, SynTy.names] using trusted_ty t (by simpa only [nonRecursive] using h)
  | .array t (some n), h => by
    simpa only [SynTy.unseen, SynTy.names] using trusted_ty t (by simpa [nonRecursive] using h)
  | .array _ none, h => by simp [nonRecursive] at h
  | .never, _ => by simp [SynTy.unseen, SynTy.names]
  | .other, h => by simp [nonRecursive] at h
theorem trusted_tys : ∀ ts : SynTys, tysNonRecursive ts = true → ts.unseen = false ∧ ∀ s ∈ ts.names, s ∈ knownNames
  | .nil, _ => by simp [SynTys.unseen, SynTys.names]
  | .cons t ts, h => by
    simp only [tysNonRecursive, Bool.and_eq_true] at h
    have h1 := trusted_ty t h.1
    have h2 := trusted_tys ts h.2
    simp only [SynTys.unseen, SynTys.names, Bool.or_eq_false_iff, List.mem_append]
    exact ⟨⟨h1.1, h2.1⟩, fun s hs => hs.elim (h1.2 s) (h2.2 s)⟩
theorem trusted_args : ∀ ts : SynArgs, argsNonRecursive ts = true → ts.unseen = false ∧ ∀ s ∈ ts.names, s ∈ knownNames
  | .none, _ => by simp [SynArgs.unseen, SynArgs.names]
  | .angle _ args, h => by
    simpa only [SynArgs.unseen, SynArgs.names] using trusted_gens args (by simpa only [argsNonRecursive] using h)
  | .paren, h => by simp [argsNonRecursive] at h
theorem trusted_gens : ∀ ts : SynGens, gensNonRecursive ts = true → ts.unseen = false ∧ ∀ s ∈ ts.names, s ∈ knownNames
  | .nil, _ => by simp [SynGens.unseen, SynGens.names]
  | .lifetime _ rest, h => by
    simpa only [SynGens.unseen, SynGens.names] using trusted_gens rest (by simpa only [gensNonRecursive] using h)
  | .ty t rest, h => by
    simp only [gensNonRecursive, Bool.and_eq_true] at h
    have h1 := trusted_ty t h.1
    have h2 := trusted_gens rest h.2
    simp only [SynGens.unseen, SynGens.names, Bool.or_eq_false_iff, List.mem_append]
    exact ⟨⟨h1.1, h2.1⟩, fun s hs => hs.elim (h1.2 s) (h2.2 s)⟩
  | .assoc t rest, h => by
    simp only [gensNonRecursive, Bool.and_eq_true] at h
    have h1 := trusted_ty t h.1
    have h2 := trusted_gens rest h.2
    simp only [SynGens.unseen, SynGens.names, Bool.or_eq_false_iff, List.mem_append]
    exact ⟨⟨h1.1, h2.1⟩, fun s hs => hs.elim (h1.2 s) (h2.2 s)⟩
  | .other _, h => by simp [gensNonRecursive] at h
end

/-- **C58**: a type which the macro trusts not to contain the enum being declared has no parts the macro does not look into, and no names
besides those of the standard library. -/
theorem C58_trusted {t : SynTy} (h : nonRecursive t = true) : t.unseen = false ∧ ∀ s ∈ t.names, s ∈ knownNames :=
  trusted_ty t h

/-! ## What follows from the bounds -/

/-- The types which implement a trait: a set closed under the implementations common to `Readable` and `Writable` of types with types in
them — src/readable_impl.rs, src/writable_impl.rs.  Conditions with other traits (`Hash`, `Ord`, `Clone`) are left out.  What holds for
every such set is what the compiler can conclude. -/
structure World (W : SynTy → Prop) : Prop where
  prim : ∀ s p args, (s, p) ∈ primNames → W (.path false false (.cons s args .nil))
  string : W (.name "String")
  vec : ∀ t, W t → W (.app "Vec" (.one t))
  hashSet : ∀ t, W t → W (.app "HashSet" (.one t))
  btreeSet : ∀ t, W t → W (.app "BTreeSet" (.one t))
  hashMap : ∀ k v, W k → W v → W (.app "HashMap" (.two k v))
  btreeMap : ∀ k v, W k → W v → W (.app "BTreeMap" (.two k v))
  cowSlice : ∀ l t, W t → W (.app "Cow" (.lifetime l (.one (.slice t))))
  cowStr : ∀ l t, t.isBare "str" = true → W (.app "Cow" (.lifetime l (.one t)))
  cowSet : ∀ l t, W t → W (.app "Cow" (.lifetime l (.one (.app "HashSet" (.one t))))) ∧
    W (.app "Cow" (.lifetime l (.one (.app "BTreeSet" (.one t)))))
  cowMap : ∀ l k v, W k → W v → W (.app "Cow" (.lifetime l (.one (.app "HashMap" (.two k v))))) ∧
    W (.app "Cow" (.lifetime l (.one (.app "BTreeMap" (.two k v)))))
  option : ∀ t, W t → W (.app "Option" (.one t))
  array : ∀ t n, W t → W (.array t (some n))
  refStr : ∀ l t, t.isBare "str" = true → W (.ref l false t)
  bytes : ∀ l t, t.isBare "u8" = true → W (.ref l false (.slice t))
  pair : ∀ t u, W t → W u → W (.pair t u)

/-- For `Writable`, also references to sized types — src/writable_impl.rs:512-534.  `item`: the elements of collections, which are sized. -/
structure WriteWorld (W : SynTy → Prop) : Prop extends World W where
  item : ∀ t, W t → W (.ref none false t)
  ref : ∀ l m t, W t → (∀ u, t ≠ .slice u) → W (.ref l m t)

/-- The types in a type the macro knows. -/
def MacroTy.parts : MacroTy → List SynTy
  | .array t _ | .vec t | .hashSet t | .btreeSet t | .cowHashSet t | .cowBtreeSet t | .cowSlice t | .refSlice t => [t]
  | .hashMap k v | .btreeMap k v | .cowHashMap k v | .cowBtreeMap k v => [k, v]
  | .refSliceU8 | .refStr | .string | .cowStr | .primitive _ => []
  | .ty t => [t]

/-- A borrowed slice other than of bytes. -/
def MacroTy.isRefSlice : MacroTy → Bool
  | .refSlice _ => true
  | _ => false

section
variable {W : SynTy → Prop} (hW : World W)
include hW

theorem parseCow_world {t : SynTy} {m : MacroTy} (h : parseCow t = some m) (hp : ∀ u ∈ m.parts, W u) (l : String) :
    W (.app "Cow" (.lifetime l (.one t))) := by
  unfold parseCow at h
  split at h
  · simp only [Option.some.injEq] at h
    subst h; exact hW.cowSlice l _ (hp _ (by simp [MacroTy.parts]))
  · split at h
    · rename_i hb
      exact hW.cowStr l _ hb
    · split at h
      · rename_i s args hb
        split at h <;> simp only [Option.map_eq_some_iff, reduceCtorEq] at h
        · obtain ⟨u, hu, rfl⟩ := h
          rw [inner_some hu]; exact (hW.cowSet l u (hp _ (by simp [MacroTy.parts]))).1
        · obtain ⟨u, hu, rfl⟩ := h
          rw [inner_some hu]; exact (hW.cowSet l u (hp _ (by simp [MacroTy.parts]))).2
        · obtain ⟨u, hu, rfl⟩ := h
          rw [inner2_some hu]; exact (hW.cowMap l u.1 u.2 (hp _ (by simp [MacroTy.parts])) (hp _ (by simp [MacroTy.parts]))).1
        · obtain ⟨u, hu, rfl⟩ := h
          rw [inner2_some hu]; exact (hW.cowMap l u.1 u.2 (hp _ (by simp [MacroTy.parts])) (hp _ (by simp [MacroTy.parts]))).2
      · simp at h

/-- A type the macro knows implements the trait if its parts do. -/
theorem parseSpecial_world {t : SynTy} {m : MacroTy} (h : parseSpecial t = some m) (hr : m.isRefSlice = false)
    (hp : ∀ u ∈ m.parts, W u) : W t := by
  unfold parseSpecial at h
  split at h
  · rename_i p hp
    obtain ⟨s, args, rfl, hm⟩ := parsePrim_names hp
    exact hW.prim s p args hm
  · split at h
    · split at h <;> simp only [Option.some.injEq, reduceCtorEq] at h
      rename_i hs
      simp only [beq_iff_eq] at hs
      subst hs h; exact hW.string
    · split at h <;> simp only [Option.map_eq_some_iff, Option.bind_eq_some_iff, reduceCtorEq] at h
      · obtain ⟨u, hu, rfl⟩ := h
        rw [inner_some hu]; exact hW.vec u (hp _ (by simp [MacroTy.parts]))
      · obtain ⟨u, hu, rfl⟩ := h
        rw [inner_some hu]; exact hW.hashSet u (hp _ (by simp [MacroTy.parts]))
      · obtain ⟨u, hu, rfl⟩ := h
        rw [inner_some hu]; exact hW.btreeSet u (hp _ (by simp [MacroTy.parts]))
      · obtain ⟨u, hu, h⟩ := h
        obtain ⟨l, rfl⟩ := innerLt_some hu
        exact parseCow_world hW h hp l
      · obtain ⟨u, hu, rfl⟩ := h
        rw [inner2_some hu]; exact hW.hashMap u.1 u.2 (hp _ (by simp [MacroTy.parts])) (hp _ (by simp [MacroTy.parts]))
      · obtain ⟨u, hu, rfl⟩ := h
        rw [inner2_some hu]; exact hW.btreeMap u.1 u.2 (hp _ (by simp [MacroTy.parts])) (hp _ (by simp [MacroTy.parts]))
    · split at h <;> simp only [Option.some.injEq, reduceCtorEq] at h
      subst h; exact hW.array _ _ (hp _ (by simp [MacroTy.parts]))
    · split at h
      · rename_i hb
        exact hW.refStr _ _ hb
      · split at h
        · split at h <;> simp only [Option.some.injEq] at h
          · rename_i hu
            exact hW.bytes _ _ hu
          · subst h; simp [MacroTy.isRefSlice] at hr
        · simp at h
    · simp at h

theorem parseTy_world {t : SynTy} (hr : (parseTy t).isRefSlice = false) (hp : ∀ u ∈ (parseTy t).parts, W u) : W t := by
  unfold parseTy at hr hp
  cases h : parseSpecial t with
  | none => exact hp t (by simp [h, MacroTy.parts])
  | some m =>
    simp only [h, Option.getD_some] at hr hp
    exact parseSpecial_world hW h hr hp

end

theorem parseOpt_plain {t : SynTy} (h : t.optionInner = none) : parseOpt t = (false, parseTy t) := by simp [parseOpt, h]

theorem parseOpt_option {t u : SynTy} (h : t.optionInner = some u) : parseOpt t = (true, parseTy u) := by simp [parseOpt, h]

theorem optionInner_app {t u : SynTy} (h : t.optionInner = some u) : t = .app "Option" (.one u) := by
  unfold SynTy.optionInner at h
  split at h
  · split at h
    · rename_i s args hs
      simp only [beq_iff_eq] at hs
      subst hs
      rw [inner_some h]; rfl
    · simp at h
  · simp at h

theorem parseTy_ty {t u : SynTy} (h : parseTy t = .ty u) : u = t := by
  unfold parseTy at h
  cases hs : parseSpecial t with
  | none => simp only [hs, Option.getD_none, MacroTy.ty.injEq] at h; exact h.symm
  | some m =>
    simp only [hs, Option.getD_some] at h
    subst h
    unfold parseSpecial at hs
    split at hs
    · simp at hs
    · split at hs
      · split at hs <;> simp at hs
      · split at hs <;> simp only [Option.map_eq_some_iff, Option.bind_eq_some_iff, reduceCtorEq, and_false, exists_false] at hs
        obtain ⟨v, _, hs⟩ := hs
        unfold parseCow at hs
        split at hs
        · simp at hs
        · split at hs
          · simp at hs
          · split at hs
            · split at hs <;> simp at hs
            · simp at hs
      · split at hs <;> simp at hs
      · split at hs
        · simp at hs
        · split at hs
          · split at hs <;> simp at hs
          · simp at hs
      · simp at hs

/-- The bounds are for the parts of the type, or, if there are none, for the type itself. -/
theorem boundTypes_parts (t : SynTy) :
    boundTypes t = match (parseOpt t).2 with | .ty _ => [t] | m => m.parts := by
  unfold boundTypes
  split <;> simp_all [MacroTy.parts]


theorem bound_world {W : SynTy → Prop} (hW : World W) {t : SynTy} (hr : (parseOpt t).2.isRefSlice = false)
    (hb : ∀ u ∈ boundTypes t, W u) : W t := by
  rw [boundTypes_parts] at hb
  cases ho : t.optionInner with
  | none =>
    simp only [parseOpt_plain ho] at hb hr
    refine parseTy_world hW hr fun u hu => ?_
    split at hb
    · rename_i v hv
      rw [parseTy_ty hv] at hv
      rw [hv] at hu
      exact hb u hu
    · exact hb u hu
  | some v =>
    simp only [parseOpt_option ho] at hb hr
    split at hb
    · exact hb t (by simp)
    · rw [optionInner_app ho]
      exact hW.option v (parseTy_world hW hr hb)

theorem inner_prim {W : SynTy → Prop} (hW : World W) {f : GenField} {p : Prim} (h : (parseOpt f.ty).2 = .primitive p) : W f.inner := by
  unfold GenField.inner
  cases ho : f.ty.optionInner with
  | none =>
    simp only [parseOpt_plain ho] at h
    exact parseTy_world hW (by simp [h, MacroTy.isRefSlice]) (by simp [h, MacroTy.parts])
  | some v =>
    simp only [parseOpt_option ho] at h
    exact parseTy_world hW (by simp [h, MacroTy.isRefSlice]) (by simp [h, MacroTy.parts])

theorem u8_world {W : SynTy → Prop} (hW : World W) : W (.name "u8") := hW.prim "u8" .u8 .none (by simp [primNames])

/-- What is in an `Option` is not a parameter, nor does it depend on one, unless it is one of the types the macro knows. -/
def GenField.optionOk (gs : List String) (f : GenField) : Prop :=
  f.attrs.skip = false → ∀ u, parseOpt f.ty = (true, .ty u) → Closed gs u

theorem readBody_world {W : SynTy → Prop} (hW : World W) {f : GenField} (hb : ∀ u ∈ boundTypes f.ty, W u)
    (ho : f.attrs.skip = false → ∀ u, parseOpt f.ty = (true, .ty u) → W u) : ∀ t ∈ readBody f, W t := by
  intro t ht
  rw [boundTypes_parts] at hb
  unfold readBody at ht
  split at ht
  · simp at ht
  · rename_i hs
    split at ht
    all_goals (rename_i hm; simp only [hm] at hb)
    all_goals first
      | (simp only [List.mem_singleton] at ht; subst ht; exact u8_world hW)
      | (simp at ht; done)
      | (simp only [MacroTy.parts] at hb; exact hb t ht)
      | (split at ht
         · simp only [List.mem_singleton] at ht
           subst ht
           exact hW.pair _ _ (hb _ (by simp [MacroTy.parts])) (hb _ (by simp [MacroTy.parts]))
         · exact hb t (by simpa only [MacroTy.parts] using ht))
      | skip
    · split at ht
      · simp at ht
      · simp only [List.mem_singleton] at ht
        subst ht; exact inner_prim hW hm
    · rename_i u
      simp only [List.mem_singleton] at ht
      subst ht
      cases hoi : f.ty.optionInner with
      | none =>
        rw [parseOpt_plain hoi] at hm
        rw [parseTy_ty hm]
        exact hb _ (by simp)
      | some v =>
        exact ho (by simpa using hs) _ (by rw [parseOpt_option hoi] at hm ⊢; simp only at hm; rw [hm])

theorem minBody_world {W : SynTy → Prop} (hW : World W) {f : GenField} (hb : ∀ u ∈ boundTypes f.ty, W u) : ∀ t ∈ minBody f, W t := by
  intro t ht
  have hb' := hb
  rw [boundTypes_parts] at hb'
  unfold minBody at ht
  split at ht
  · simp at ht
  · split at ht
    · simp at ht
    · split at ht
      · rename_i hm
        simp only [hm, MacroTy.parts] at hb'
        exact hb' t ht
      · rename_i hm
        split at ht
        · simp at ht
        · simp only [List.mem_singleton] at ht
          subst ht
          exact bound_world hW (by simp [hm, MacroTy.isRefSlice]) hb
      · rename_i hm
        simp only [List.mem_singleton] at ht
        subst ht
        exact bound_world hW (by simp [hm, MacroTy.isRefSlice]) hb
      · simp at ht

theorem writeBody_world {W : SynTy → Prop} (hW : WriteWorld W) {f : GenField} (hb : f.attrs.skip = false → ∀ u ∈ boundTypes f.ty, W u)
    (ho : f.attrs.skip = false → ∀ u, parseOpt f.ty = (true, .ty u) → W u) : ∀ t ∈ writeBody f, W t := by
  intro t ht
  rw [boundTypes_parts] at hb
  unfold writeBody at ht
  split at ht
  · simp at ht
  · rename_i hs
    have hs : f.attrs.skip = false := by simpa using hs
    replace hb := hb hs
    split at ht
    all_goals (rename_i hm; simp only [hm] at hb)
    all_goals first
      | (simp only [List.mem_singleton] at ht; subst ht; exact u8_world hW.toWorld)
      | (simp only [MacroTy.parts] at hb; exact hb t ht)
      | (simp only [List.mem_singleton] at ht
         subst ht
         first
           | exact hW.item _ (hb _ (by simp [MacroTy.parts]))
           | exact hW.pair _ _ (hW.item _ (hb _ (by simp [MacroTy.parts]))) (hW.item _ (hb _ (by simp [MacroTy.parts]))))
      | skip
    · split at ht
      · simp at ht
      · simp only [List.mem_singleton] at ht
        subst ht; exact inner_prim hW.toWorld hm
    · rename_i u
      simp only [List.mem_singleton] at ht
      subst ht
      cases hoi : f.ty.optionInner with
      | none =>
        rw [parseOpt_plain hoi] at hm
        rw [parseTy_ty hm]
        exact hb _ (by simp)
      | some v =>
        exact ho hs _ (by rw [parseOpt_option hoi] at hm ⊢; simp only at hm; rw [hm])

theorem mem_readBody {s : GenStruct} {f : GenField} (hf : f ∈ s.fields) {u : SynTy} (hs : f.attrs.skip = false)
    (h : parseOpt f.ty = (true, .ty u)) : u ∈ s.readNeeds := by
  simp only [GenStruct.readNeeds, List.mem_append, List.mem_flatMap]
  exact .inl (.inl ⟨f, hf, by simp [readBody, hs, h]⟩)

theorem mem_writeBody {s : GenStruct} {f : GenField} (hf : f ∈ s.fields) {u : SynTy} (hs : f.attrs.skip = false)
    (h : parseOpt f.ty = (true, .ty u)) : u ∈ s.writeNeeds := by
  simp only [GenStruct.writeNeeds, List.mem_append, List.mem_flatMap]
  exact .inl ⟨f, hf, by simp [writeBody, hs, h]⟩

theorem closed_params {gs : List String} {ps : List (ParamKind × String)} (hg : ∀ n, n ∈ gs ↔ (.type, n) ∈ ps) {t : SynTy}
    (h : Closed (typeParams ps) t) : Closed gs t :=
  fun σ hσ => h σ fun s hs => hσ s fun h1 => hs (mem_typeParams.2 ((hg s).1 h1))

/-- **C64**, reading: the `where` clause is sufficient.  Let `gs` be the type parameters and `W` be any set of types closed under the implementations of `Readable`.  If it
has the types in the `where` clause, and those types used which do not depend on the parameters, it has all types used.

Full claim: without the last two conditions, which is false (`C64_false_option`, `C64_false_reference`). -/
theorem C64_read_partial {s : GenStruct} {gs : List String} (hgs : ∀ n, n ∈ gs ↔ (.type, n) ∈ s.params) {W : SynTy → Prop} (hW : World W) (hb : ∀ t ∈ s.readBounds, W t)
    (hc : ∀ t ∈ s.readTypes ++ s.readNeeds, Closed gs t → W t)
    (ho : ∀ f ∈ s.fields, f.optionOk gs)
    (hr : (s.isTransparent || s.mayBePrimitive) = true → ∀ f ∈ s.fields, (parseOpt f.ty).2.isRefSlice = false) :
    ∀ t ∈ s.readNeeds, W t := by
  have hall : ∀ f ∈ s.fields, ∀ u ∈ boundTypes f.ty, W u := by
    intro f hf u hu
    have hm : u ∈ s.readTypes := List.mem_flatMap.2 ⟨f, hf, hu⟩
    cases hg : usesGeneric (typeParams s.params) u with
    | true => exact hb u (List.mem_filter.2 ⟨hm, hg⟩)
    | false => exact hc u (List.mem_append_left _ hm) (closed_params hgs (C64_closed hg))
  intro t ht
  simp only [GenStruct.readNeeds, List.mem_append, List.mem_flatMap] at ht
  rcases ht with (⟨f, hf, ht⟩ | ⟨f, hf, ht⟩) | ht
  · exact readBody_world hW (hall f hf)
      (fun hs u hu => hc u (List.mem_append_right _ (mem_readBody hf hs hu)) (ho f hf hs u hu)) t ht
  · exact minBody_world hW (hall f hf) t ht
  · unfold GenStruct.readPrim at ht
    split at ht
    · rename_i hp
      simp only [List.mem_map] at ht
      obtain ⟨f, hf, rfl⟩ := ht
      exact bound_world hW (hr hp f hf) (hall f hf)
    · simp at ht

/-- **C64**, writing: the same.  Full claim: without the last three conditions, which is false (`C64_false_option`,
`C64_false_reference`, `C64_false_skip`). -/
theorem C64_write_partial {s : GenStruct} {gs : List String} (hgs : ∀ n, n ∈ gs ↔ (.type, n) ∈ s.params) {W : SynTy → Prop} (hW : WriteWorld W) (hb : ∀ t ∈ s.writeBounds, W t)
    (hc : ∀ t ∈ s.writeTypes ++ s.writeNeeds, Closed gs t → W t)
    (ho : ∀ f ∈ s.fields, f.optionOk gs)
    (hr : (s.isTransparent || (s.mayBePrimitive && !s.forced)) = true → ∀ f ∈ s.fields, (parseOpt f.ty).2.isRefSlice = false)
    (hk : s.isTransparent = true → ∀ f ∈ s.fields, f.attrs.skip = false) :
    ∀ t ∈ s.writeNeeds, W t := by
  have hall : ∀ f ∈ s.fields, f.attrs.skip = false → ∀ u ∈ boundTypes f.ty, W u := by
    intro f hf hs u hu
    have hm : u ∈ s.writeTypes := List.mem_flatMap.2 ⟨f, List.mem_filter.2 ⟨hf, by simp [hs]⟩, hu⟩
    cases hg : usesGeneric (typeParams s.params) u with
    | true => exact hb u (List.mem_filter.2 ⟨hm, hg⟩)
    | false => exact hc u (List.mem_append_left _ hm) (closed_params hgs (C64_closed hg))
  intro t ht
  simp only [GenStruct.writeNeeds, List.mem_append, List.mem_flatMap] at ht
  rcases ht with ⟨f, hf, ht⟩ | ht
  · exact writeBody_world hW (hall f hf)
      (fun hs u hu => hc u (List.mem_append_right _ (mem_writeBody hf hs hu)) (ho f hf hs u hu)) t ht
  · unfold GenStruct.writePrim at ht
    split at ht
    · rename_i hp
      simp only [List.mem_map] at ht
      obtain ⟨f, hf, rfl⟩ := ht
      have hs : f.attrs.skip = false := by
        cases hT : s.isTransparent with
        | true => exact hk hT f hf
        | false =>
          simp only [hT, Bool.false_or, Bool.and_eq_true, Bool.not_eq_true'] at hp
          have := hp.1
          simp only [GenStruct.mayBePrimitive, hp.2, Bool.false_or, Bool.and_eq_true, List.all_eq_true] at this
          have := this.1 f hf
          simp only [GenField.canBePrimitive, Bool.and_eq_true, Bool.not_eq_true'] at this
          exact this.1.1.2
      exact bound_world hW.toWorld (hr hp f hf) (hall f hf hs)
    · simp at ht

/-! ## The header, and patterns -/

/-- **C64**: without constant parameters, the implementation is for the type with all its parameters (which have lifetimes first).

Full claim: for all parameters, which is false (`C64_false_const`). -/
theorem C64_header_partial {ls ts : List (ParamKind × String)} (hl : ∀ p ∈ ls, p.1 = .lifetime) (ht : ∀ p ∈ ts, p.1 = .type) :
    headerParams (ls ++ ts) = ls ++ ts := by
  have h1 : ls.filter (fun p => p.1 == .lifetime) = ls := List.filter_eq_self.2 fun p hp => by simp [hl p hp]
  have h2 : ts.filter (fun p => p.1 == .lifetime) = [] := List.filter_eq_nil_iff.2 fun p hp => by simp [ht p hp]
  have h3 : ls.filter (fun p => p.1 == .type) = [] := List.filter_eq_nil_iff.2 fun p hp => by simp [hl p hp]
  have h4 : ts.filter (fun p => p.1 == .type) = ts := List.filter_eq_self.2 fun p hp => by simp [ht p hp]
  simp [headerParams, List.filter_append, h1, h2, h3, h4]

/-- **C64**: the pattern for a variant without skipped fields has all its fields (a pattern without `..` has to).

Full claim: for all variants, which is false (`C64_false_variant`). -/
theorem C64_variant_partial {fs : List (String × GenField)} (h : ∀ f ∈ fs, f.2.attrs.skip = false) :
    variantPattern fs = fs.map (·.1) := by
  rw [variantPattern, List.filter_eq_self.2 fun f hf => by simp [h f hf]]

/-! ## Disagreements -/

theorem not_T_world : WriteWorld (· ≠ .name "T") where
  prim := by
    intro s p args h he
    simp only [SynTy.name, SynTy.path.injEq, SynSegs.cons.injEq] at he
    rw [he.2.2.1] at h
    simp [primNames] at h
  string := by simp [SynTy.name]
  vec _ _ := by simp [SynTy.name, SynTy.app]
  hashSet _ _ := by simp [SynTy.name, SynTy.app]
  btreeSet _ _ := by simp [SynTy.name, SynTy.app]
  hashMap _ _ _ _ := by simp [SynTy.name, SynTy.app]
  btreeMap _ _ _ _ := by simp [SynTy.name, SynTy.app]
  cowSlice _ _ _ := by simp [SynTy.name, SynTy.app]
  cowStr _ _ _ := by simp [SynTy.name, SynTy.app]
  cowSet _ _ _ := by simp [SynTy.name, SynTy.app]
  cowMap _ _ _ _ _ := by simp [SynTy.name, SynTy.app]
  option _ _ := by simp [SynTy.name, SynTy.app]
  array _ _ _ := by simp [SynTy.name]
  refStr _ _ _ := by simp [SynTy.name]
  bytes _ _ _ := by simp [SynTy.name]
  pair _ _ _ _ := by simp [SynTy.name, SynTy.pair]
  item _ _ := by simp [SynTy.name]
  ref _ _ _ _ _ := by simp [SynTy.name]

/-- Puts `!` for `T`. -/
def putNever : Subst := { ty := fun s => if s = "T" then some .never else none, inTy := id, inArgs := id, inGens := id }

theorem putNever_of : putNever.Of ["T"] := by
  intro s hs
  simp only [List.mem_singleton] at hs
  simp [putNever, hs]

theorem closed_not_T {t : SynTy} (h : Closed ["T"] t) : t ≠ .name "T" := by
  rintro rfl
  have := h putNever putNever_of
  simp [SynTy.name, SynTy.subst, putNever] at this

/-- `struct S< T > { x: Option< T > }` -/
def optionStruct : GenStruct := { params := [(.type, "T")], fields := [{ ty := .app "Option" (.one (.name "T")) }] }

/-- C64 is false for `struct S< T > { x: Option< T > }`: the bounds are `Option< T >: Readable` and `Option< T >: Writable`, from which
`T: Readable` and `T: Writable` do not follow, and the code reads and writes a `T`. -/
theorem C64_false_option : ∃ W : SynTy → Prop, WriteWorld W ∧ (∀ t ∈ optionStruct.readBounds ++ optionStruct.writeBounds, W t) ∧
    (∀ t, Closed ["T"] t → W t) ∧
    ¬ (∀ t ∈ optionStruct.readNeeds, W t) ∧ ¬ (∀ t ∈ optionStruct.writeNeeds, W t) := by
  have hp : parseOpt (.app "Option" (.one (.name "T"))) = (true, .ty (.name "T")) := by
    simp [parseOpt, SynTy.optionInner, SynTy.app, SynGens.inner, SynGens.one, parseTy, parseSpecial, parsePrim, SynTy.name]
  refine ⟨(· ≠ .name "T"), not_T_world, ?_, fun t => closed_not_T, fun h => ?_, fun h => ?_⟩
  · intro t ht
    have : t = .app "Option" (.one (.name "T")) := by
      simp only [List.mem_append, GenStruct.readBounds, GenStruct.writeBounds, GenStruct.readTypes, GenStruct.writeTypes, optionStruct,
        List.mem_filter, List.mem_flatMap, boundTypes] at ht
      rcases ht with ⟨⟨f, hf, h⟩, _⟩ | ⟨⟨f, ⟨hf, _⟩, h⟩, _⟩ <;>
        (simp only [List.mem_singleton] at hf; subst hf; simpa [hp] using h)
    subst this
    simp [SynTy.name, SynTy.app]
  · exact h (.name "T") (mem_readBody (f := { ty := .app "Option" (.one (.name "T")) }) (by simp [optionStruct]) rfl hp) rfl
  · exact h (.name "T") (mem_writeBody (f := { ty := .app "Option" (.one (.name "T")) }) (by simp [optionStruct]) rfl hp) rfl

/-- `&'a [T]` -/
def sliceOfT : SynTy := .ref (some "a") false (.slice (.name "T"))

/-- `#[repr(C)] struct S< 'a, T > { x: &'a [T] }` -/
def sliceStruct : GenStruct := { params := [(.lifetime, "a"), (.type, "T")], reprC := true, fields := [{ ty := sliceOfT }] }

theorem not_slice_world : WriteWorld (· ≠ sliceOfT) where
  prim := by intros; simp [sliceOfT]
  string := by simp [SynTy.name, sliceOfT]
  vec _ _ := by simp [sliceOfT, SynTy.app]
  hashSet _ _ := by simp [sliceOfT, SynTy.app]
  btreeSet _ _ := by simp [sliceOfT, SynTy.app]
  hashMap _ _ _ _ := by simp [sliceOfT, SynTy.app]
  btreeMap _ _ _ _ := by simp [sliceOfT, SynTy.app]
  cowSlice _ _ _ := by simp [sliceOfT, SynTy.app]
  cowStr _ _ _ := by simp [sliceOfT, SynTy.app]
  cowSet _ _ _ := by simp [sliceOfT, SynTy.app]
  cowMap _ _ _ _ _ := by simp [sliceOfT, SynTy.app]
  option _ _ := by simp [sliceOfT, SynTy.app]
  array _ _ _ := by simp [sliceOfT]
  refStr _ t h he := by
    simp only [sliceOfT, SynTy.ref.injEq] at he
    rw [he.2.2] at h
    simp [SynTy.isBare] at h
  bytes _ t h he := by
    simp only [sliceOfT, SynTy.ref.injEq, SynTy.slice.injEq] at he
    rw [he.2.2] at h
    simp [SynTy.isBare, SynTy.name] at h
  pair _ _ _ _ := by simp [sliceOfT, SynTy.pair]
  item _ _ := by simp [sliceOfT]
  ref _ _ _ _ h he := by
    simp only [sliceOfT, SynTy.ref.injEq] at he
    exact h _ he.2.2

/-- C64 is false for `#[repr(C)] struct S< 'a, T > { x: &'a [T] }`: the bound is `T: Readable`, and the code asks whether `&'a [T]` is
plain memory, which wants `&'a [T]: Readable`, for which `T: ZeroCopyable` would be needed; to write, `T: Clone`. -/
theorem C64_false_reference : ∃ W : SynTy → Prop, WriteWorld W ∧ (∀ t ∈ sliceStruct.readBounds ++ sliceStruct.writeBounds, W t) ∧
    (∀ t, Closed ["T"] t → W t) ∧
    ¬ (∀ t ∈ sliceStruct.readNeeds, W t) ∧ ¬ (∀ t ∈ sliceStruct.writeNeeds, W t) := by
  have hp : parseOpt sliceOfT = (false, .refSlice (.name "T")) := by
    simp [sliceOfT, parseOpt, SynTy.optionInner, parseTy, parseSpecial, parsePrim, SynTy.name, SynTy.isBare]
  refine ⟨(· ≠ sliceOfT), not_slice_world, ?_, ?_, fun h => ?_, fun h => ?_⟩
  · intro t ht
    have : t = .name "T" := by
      simp only [List.mem_append, GenStruct.readBounds, GenStruct.writeBounds, GenStruct.readTypes, GenStruct.writeTypes, sliceStruct,
        List.mem_filter, List.mem_flatMap, boundTypes] at ht
      rcases ht with ⟨⟨f, hf, h⟩, _⟩ | ⟨⟨f, ⟨hf, _⟩, h⟩, _⟩ <;>
        (simp only [List.mem_singleton] at hf; subst hf; simpa [hp] using h)
    subst this
    simp [SynTy.name, sliceOfT]
  · rintro t h rfl
    have := h putNever putNever_of
    simp [sliceOfT, SynTy.name, SynTy.subst, putNever] at this
  · refine h sliceOfT ?_ rfl
    simp only [GenStruct.readNeeds, List.mem_append]
    exact .inr (by simp [GenStruct.readPrim, GenStruct.mayBePrimitive, sliceStruct, GenField.canBePrimitive])
  · refine h sliceOfT ?_ rfl
    simp only [GenStruct.writeNeeds, List.mem_append]
    exact .inr (by simp [GenStruct.writePrim, GenStruct.mayBePrimitive, sliceStruct, GenField.canBePrimitive])

/-- `#[repr(transparent)] struct S< T >( #[speedy(skip)] T )` -/
def skipStruct : GenStruct :=
  { params := [(.type, "T")], transparent := true, fields := [{ attrs := { skip := true }, ty := .name "T" }] }

/-- C64 is false for `#[repr(transparent)] struct S< T >( #[speedy(skip)] T )`: there is no bound for writing, and the code asks whether
`T` is plain memory. -/
theorem C64_false_skip : skipStruct.writeBounds = [] ∧ .name "T" ∈ skipStruct.writeNeeds := by
  constructor
  · simp [GenStruct.writeBounds, GenStruct.writeTypes, skipStruct]
  · simp [GenStruct.writeNeeds, GenStruct.writePrim, GenStruct.isTransparent, skipStruct]

/-- C64 is false for `struct S< const N: usize > { x: [u8; N] }`: the implementation is for `S`, without `N`. -/
theorem C64_false_const : ∃ ps : List (ParamKind × String), headerParams ps ≠ ps := ⟨[(.const, "N")], by decide⟩

/-- C64 is false for an enum with a skipped field, `enum E { A { x: u8, #[speedy(skip)] y: u8 } }`: it is written with the pattern
`E::A { ref x }`, which is not complete. -/
theorem C64_false_variant : ∃ fs : List (String × GenField), variantPattern fs ≠ fs.map (·.1) :=
  ⟨[("x", { ty := .name "u8" }), ("y", { attrs := { skip := true }, ty := .name "u8" })], by decide⟩

/-! ## Examples -/

namespace Samples

/-- The unit test of `possibly_uses_generic_ty` — lib.rs:126-160 — and the cases it leaves out. -/
example :
    let t := SynTy.name "T"
    let u := SynTy.name "u8"
    let uses := usesGeneric ["T"]
    let cow (x : SynTy) := SynTy.app "Cow" (.lifetime "a" (.one x))
    uses (.name "String") = false ∧ uses (cow (.app "BTreeMap" (.two u u))) = false ∧ uses (cow (.slice u)) = false ∧
    uses (.tuple .nil) = false ∧ uses (.paren u) = false ∧ uses (.pair u u) = false ∧ uses (.ref none false u) = false ∧
    uses (.ptr u) = false ∧ uses .never = false ∧ uses (.array u (some 2)) = false ∧
    uses t = true ∧ uses (.path false false (.cons "Dummy" .none (.cons "T" .none .nil))) = true ∧
    uses (cow (.app "BTreeMap" (.two t u))) = true ∧ uses (cow (.app "BTreeMap" (.two u t))) = true ∧ uses (cow (.slice t)) = true ∧
    uses (.paren t) = true ∧ uses (.pair u t) = true ∧ uses (.ref none false t) = true ∧ uses (.ptr t) = true ∧
    uses (.array t (some 2)) = true ∧ uses (.app "Vec" (.one t)) = true ∧
    uses (.array u none) = true ∧ uses .other = true ∧ uses (.path true false (.cons "Item" .none .nil)) = true ∧
    uses (.path false true (.cons "core" .none .nil)) = true ∧ uses (.group u) = false ∧ uses (.group t) = true := by
  decide

/-- `struct Index< K, T > { docs: HashMap< K, Vec< T > >, first: Option< Vec< T > >, name: String, extra: T }` -/
def indexStruct : GenStruct :=
  { params := [(.type, "K"), (.type, "T")]
    fields := [{ ty := .app "HashMap" (.two (.name "K") (.app "Vec" (.one (.name "T")))) },
      { ty := .app "Option" (.one (.app "Vec" (.one (.name "T")))) }, { ty := .name "String" }, { ty := .name "T" }] }

theorem index_opt : ∀ f ∈ indexStruct.fields, ∀ u, parseOpt f.ty ≠ (true, .ty u) := by
  intro f hf u
  simp only [indexStruct, List.mem_cons, List.not_mem_nil, or_false] at hf
  rcases hf with rfl | rfl | rfl | rfl <;>
    simp [parseOpt, SynTy.optionInner, SynTy.app, SynGens.inner, SynGens.inner2, SynGens.one, SynGens.two, parseTy, parseSpecial, parsePrim,
      SynTy.name]

/-- Its bounds are `K`, `Vec< T >`, `T`, `T`. -/
example : indexStruct.readBounds = [.name "K", .app "Vec" (.one (.name "T")), .name "T", .name "T"] := rfl

/-- If keys and values can be read, so can what its implementation uses. -/
example {W : SynTy → Prop} (hW : World W) (hk : W (.name "K")) (ht : W (.name "T")) : ∀ t ∈ indexStruct.readNeeds, W t := by
  have hv := hW.vec _ ht
  refine C64_read_partial (gs := ["K", "T"]) (by simp [indexStruct]) hW ?_ ?_ (fun f hf _ u hu => absurd hu (index_opt f hf u)) (fun h => absurd h (by decide))
  · have h : indexStruct.readBounds = [.name "K", .app "Vec" (.one (.name "T")), .name "T", .name "T"] := rfl
    intro t h'
    simp only [h, List.mem_cons, List.not_mem_nil, or_false] at h'
    rcases h' with rfl | rfl | rfl | rfl <;> assumption
  · have h : indexStruct.readTypes ++ indexStruct.readNeeds = [.name "K", .app "Vec" (.one (.name "T")), .name "T", .name "T",
      .name "K", .app "Vec" (.one (.name "T")), .name "T", .name "u8", .name "T", .name "T"] := rfl
    have h8 := u8_world hW
    intro t h' _
    simp only [h, List.mem_cons, List.not_mem_nil, or_false] at h'
    rcases h' with rfl | rfl | rfl | rfl | rfl | rfl | rfl | rfl | rfl | rfl <;> assumption

/-- The same for writing. -/
example {W : SynTy → Prop} (hW : WriteWorld W) (hk : W (.name "K")) (ht : W (.name "T")) : ∀ t ∈ indexStruct.writeNeeds, W t := by
  have hv := hW.vec _ ht
  refine C64_write_partial (gs := ["K", "T"]) (by simp [indexStruct]) hW ?_ ?_ (fun f hf _ u hu => absurd hu (index_opt f hf u)) (fun h => absurd h (by decide))
    (fun h => absurd h (by decide))
  · have h : indexStruct.writeBounds = [.name "K", .app "Vec" (.one (.name "T")), .name "T", .name "T"] := rfl
    intro t h'
    simp only [h, List.mem_cons, List.not_mem_nil, or_false] at h'
    rcases h' with rfl | rfl | rfl | rfl <;> assumption
  · have h : indexStruct.writeTypes ++ indexStruct.writeNeeds = [.name "K", .app "Vec" (.one (.name "T")), .name "T", .name "T",
      .pair (.ref none false (.name "K")) (.ref none false (.app "Vec" (.one (.name "T")))), .name "T", .name "u8", .name "T"] := rfl
    have h8 := u8_world hW.toWorld
    have hp := hW.pair _ _ (hW.item _ hk) (hW.item _ hv)
    intro t h' _
    simp only [h, List.mem_cons, List.not_mem_nil, or_false] at h'
    rcases h' with rfl | rfl | rfl | rfl | rfl | rfl | rfl | rfl <;> assumption

/-- Parameters `'a, K, V`. -/
example : headerParams [(.lifetime, "a"), (.type, "K"), (.type, "V")] = [(.lifetime, "a"), (.type, "K"), (.type, "V")] :=
  C64_header_partial (ls := [(.lifetime, "a")]) (ts := [(.type, "K"), (.type, "V")]) (by simp) (by simp)

/-- `A { x: u8, y: T }` -/
example : variantPattern [("x", { ty := .name "u8" }), ("y", { ty := .name "T" })] = ["x", "y"] :=
  C64_variant_partial (by simp)

/-- No parameters, and an array whose length is a named constant: the macro does not look into it, and makes a (true) bound. -/
example : (GenStruct.readBounds { fields := [{ ty := .array (.name "u8") none }, { ty := .name "u8" }] }) = [.array (.name "u8") none] := rfl

end Samples

/-! ## Cases -/

section Cases
open Samples

example := C58_trusted (t := .app "Vec" (.one (.tuple (.cons (.name "u8") (.cons (.name "String") .nil))))) (by decide)

example := C64_closed (gs := ["T"]) (t := .app "Cow" (.lifetime "a" (.one (.app "BTreeMap" (.two (.name "u8") (.name "u8")))))) (by decide)
example := C64_needed (gs := ["T"]) (t := .app "Vec" (.one (.name "T"))) (by decide)
example := C64_needed_params (s := indexStruct) (t := .app "Vec" (.one (.name "T"))) (by
  have h : indexStruct.readBounds = [.name "K", .app "Vec" (.one (.name "T")), .name "T", .name "T"] := rfl
  rw [h]; simp)
example := C64_no_params (s := { fields := [{ ty := .array (.name "u8") none }, { ty := .name "u8" }] }) (by simp)

end Cases

end Verif
