import Verif.SynMin
import Verif.PropsSpelling

/-!
# C58: `minimum_bytes_needed` returns

Every function which reads calls `minimum_bytes_needed` first, and it calls those of the fields: for a recursive type it must
not lead back to itself.
-/

namespace Verif

/-- `minimum_bytes_needed` of the type returns `k`: with enough stack for the nested calls. -/
def MinIs {τ : Type} (res : τ → Shape τ) (t : τ) (k : Nat) : Prop := ∃ n, ∀ m, n ≤ m → minCalls res m t = some k

/-- A type can have a value: it must be possible to build it up in finitely many steps.  `zero`: an array of length zero has a value,
whatever its elements.  (Types of the library whose implementation makes no calls are taken to have one: `None`, an empty `Vec`.) -/
inductive HasValue {τ : Type} (zero : Bool) (res : τ → Shape τ) : τ → Prop where
  | const {t k} : res t = .const k → HasValue zero res t
  | same {t u} : res t = .same u → HasValue zero res u → HasValue zero res t
  | times {t u n} : res t = .times u n → HasValue zero res u → HasValue zero res t
  | zero {t u} : zero = true → res t = .times u 0 → HasValue zero res t
  | tuple {t us} : res t = .tuple us → (∀ u ∈ us, HasValue zero res u) → HasValue zero res t
  | struct {t fs ρ} : res t = .user (.struct fs) ρ → (∀ f ∈ fs, HasValue zero res (ρ f.ty)) → HasValue zero res t
  | enum {t g p vs ρ v} : res t = .user (.enum g p vs) ρ → v ∈ vs → (∀ f ∈ v.2, HasValue zero res (ρ f.ty)) → HasValue zero res t

/-- A program: in every declaration the names of the standard library are what they are. -/
def StdProgram {τ : Type} (res : τ → Shape τ) : Prop := ∀ t d ρ, res t = .user d ρ → StdShapes res ρ

/-! ## Evaluation -/

section
variable {τ : Type} {res : τ → Shape τ}

/-- An evaluation with bounded calls which has a result from some bound on. -/
def Settles (f : Nat → Option Nat) : Prop := ∃ n k, ∀ m, n ≤ m → f m = some k

theorem Settles.pure (k : Nat) : Settles fun _ => some k := ⟨0, k, fun _ _ => rfl⟩

theorem Settles.map {f : Nat → Option Nat} (h : Settles f) (g : Nat → Nat) : Settles fun n => (f n).map g := by
  obtain ⟨n, k, h⟩ := h
  exact ⟨n, g k, fun m hm => by simp [h m hm]⟩

theorem Settles.sum {α : Type} {f : Nat → α → Option Nat} : ∀ {xs : List α}, (∀ x ∈ xs, Settles fun n => f n x) →
    Settles fun n => sumMin (f n) xs := by
  intro xs
  induction xs with
  | nil => intro _; exact Settles.pure 0
  | cons x xs ih =>
    intro h
    obtain ⟨n, k, h1⟩ := h x List.mem_cons_self
    obtain ⟨n', k', h2⟩ := ih fun y hy => h y (List.mem_cons_of_mem _ hy)
    exact ⟨max n n', k + k', fun m hm => by simp [sumMin, h1 m (by omega), h2 m (by omega)]⟩

theorem Settles.minOf {α : Type} {f : Nat → α → Option Nat} : ∀ {xs : List α} (out : Nat), (∀ x ∈ xs, Settles fun n => f n x) →
    Settles fun n => Verif.minOf (f n) xs out := by
  intro xs
  induction xs with
  | nil => intro out _; exact Settles.pure out
  | cons x xs ih =>
    intro out h
    obtain ⟨n, k, h1⟩ := h x List.mem_cons_self
    obtain ⟨n', k', h2⟩ := ih (min out k) fun y hy => h y (List.mem_cons_of_mem _ hy)
    exact ⟨max n n', k', fun m hm => by simp [Verif.minOf, h1 m (by omega), h2 m (by omega)]⟩

/-- One call. -/
theorem Settles.step {t : τ} {g : Nat → Option Nat} (h : ∀ n, minCalls res (n + 1) t = g n) (hg : Settles g) :
    Settles fun n => minCalls res n t := by
  obtain ⟨n, k, hg⟩ := hg
  refine ⟨n + 1, k, fun m hm => ?_⟩
  obtain ⟨m, rfl⟩ : ∃ m', m = m' + 1 := ⟨m - 1, by omega⟩
  simp only [h]
  exact hg m (by omega)

/-- Back from a call to the calls which it makes. -/
theorem Settles.back {t : τ} {g : Nat → Option Nat} (h : ∀ n, minCalls res (n + 1) t = g n)
    (ht : Settles fun n => minCalls res n t) : Settles g := by
  obtain ⟨n, k, ht⟩ := ht
  refine ⟨n, k, fun m hm => ?_⟩
  rw [← h]
  exact ht (m + 1) (by omega)

theorem settles_const {t : τ} {k : Nat} (h : res t = .const k) : Settles fun n => minCalls res n t :=
  .step (fun n => by simp [minCalls, h]) (.pure k)

end

mutual
/-- A type which the macro trusts is one for which the function returns. -/
theorem nonRecursive_settles {τ : Type} {res : τ → Shape τ} {ρ : SynTy → τ} (hρ : StdShapes res ρ) :
    ∀ s : SynTy, nonRecursive s = true → Settles fun n => minCalls res n (ρ s)
  | .path q l segs, h => by
    match q, l, segs, h with
    | false, false, .cons s args .nil, h =>
      simp only [nonRecursive, Bool.and_eq_true, List.contains_iff_mem] at h
      obtain ⟨k, hk⟩ := hρ.known s args h.1
      exact settles_const hk
    | false, false, .nil, h => simp [nonRecursive] at h
    | false, false, .cons _ _ (.cons _ _ _), h => simp [nonRecursive] at h
    | false, true, _, h => simp [nonRecursive] at h
    | true, _, _, h => simp [nonRecursive] at h
  | .slice t, _ => settles_const (hρ.slice t).choose_spec
  | .ref l m t, _ => settles_const (hρ.ref l m t).choose_spec
  | .ptr t, _ => settles_const (hρ.ptr t).choose_spec
  | .never, _ => settles_const hρ.never.choose_spec
  | .paren t, h => by
    rw [hρ.paren]
    exact nonRecursive_settles hρ t (by simpa [nonRecursive] using h)
  | .group t, h => by
    rw [hρ.group]
    exact nonRecursive_settles hρ t (by simpa [nonRecursive] using h)
  | .tuple ts, h =>
    .step (fun n => by simp only [minCalls, hρ.tuple ts])
      (.sum (tysNonRecursive_settles hρ ts (by simpa [nonRecursive] using h)))
  | .array t len, h => by
    simp only [nonRecursive, Bool.and_eq_true] at h
    cases len with
    | none => simp at h
    | some m =>
      exact .step (fun n => by simp only [minCalls, hρ.array t m]) ((nonRecursive_settles hρ t h.1).map (· * m))
  | .other, h => by simp [nonRecursive] at h
/-- The types in a tuple. -/
theorem tysNonRecursive_settles {τ : Type} {res : τ → Shape τ} {ρ : SynTy → τ} (hρ : StdShapes res ρ) :
    ∀ ts : SynTys, tysNonRecursive ts = true → ∀ u ∈ ts.types ρ, Settles fun n => minCalls res n u
  | .nil, _ => by simp [SynTys.types]
  | .cons t ts, h => by
    simp only [tysNonRecursive, Bool.and_eq_true] at h
    intro u hu
    simp only [SynTys.types, List.mem_cons] at hu
    rcases hu with rfl | hu
    · exact nonRecursive_settles hρ t h.1
    · exact tysNonRecursive_settles hρ ts h.2 u hu
end

theorem parseOpt_array {t u : SynTy} {n : Nat} (h : parseOpt t = (false, .array u n)) : t = .array u (some n) := by
  unfold parseOpt at h
  split at h
  · simp at h
  · simp only [Prod.mk.injEq, true_and] at h
    unfold parseTy parseSpecial at h
    split at h
    · simp at h
    · split at h
      · split at h <;> simp at h
      · rename_i args _ _
        have hcow : ∀ t m, args.innerLt.bind parseCow = some m → m ≠ .array t n := by
          intro t m hm
          cases hi : args.innerLt with
          | none => simp [hi] at hm
          | some c =>
            simp only [hi, Option.bind_some, parseCow] at hm
            intro he
            subst he
            repeat' split at hm
            all_goals first
              | (simp at hm; done)
              | (simp only [Option.map_eq_some_iff] at hm; obtain ⟨_, _, h⟩ := hm; cases h)
        split at h
        case h_4 =>
          cases hb : args.innerLt.bind parseCow with
          | none => simp [hb] at h
          | some m =>
            rw [hb] at h
            exact absurd h (hcow u m hb)
        all_goals first
          | (simp at h; done)
          | (cases hg : args.inner <;> simp [hg] at h; done)
          | (cases hg : args.inner2 <;> simp [hg] at h; done)
      · split at h <;> simp_all
      · repeat' split at h
        all_goals simp at h
      · simp at h

/-! ## More calls do not change the result -/

theorem sumMin_mono {α : Type} {f g : α → Option Nat} (h : ∀ x k, f x = some k → g x = some k) :
    ∀ (xs : List α) (k : Nat), sumMin f xs = some k → sumMin g xs = some k := by
  intro xs
  induction xs with
  | nil => intro k hk; exact hk
  | cons x xs ih =>
    intro k hk
    simp only [sumMin] at hk ⊢
    cases hx : f x with
    | none => simp [hx] at hk
    | some a =>
      simp only [hx, Option.map_eq_some_iff] at hk
      obtain ⟨b, hb, rfl⟩ := hk
      simp [h x a hx, ih b hb]

theorem minOf_mono {α : Type} {f g : α → Option Nat} (h : ∀ x k, f x = some k → g x = some k) :
    ∀ (xs : List α) (out k : Nat), minOf f xs out = some k → minOf g xs out = some k := by
  intro xs
  induction xs with
  | nil => intro out k hk; exact hk
  | cons x xs ih =>
    intro out k hk
    simp only [minOf] at hk ⊢
    cases hx : f x with
    | none => simp [hx] at hk
    | some a =>
      simp only [hx] at hk
      simp [h x a hx, ih _ _ hk]

theorem fieldMin_mono {call call' : SynTy → Option Nat} (h : ∀ s k, call s = some k → call' s = some k) (f : SynField) (k : Nat)
    (hk : fieldMin call f = some k) : fieldMin call' f = some k := by
  simp only [fieldMin] at hk ⊢
  split at hk
  · rename_i hc; simpa [hc] using hk
  · rename_i hc
    rw [if_neg hc]
    simp only [Option.map_eq_some_iff] at hk ⊢
    obtain ⟨a, ha, rfl⟩ := hk
    refine ⟨a, ?_, rfl⟩
    split at ha
    · exact ha
    · simp only [Option.map_eq_some_iff] at ha ⊢
      obtain ⟨b, hb, rfl⟩ := ha
      exact ⟨b, h _ _ hb, rfl⟩
    · split at ha
      · rename_i hv; simpa [hv] using ha
      · rename_i hv; rw [if_neg hv]; exact h _ _ ha
    · exact h _ _ ha
    · exact ha

theorem Decl.min_mono {call call' : SynTy → Option Nat} (h : ∀ s k, call s = some k → call' s = some k) (d : Decl) (k : Nat)
    (hk : d.min call = some k) : d.min call' = some k := by
  cases d with
  | struct fs => exact sumMin_mono (fieldMin_mono h) fs k hk
  | enum g p vs =>
    simp only [Decl.min, Option.map_eq_some_iff] at hk ⊢
    obtain ⟨a, ha, rfl⟩ := hk
    exact ⟨a, minOf_mono (fun (v : Bool × List SynField) => sumMin_mono (fieldMin_mono h) v.2) _ _ _ ha, rfl⟩

section
variable {τ : Type} {res : τ → Shape τ}

theorem minCalls_succ : ∀ (n : Nat) (t : τ) (k : Nat), minCalls res n t = some k → minCalls res (n + 1) t = some k := by
  intro n
  induction n with
  | zero => intro t k h; simp [minCalls] at h
  | succ n ih =>
    intro t k h
    rw [minCalls] at h ⊢
    split at h
    · exact h
    · exact ih _ _ h
    · simp only [Option.map_eq_some_iff] at h ⊢
      obtain ⟨a, ha, rfl⟩ := h
      exact ⟨a, ih _ _ ha, rfl⟩
    · exact sumMin_mono ih _ _ h
    · exact Decl.min_mono (fun s => ih _) _ _ h

theorem minCalls_mono {n m : Nat} {t : τ} {k : Nat} (h : minCalls res n t = some k) (hm : n ≤ m) : minCalls res m t = some k := by
  obtain ⟨d, rfl⟩ : ∃ d, m = n + d := ⟨m - n, by omega⟩
  induction d with
  | zero => exact h
  | succ d ih => exact minCalls_succ _ _ _ (ih (by omega))

theorem settles_of {n : Nat} {t : τ} {k : Nat} (h : minCalls res n t = some k) : Settles fun n => minCalls res n t :=
  ⟨n, k, fun _ hm => minCalls_mono h hm⟩

theorem fieldMin_settles {ρ : SynTy → τ} (hρ : StdShapes res ρ) {f : SynField} (h : Settles fun n => minCalls res n (ρ f.ty)) :
    Settles fun n => fieldMin (fun s => minCalls res n (ρ s)) f := by
  by_cases hc : (f.collected.defaultOnEof || f.collected.length.isSome || f.collected.skip) = true
  · exact ⟨0, 0, fun m _ => by simp only [fieldMin]; rw [if_pos hc]⟩
  have key : Settles fun n => (match parseOpt f.ty with
      | (true, _) => some 1
      | (false, .array t m) => (minCalls res n (ρ t)).map (· * m)
      | (false, .primitive _) => if f.collected.varint then some 1 else minCalls res n (ρ f.ty)
      | (false, .ty _) => minCalls res n (ρ f.ty)
      | (false, _) => some (f.collected.lengthType.getD .u32).minSize) := by
    split
    · exact .pure 1
    · rename_i t m he
      refine Settles.map ?_ _
      rw [parseOpt_array he] at h
      obtain ⟨n, k, h⟩ := h
      have := h (n + 1) (by omega)
      simp only [minCalls, hρ.array t m, Option.map_eq_some_iff] at this
      obtain ⟨a, ha, _⟩ := this
      exact settles_of ha
    · split
      · exact .pure 1
      · exact h
    · exact h
    · exact .pure _
  obtain ⟨n, k, h⟩ := key.map (· + (f.collected.pre.getD []).length)
  exact ⟨n, k, fun m hm => by simp only [fieldMin]; rw [if_neg hc]; exact h m hm⟩

theorem decl_settles {ρ : SynTy → τ} (hρ : StdShapes res ρ) {d : Decl}
    (h : ∀ fs, d = .struct fs → ∀ f ∈ fs, Settles fun n => minCalls res n (ρ f.ty)) :
    Settles fun n => d.min fun s => minCalls res n (ρ s) := by
  cases d with
  | struct fs => exact Settles.sum fun f hf => fieldMin_settles hρ (h fs rfl f hf)
  | enum g p vs =>
    refine Settles.map (Settles.minOf 0 ?_) _
    intro v hv
    refine Settles.sum fun f hf => fieldMin_settles hρ (nonRecursive_settles hρ _ ?_)
    have := (List.mem_filter.mp hv).2
    simp only [looksAt, Bool.and_eq_true, List.all_eq_true] at this
    exact this.2 f hf

theorem settles_user (hp : StdProgram res) {t : τ} {d : Decl} {ρ : SynTy → τ} (ht : res t = .user d ρ)
    (h : ∀ fs, d = .struct fs → ∀ f ∈ fs, Settles fun n => minCalls res n (ρ f.ty)) : Settles fun n => minCalls res n t :=
  .step (fun n => by simp only [minCalls, ht]) (decl_settles (hp _ _ _ ht) h)

/-! ## C58 -/

/-- **C58**: if a value of the type can be built (where an array, even an empty one, needs elements), then `minimum_bytes_needed` returns:
with a certain result, given enough stack.  Nothing else is required of the declarations: they can be recursive, mutually recursive
and generic. -/
theorem C58_returns_partial (hp : StdProgram res) {t : τ} (h : HasValue false res t) : ∃ k, MinIs res t k := by
  suffices Settles fun n => minCalls res n t by
    obtain ⟨n, k, h⟩ := this
    exact ⟨k, n, h⟩
  induction h with
  | const h => exact settles_const h
  | same h _ ih => exact .step (fun n => by simp only [minCalls, h]) ih
  | @times t u m h _ ih => exact .step (fun n => by simp only [minCalls, h]) (ih.map (· * m))
  | zero h => cases h
  | tuple h _ ih => exact .step (fun n => by simp only [minCalls, h]) (.sum ih)
  | struct h _ ih =>
    refine settles_user hp h ?_
    intro fs' he
    cases he
    exact ih
  | enum h _ _ _ => exact settles_user hp h (fun _ he => by cases he)

/-- The result is unique. -/
theorem C58_result {t : τ} {k k' : Nat} (h : MinIs res t k) (h' : MinIs res t k') : k = k' := by
  obtain ⟨n, h⟩ := h
  obtain ⟨n', h'⟩ := h'
  have := (h (max n n') (by omega)).symm.trans (h' (max n n') (by omega))
  simpa using this

/-- **C58**: for an enum it always returns, whatever its variants are. -/
theorem C58_enum (hp : StdProgram res) {t : τ} {g : LenTy} {p : Bool} {vs : List (Bool × List SynField)} {ρ : SynTy → τ}
    (h : res t = .user (.enum g p vs) ρ) : MinIs res t g.minSize := by
  have hs : Settles fun n => minCalls res n t :=
    settles_user hp h (fun _ he => by cases he)
  obtain ⟨n, k, hk⟩ := hs
  refine ⟨n, ?_⟩
  suffices k = g.minSize by subst this; exact hk
  have hk := hk (n + 1) (by omega)
  simp only [minCalls, h, Decl.min, Option.map_eq_some_iff] at hk
  obtain ⟨a, ha, rfl⟩ := hk
  have hz : ∀ {α : Type} (f : α → Option Nat) (xs : List α), minOf f xs 0 = some a → a = 0 := by
    intro α f xs
    induction xs with
    | nil => intro h; simpa [minOf] using h.symm
    | cons x xs ih =>
      intro h
      simp only [minOf] at h
      split at h
      · simp at h
      · simp only [Nat.zero_min] at h; exact ih h
  rw [hz _ _ ha]
  split <;> simp

end

/-! ## The result is that of the finite model -/

/-- `Ty`s for the types of a program, recursive ones unrolled to a depth. -/
structure Unrolls {τ : Type} (T : Target) (res : τ → Shape τ) (μ : Nat → τ → Ty) : Prop where
  const : ∀ {t k}, res t = .const k → ∀ d, minBytes T (μ d t) = k
  same : ∀ {t u}, res t = .same u → ∀ d, μ d t = .box (μ d u)
  times : ∀ {t u n}, res t = .times u n → ∀ d, minBytes T (μ d t) = minBytes T (μ d u) * n
  tuple : ∀ {t us}, res t = .tuple us → ∀ d, μ d t = us.foldr (fun u r => .pair (μ d u) r) .unit
  scope : ∀ {t e ρ}, res t = .user e ρ → ∀ d, StdScope fun s => μ d (ρ s)
  struct : ∀ {t fs ρ}, res t = .user (.struct fs) ρ → ∀ d, ∃ D F, μ (d + 1) t = .struct D F ∧ synFields (fun s => μ d (ρ s)) false fs = .ok F
  enum : ∀ {t g p vs ρ}, res t = .user (.enum g p vs) ρ → ∀ d, ∃ D V, μ (d + 1) t = .enum D V ∧ D.tagTy = g ∧ D.peek = p

theorem synCollect_varint {t : SynTy} : ∀ {as : List RawAttr} {c d : Collected}, synCollect t as c = .ok d →
    (c.varint = true → parsePrim t = some .u64) → d.varint = true → parsePrim t = some .u64 := by
  intro as
  induction as with
  | nil => intro c d h hc; simp only [synCollect, Except.ok.injEq] at h; subst h; exact hc
  | cons a as ih =>
    intro c d h hc
    cases a <;> simp only [synCollect] at h
    case skip => exact ih h hc
    case varint =>
      split at h
      · simp at h
      · rename_i hp
        intro _
        simpa using hp
    all_goals
      split at h
      · simp at h
      · exact ih h hc

theorem fieldMin_value {T : Target} {ρ : SynTy → Ty} (hρ : StdScope ρ) {call : SynTy → Option Nat}
    (hcall : ∀ s k, call s = some k → minBytes T (ρ s) = k) {f : SynField} {c : Collected} (hcol : synCollect f.ty f.attrs {} = .ok c)
    (hchk : synCheck f.ty c = .ok ()) {k : Nat} (h : fieldMin call f = some k) {F : Fields} :
    fieldsMin T (.cons (synAttrs f c) (ρ f.ty) F) = k + fieldsMin T F := by
  have hc : f.collected = c := by simp [SynField.collected, hcol]
  have hvar : c.varint = true → parsePrim f.ty = some .u64 := synCollect_varint hcol (by simp)
  have hm := parseOpt_meaning hρ f.ty
  simp only [fieldMin, hc] at h
  have e1 : (synAttrs f c).skip = c.skip := rfl
  have e2 : (synAttrs f c).defaultOnEof = c.defaultOnEof := rfl
  have e3 : (synAttrs f c).varint = c.varint := rfl
  have e4 : (synAttrs f c).pre = c.pre.getD [] := rfl
  have e5 : (synAttrs f c).len = (match c.length, c.lengthType with
      | some (some e), _ => some (.expr e)
      | some none, _ => some .untilEof
      | none, some t => some (.typed t)
      | none, none => none) := rfl
  simp only [fieldsMin, e1, e2, e3, e4, e5]
  split at h
  · rename_i hcond
    simp only [Option.some.injEq] at h
    subst h
    simp only [Bool.or_eq_true] at hcond
    congr 1
    rcases hcond with (hcond | hcond) | hcond
    · simp [hcond]
    · obtain ⟨l, hl⟩ := Option.isSome_iff_exists.mp hcond
      cases l <;> simp [hl]
    · simp [hcond]
  · rename_i hcond
    simp only [Bool.or_eq_true, not_or, Bool.not_eq_true, Option.isSome_eq_false_iff, Option.isNone_iff_eq_none] at hcond
    obtain ⟨⟨h1, h2⟩, h3⟩ := hcond
    simp only [Option.map_eq_some_iff] at h
    obtain ⟨a, ha, rfl⟩ := h
    simp only [h1, h2, h3, Bool.or_self, Bool.false_eq_true, if_false]
    congr 1
    rw [Nat.add_comm a]
    cases hl : c.lengthType with
    | some lt =>
      simp only [Nat.add_left_cancel_iff]
      have hcont : (parseOpt f.ty).2.isContainer = true := by
        simp only [synCheck, hl, h2, Option.isSome_some, Option.isSome_none, Bool.and_false, Bool.false_eq_true, if_false, Bool.false_and,
          Bool.true_and] at hchk
        by_cases hx : (parseOpt f.ty).2.isContainer = true
        · exact hx
        · simp [hx] at hchk
      rcases hq : parseOpt f.ty with ⟨b, m⟩
      rw [hq] at hm hcont ha
      cases b
      · simp only [Bool.false_eq_true, if_false] at hm
        cases m <;> simp [MacroTy.isContainer] at hcont <;> simp only [hl, Option.getD_some, Option.some.injEq] at ha <;>
          simp only [MacroTy.meaning] at hm <;> rw [hm] <;> simp [ha]
      · simp only [if_true] at hm
        simp only [Option.some.injEq] at ha
        simp [hm, ha]
    | none =>
      simp only [Nat.add_left_cancel_iff]
      rcases hq : parseOpt f.ty with ⟨b, m⟩
      rw [hq] at hm ha
      have hv : c.varint = true → b = false ∧ m = .primitive .u64 := by
        intro hv
        have hpp := hvar hv
        have : parseOpt f.ty = (false, .primitive .u64) := by
          obtain ⟨s, args, he, hmem⟩ := parsePrim_names hpp
          have hs : s = "u64" := by
            simp only [primNames, List.mem_cons, Prod.mk.injEq, List.not_mem_nil, or_false] at hmem
            simpa using hmem
          have ho : f.ty.optionInner = none := by
            rw [he, hs]
            unfold SynTy.optionInner
            split
            · rename_i heq
              simp only [SynTy.path.injEq, SynSegs.cons.injEq, true_and] at heq
              rw [← heq.1]; rfl
            · rfl
          simp [parseOpt, ho, parseTy, parseSpecial, hpp]
        rw [this] at hq
        simp only [Prod.mk.injEq] at hq
        exact ⟨hq.1.symm, hq.2.symm⟩
      cases b
      · simp only [Bool.false_eq_true, if_false] at hm
        cases m <;> simp only [MacroTy.meaning] at hm
        case array t n =>
          have : c.varint = false := by
            cases hx : c.varint
            · rfl
            · have := hv hx; simp at this
          simp only [Option.map_eq_some_iff] at ha
          obtain ⟨b, hb, rfl⟩ := ha
          simp [this, hm, minBytes, hcall _ _ hb]
        case primitive p =>
          cases hx : c.varint with
          | true => simp only [hx, if_true, Option.some.injEq] at ha; simp [ha]
          | false => simp only [hx, Bool.false_eq_true, if_false] at ha; simp [hcall _ _ ha]
        case ty t =>
          have : c.varint = false := by
            cases hx : c.varint
            · rfl
            · have := hv hx; simp at this
          simp [this, hcall _ _ ha]
        all_goals
          have : c.varint = false := by
            cases hx : c.varint
            · rfl
            · have := hv hx; simp at this
          simp only [hl, Option.getD_none, LenTy.minSize, Option.some.injEq] at ha
          simp [this, hm, minBytes, ha]
      · simp only [if_true] at hm
        have : c.varint = false := by
          cases hx : c.varint
          · rfl
          · have := hv hx; simp at this
        simp only [Option.some.injEq] at ha
        simp [this, hm, minBytes, ha]

theorem structMin_value {T : Target} {ρ : SynTy → Ty} (hρ : StdScope ρ) {call : SynTy → Option Nat}
    (hcall : ∀ s k, call s = some k → minBytes T (ρ s) = k) : ∀ {fs : List SynField} {b : Bool} {F : Fields},
    synFields ρ b fs = .ok F → ∀ {k : Nat}, sumMin (fieldMin call) fs = some k → fieldsMin T F = k := by
  intro fs
  induction fs with
  | nil =>
    intro b F h k hk
    simp only [synFields, Except.ok.injEq] at h
    subst h
    simp only [sumMin, Option.some.injEq] at hk
    simp [fieldsMin, hk]
  | cons f fs ih =>
    intro b F h k hk
    cases b
    case true => simp [synFields] at h
    simp only [synFields] at h
    split at h
    · simp at h
    · rename_i c hcol
      split at h
      · simp at h
      · rename_i hchk
        split at h
        · simp at h
        · rename_i R hR
          simp only [Except.ok.injEq] at h
          subst h
          simp only [sumMin] at hk
          cases ha : fieldMin call f with
          | none => simp [ha] at hk
          | some a =>
            simp only [ha, Option.map_eq_some_iff] at hk
            obtain ⟨m, hm, rfl⟩ := hk
            rw [fieldMin_value hρ hcall hcol hchk ha, ih hR hm]

/-- **C58**: the result is the `minBytes` of the model, for every unrolling which is deep enough. -/
theorem C58_value {τ : Type} {T : Target} {res : τ → Shape τ} {μ : Nat → τ → Ty} (hp : StdProgram res) (hu : Unrolls T res μ) {t : τ} {k : Nat}
    (h : MinIs res t k) : ∃ n, ∀ d, n ≤ d → minBytes T (μ d t) = k := by
  obtain ⟨n, h⟩ := h
  refine ⟨n, fun d hd => ?_⟩
  have key : ∀ (n d : Nat) (t : τ) (k : Nat), minCalls res n t = some k → n ≤ d → minBytes T (μ d t) = k := by
    intro n
    induction n with
    | zero => intro d t k h; simp [minCalls] at h
    | succ n ih =>
      intro d t k h hd
      have h0 := h
      simp only [minCalls] at h
      split at h
      · rename_i ht
        simp only [Option.some.injEq] at h
        rw [hu.const ht, h]
      · rename_i u ht
        rw [hu.same ht, minBytes]
        exact ih d u k h (by omega)
      · rename_i u m ht
        simp only [Option.map_eq_some_iff] at h
        obtain ⟨a, ha, rfl⟩ := h
        rw [hu.times ht, ih d u a ha (by omega)]
      · rename_i us ht
        rw [hu.tuple ht]
        clear ht h0
        induction us generalizing k with
        | nil =>
          simp only [sumMin, Option.some.injEq] at h
          simp [minBytes, h]
        | cons u us ihu =>
          simp only [sumMin] at h
          cases hx : minCalls res n u with
          | none => simp [hx] at h
          | some a =>
            simp only [hx, Option.map_eq_some_iff] at h
            obtain ⟨b, hb, rfl⟩ := h
            simp only [List.foldr_cons, minBytes]
            rw [ih d u a hx (by omega), ihu b hb]
      · rename_i e ρ ht
        obtain ⟨d, rfl⟩ : ∃ d', d = d' + 1 := ⟨d - 1, by omega⟩
        cases e with
        | struct fs =>
          obtain ⟨D, F, h1, h2⟩ := hu.struct ht d
          rw [h1, minBytes]
          exact structMin_value (hu.scope ht d) (fun s k hk => ih d (ρ s) k hk (by omega)) h2 h
        | enum g p vs =>
          obtain ⟨D, V, h1, rfl, rfl⟩ := hu.enum ht d
          have := C58_result ⟨n + 1, fun m hm => minCalls_mono h0 hm⟩ (C58_enum hp ht)
          rw [h1, minBytes, this]
          split <;> simp
  exact key n d t k (h n (Nat.le_refl _)) hd

/-! ## Programs -/

/-- Parentheses have no meaning. -/
def SynTy.strip : SynTy → SynTy
  | .paren t => t.strip
  | .group t => t.strip
  | t => t

/-- Shapes of the library's types and of the given declarations (without type parameters). -/
def program (decls : List (String × Decl)) : SynTy → Shape SynTy
  | .path false false (.cons s args .nil) =>
    match primNames.lookup s with
    | some p => .const p.size
    | none =>
      if s = "usize" ∨ s = "isize" then .const 8
      else if s ∈ knownNames ∨ s = "Cow" then .const 4
      else if s = "Option" ∨ s = "Result" then .const 1
      else match args with
        | .angle false (.ty t .nil) => if s = "Box" then .same t.strip else if s = "Range" then .times t.strip 2 else .const 0
        | .none =>
          match decls.lookup s with
          | some d => .user d SynTy.strip
          | none => .const 0
        | _ => .const 0
  | .tuple ts => .tuple (ts.types SynTy.strip)
  | .array t (some n) => .times t.strip n
  | .ref _ false (.slice _) => .const 4
  | .ref _ false t => .const (if t.isBare "str" then 4 else 0)
  | _ => .const 0

theorem program_std (decls : List (String × Decl)) : StdProgram (program decls) := by
  intro t d ρ h
  have hρ : ρ = SynTy.strip := by
    unfold program at h
    repeat' split at h
    all_goals first
      | (simp at h; done)
      | (simp only [Shape.user.injEq] at h; exact h.2.symm)
  subst hρ
  exact {
    known := by
      intro s args hs
      simp only [SynTy.strip, program]
      split
      · exact ⟨_, rfl⟩
      · split
        · exact ⟨_, rfl⟩
        · rw [if_pos (.inl hs)]; exact ⟨_, rfl⟩
    prim := by
      intro t p hp
      obtain ⟨s, args, rfl, hm⟩ := parsePrim_names hp
      simp only [primNames, List.mem_cons, Prod.mk.injEq, List.not_mem_nil, or_false] at hm
      simp only [SynTy.strip, program]
      rcases hm with ⟨rfl, rfl⟩ | ⟨rfl, rfl⟩ | ⟨rfl, rfl⟩ | ⟨rfl, rfl⟩ | ⟨rfl, rfl⟩ | ⟨rfl, rfl⟩ | ⟨rfl, rfl⟩ | ⟨rfl, rfl⟩ | ⟨rfl, rfl⟩ |
        ⟨rfl, rfl⟩ | ⟨rfl, rfl⟩ | ⟨rfl, rfl⟩ <;> exact ⟨_, rfl⟩
    slice := fun _ => ⟨_, rfl⟩
    ref := by
      intro l m t
      simp only [SynTy.strip]
      unfold program
      split
      all_goals first
        | exact ⟨_, rfl⟩
        | (rename_i h; cases h)
    ptr := fun _ => ⟨_, rfl⟩
    never := ⟨_, rfl⟩
    paren := fun _ => by simp only [SynTy.strip]
    group := fun _ => by simp only [SynTy.strip]
    tuple := fun _ => rfl
    array := fun _ _ => rfl }

/-- Arguments of a name. -/
inductive ArgTys where
  | none
  | one (t : Ty)
  | two (t u : Ty)
  | cow (t : Ty)
  | other

/-- The `Ty` of a name with arguments. -/
def nameTy (user : String → Ty) (s : String) (args : ArgTys) : Ty :=
  match primNames.lookup s with
  | some p => .prim p
  | .none =>
    if s = "usize" ∨ s = "isize" then .usize
    else if s ∈ knownNames ∨ s = "Cow" then
      match args with
      | .one t => if s = "Vec" then .seq .vec t else if s = "HashSet" ∨ s = "BTreeSet" then .set t else .str .owned
      | .two t u => if s = "HashMap" ∨ s = "BTreeMap" then .map t u else .str .owned
      | .cow t => match t with | .seq k t => .seq k t | .set t => .set t | .map t u => .map t u | .str k => .str k | _ => .str .owned
      | _ => .str .owned
    else if s = "Option" ∨ s = "Result" then
      match args with
      | .one t => .option t
      | _ => .option .unit
    else match args with
      | .one t => if s = "Box" then .box t else if s = "Range" then .range t else .unit
      | .none => user s
      | _ => .unit

mutual
/-- `Ty`s of types, given those of the user's names. -/
def tyOf (user : String → Ty) : SynTy → Ty
  | .paren t | .group t => tyOf user t
  | .path false false (.cons s args .nil) => nameTy user s (argsOf user args)
  | .tuple ts => tupleOf user ts
  | .array t (some n) => .array n (tyOf user t)
  | .ref _ false (.slice t) => .seq .ref (tyOf user t)
  | .ref _ false t => if t.isBare "str" then .str .ref else .unit
  | _ => .unit
/-- Arguments. -/
def argsOf (user : String → Ty) : SynArgs → ArgTys
  | .none => .none
  | .angle false (.ty t .nil) => .one (tyOf user t)
  | .angle false (.ty t (.ty u .nil)) => .two (tyOf user t) (tyOf user u)
  | .angle false (.lifetime _ (.ty (.slice t) .nil)) => .cow (.seq .cow (tyOf user t))
  | .angle false (.lifetime _ (.ty t .nil)) => .cow (if t.isBare "str" then .str .cow else tyOf user t)
  | _ => .other
/-- A tuple. -/
def tupleOf (user : String → Ty) : SynTys → Ty
  | .nil => .unit
  | .cons t ts => .pair (tyOf user t) (tupleOf user ts)
end

/-- The same for types without parentheses around them. -/
def topOf (user : String → Ty) : SynTy → Ty
  | .paren _ | .group _ => .unit
  | t => tyOf user t

/-- The declared types, unrolled. -/
def unrolled (decls : List (String × Decl)) : Nat → String → Ty
  | 0, _ => .unit
  | d + 1, s =>
    match decls.lookup s with
    | some (.struct fs) =>
      match synFields (fun t => topOf (unrolled decls d) t.strip) false fs with
      | .ok F => .struct ⟨.rust, 0, 0, [], false⟩ F
      | .error _ => .unit
    | some (.enum g p _) => .enum ⟨g, p, 0⟩ .nil
    | none => .unit

theorem topOf_name (user : String → Ty) (s : String) (args : SynArgs) :
    topOf user (.path false false (.cons s args .nil)) = nameTy user s (argsOf user args) := by
  show tyOf user _ = _
  rw [tyOf]

theorem topOf_strip (user : String → Ty) : ∀ t : SynTy, topOf user t.strip = tyOf user t
  | .paren t => by simp only [SynTy.strip, tyOf]; exact topOf_strip user t
  | .group t => by simp only [SynTy.strip, tyOf]; exact topOf_strip user t
  | .path .. | .slice _ | .tuple _ | .ref .. | .ptr _ | .array .. | .never | .other => rfl

theorem tupleOf_eq (user : String → Ty) : ∀ ts : SynTys,
    tupleOf user ts = (ts.types SynTy.strip).foldr (fun u r => .pair (topOf user u) r) .unit
  | .nil => by simp [tupleOf, SynTys.types]
  | .cons t ts => by simp [tupleOf, SynTys.types, topOf_strip, tupleOf_eq user ts]

theorem tyOf_std (user : String → Ty) : StdScope fun s => topOf user s.strip := by
  simp only [topOf_strip]
  exact {
    prim := by
      intro s p args h
      show tyOf user _ = _
      rw [tyOf]
      simp only [primNames, List.mem_cons, Prod.mk.injEq, List.not_mem_nil, or_false] at h
      rcases h with ⟨rfl, rfl⟩ | ⟨rfl, rfl⟩ | ⟨rfl, rfl⟩ | ⟨rfl, rfl⟩ | ⟨rfl, rfl⟩ | ⟨rfl, rfl⟩ | ⟨rfl, rfl⟩ | ⟨rfl, rfl⟩ | ⟨rfl, rfl⟩ |
        ⟨rfl, rfl⟩ | ⟨rfl, rfl⟩ | ⟨rfl, rfl⟩ <;> rfl
    string := by simp [SynTy.name, tyOf, argsOf, nameTy, primNames, List.lookup, knownNames]
    vec := by intro t; simp [SynTy.app, SynGens.one, tyOf, argsOf, nameTy, primNames, List.lookup, knownNames]
    hashSet := by intro t; simp [SynTy.app, SynGens.one, tyOf, argsOf, nameTy, primNames, List.lookup, knownNames]
    btreeSet := by intro t; simp [SynTy.app, SynGens.one, tyOf, argsOf, nameTy, primNames, List.lookup, knownNames]
    hashMap := by intro t u; simp [SynTy.app, SynGens.two, tyOf, argsOf, nameTy, primNames, List.lookup, knownNames]
    btreeMap := by intro t u; simp [SynTy.app, SynGens.two, tyOf, argsOf, nameTy, primNames, List.lookup, knownNames]
    cowSlice := by intro l t; simp [SynTy.app, SynGens.one, tyOf, argsOf, nameTy, primNames, List.lookup, knownNames]
    cowStr := by
      intro l t h
      have hs : ∀ u, t ≠ .slice u := by rintro u rfl; simp [SynTy.isBare] at h
      have ha : argsOf user (.angle false (.lifetime l (.ty t .nil))) = .cow (.str .cow) := by
        unfold argsOf
        split <;> simp_all
      simp [SynTy.app, SynGens.one, tyOf, ha, nameTy, primNames, List.lookup, knownNames]
    cowSet := by
      intro l t
      simp [SynTy.app, SynGens.one, tyOf, argsOf, nameTy, primNames, List.lookup, knownNames, SynTy.isBare]
    cowMap := by
      intro l t u
      simp [SynTy.app, SynGens.one, SynGens.two, tyOf, argsOf, nameTy, primNames, List.lookup, knownNames, SynTy.isBare]
    option := by intro t; simp [SynTy.app, SynGens.one, tyOf, argsOf, nameTy, primNames, List.lookup, knownNames]
    array := by intro t n; simp [tyOf]
    refStr := by
      intro l t h
      have : ∀ u, t ≠ .slice u := by rintro u rfl; simp [SynTy.isBare] at h
      show tyOf user _ = _
      unfold tyOf
      split <;> simp_all
    refSlice := by intro l t; simp [tyOf] }

theorem program_user {decls : List (String × Decl)} {t : SynTy} {e : Decl} {ρ : SynTy → SynTy} (h : program decls t = .user e ρ) :
    ∃ s, t = .name s ∧ ρ = SynTy.strip ∧ decls.lookup s = some e ∧ ∀ user, topOf user t = user s := by
  unfold program at h
  repeat' split at h
  all_goals try (cases h; done)
  rename_i s _ hp h1 h2 h3 _ _ d hl
  simp only [Shape.user.injEq] at h
  obtain ⟨rfl, rfl⟩ := h
  refine ⟨s, rfl, rfl, hl, fun user => ?_⟩
  rw [topOf_name]
  unfold nameTy
  rw [hp]
  dsimp only
  rw [if_neg h1, if_neg h2, if_neg h3, argsOf]

/-- A program whose declarations are accepted is unrolled. -/
theorem program_unrolls (T : Target) {decls : List (String × Decl)}
    (h : ∀ s fs, decls.lookup s = some (.struct fs) → ∀ d, ∃ F, synFields (fun t => topOf (unrolled decls d) t.strip) false fs = .ok F) :
    Unrolls T (program decls) fun d t => topOf (unrolled decls d) t where
  const := by
    intro t k ht d
    unfold program at ht
    split at ht
    · rename_i s args
      show minBytes T (topOf _ _) = k
      rw [topOf_name]
      unfold nameTy
      split at ht
      · rename_i p hp
        simp only [Shape.const.injEq] at ht
        simp [minBytes, ht]
      · split at ht
        · rename_i h1; rw [if_pos h1]; simp only [Shape.const.injEq] at ht; simp [minBytes, ht]
        rename_i h1; rw [if_neg h1]
        split at ht
        · rename_i h2; rw [if_pos h2]; simp only [Shape.const.injEq] at ht; subst ht
          repeat' split
          all_goals simp [minBytes]
        rename_i h2; rw [if_neg h2]
        split at ht
        · rename_i h3; rw [if_pos h3]; simp only [Shape.const.injEq] at ht; subst ht; split <;> simp [minBytes]
        rename_i h3; rw [if_neg h3]
        split at ht
        · simp only [argsOf]
          split at ht
          · simp at ht
          · rename_i hb; rw [if_neg hb]
            split at ht
            · simp at ht
            · rename_i hr; rw [if_neg hr]; simp only [Shape.const.injEq] at ht; simp [minBytes, ht]
        · simp only [argsOf]
          split at ht
          · simp at ht
          · rename_i hl
            simp only [Shape.const.injEq] at ht
            cases d <;> simp [unrolled, hl, minBytes, ht]
        · rename_i hn1 hn2
          simp only [Shape.const.injEq] at ht
          subst ht
          split
          · rename_i ha
            exfalso
            unfold argsOf at ha
            split at ha <;> simp at ha
            exact hn1 _ rfl
          · rename_i ha
            exfalso
            unfold argsOf at ha
            split at ha <;> simp at ha
            exact hn2 rfl
          · simp [minBytes]
    · simp at ht
    · simp at ht
    · simp only [Shape.const.injEq] at ht
      simp [topOf, tyOf, minBytes, ht]
    · rename_i hs
      simp only [Shape.const.injEq] at ht
      subst ht
      show minBytes T (tyOf _ _) = _
      unfold tyOf
      split <;> (try simp_all)
      split <;> simp [minBytes]
    · simp only [Shape.const.injEq] at ht
      subst ht
      unfold topOf
      split
      · simp [minBytes]
      · simp [minBytes]
      unfold tyOf
      split <;> (try simp_all [minBytes])
  same := by
    intro t u ht d
    unfold program at ht
    repeat' split at ht
    all_goals try (cases ht; done)
    rename_i hp h1 h2 h3 _ t hb
    simp only [Shape.same.injEq] at ht
    subst ht hb
    show topOf _ _ = .box (topOf _ _)
    rw [topOf_name, topOf_strip]
    simp [argsOf, nameTy, primNames, List.lookup, knownNames]
  times := by
    intro t u n ht d
    unfold program at ht
    repeat' split at ht
    all_goals try (cases ht; done)
    · rename_i hp h1 h2 h3 _ t _ hb
      simp only [Shape.times.injEq] at ht
      obtain ⟨rfl, rfl⟩ := ht
      subst hb
      show minBytes T (topOf _ _) = minBytes T (topOf _ _) * 2
      rw [topOf_name, topOf_strip]
      simp [argsOf, nameTy, primNames, List.lookup, knownNames, minBytes]
    · rename_i t m
      simp only [Shape.times.injEq] at ht
      obtain ⟨rfl, rfl⟩ := ht
      show minBytes T (tyOf _ _) = minBytes T (topOf _ _) * m
      rw [topOf_strip, tyOf, minBytes]
  tuple := by
    intro t us ht d
    unfold program at ht
    repeat' split at ht
    all_goals try (cases ht; done)
    rename_i ts
    simp only [Shape.tuple.injEq] at ht
    subst ht
    show tyOf _ _ = _
    rw [tyOf, tupleOf_eq]
  scope := by
    intro t e ρ ht d
    obtain ⟨s, rfl, rfl, _⟩ := program_user ht
    exact tyOf_std _
  struct := by
    intro t fs ρ ht d
    obtain ⟨s, rfl, rfl, hl, hn⟩ := program_user ht
    obtain ⟨F, hF⟩ := h s fs hl d
    refine ⟨⟨.rust, 0, 0, [], false⟩, F, ?_, hF⟩
    show topOf _ _ = _
    rw [hn, unrolled, hl]
    simp [hF]
  enum := by
    intro t g p vs ρ ht d
    obtain ⟨s, rfl, rfl, hl, hn⟩ := program_user ht
    refine ⟨⟨g, p, 0⟩, .nil, ?_, rfl, rfl⟩
    rw [hn, unrolled, hl]

/-- Case: `struct Node { value: u32, next: Option<Box<Node>> }`, and
`enum Tree { Empty, Leaf(u32), Branch(Box<Tree>, Box<Tree>) }`, and types which refer to each other. -/
def Samples.decls : List (String × Decl) :=
  [("Node", .struct [⟨[], .name "u32", .unit⟩, ⟨[], .app "Option" (.one (.app "Box" (.one (.name "Node")))), .unit⟩]),
    ("Tree", .enum .u32 false [(true, []), (false, [⟨[], .name "u32", .unit⟩]),
      (false, [⟨[], .app "Box" (.one (.name "Tree")), .unit⟩, ⟨[], .app "Box" (.one (.name "Tree")), .unit⟩])]),
    ("Dir", .struct [⟨[.lengthType .u8], .name "String", .unit⟩, ⟨[], .app "Box" (.one (.name "Entry")), .unit⟩]),
    ("Entry", .struct [⟨[], .tuple (.cons (.name "Node") (.cons (.name "Tree") .nil)), .unit⟩, ⟨[], .app "Vec" (.one (.name "Dir")), .unit⟩,
      ⟨[], .array (.name "Tree") (some 3), .unit⟩])]

open Samples in
example : ∃ k, MinIs (program decls) (.name "Dir") k := by
  refine C58_returns_partial (program_std _) ?_
  have hu : HasValue false (program decls) (.name "u32") := .const rfl
  have hn : HasValue false (program decls) (.name "Node") := by
    refine .struct rfl ?_
    intro f hf
    simp only [List.mem_cons, List.not_mem_nil, or_false] at hf
    rcases hf with rfl | rfl
    · exact hu
    · exact .const rfl
  have ht : HasValue false (program decls) (.name "Tree") := .enum rfl List.mem_cons_self (by intro f hf; simp at hf)
  have he : HasValue false (program decls) (.name "Entry") := by
    refine .struct rfl ?_
    intro f hf
    simp only [List.mem_cons, List.not_mem_nil, or_false] at hf
    rcases hf with rfl | rfl | rfl
    · refine .tuple rfl ?_
      intro u hu
      simp only [SynTys.types, List.mem_cons, List.not_mem_nil, or_false] at hu
      rcases hu with rfl | rfl
      · exact hn
      · exact ht
    · exact .const rfl
    · exact .times rfl ht
  refine .struct rfl ?_
  intro f hf
  simp only [List.mem_cons, List.not_mem_nil, or_false] at hf
  rcases hf with rfl | rfl
  · exact .const rfl
  · exact .same rfl he

/-- The minimum of `Dir`: 1 for the name, and for the `Entry` 5 + 4 in the tuple, 4 and 3 · 4. -/
example : MinIs (program Samples.decls) (.name "Dir") 26 := ⟨8, fun _ hm => minCalls_mono (n := 8) (by decide) hm⟩

open Samples in
/-- The same from the types of the model, unrolled to any sufficient depth. -/
example : ∃ n, ∀ d, n ≤ d → minBytes x64 (topOf (unrolled decls d) (.name "Dir")) = 26 := by
  refine C58_value (program_std decls) (program_unrolls x64 ?_) ⟨8, fun _ hm => minCalls_mono (n := 8) (by decide) hm⟩
  intro s fs hl d
  simp only [decls, List.lookup] at hl
  repeat' split at hl
  all_goals cases hl
  all_goals exact ⟨_, rfl⟩

/-- `C58_enum` for `Tree`. -/
example : MinIs (program Samples.decls) (.name "Tree") LenTy.u32.minSize := C58_enum (program_std _) rfl

/-- **C58** fails for `struct A { x: [Box<A>; 0] }`: it has a value (`A { x: [] }`, written as no bytes), but `minimum_bytes_needed` calls
itself: reading it from any input is a stack overflow. -/
theorem C58_false : ∃ (decls : List (String × Decl)) (t : SynTy), HasValue true (program decls) t ∧ ¬ ∃ k, MinIs (program decls) t k := by
  refine ⟨[("A", .struct [⟨[], .array (.app "Box" (.one (.name "A"))) (some 0), .unit⟩])], .name "A", ?_, ?_⟩
  · refine .struct rfl ?_
    intro f hf
    simp only [List.mem_cons, List.not_mem_nil, or_false] at hf
    subst hf
    exact .zero rfl rfl
  · rintro ⟨k, n, h⟩
    have key : ∀ m, minCalls (program [("A", .struct [⟨[], .array (.app "Box" (.one (.name "A"))) (some 0), .unit⟩])]) m (.name "A") = none ∧
        minCalls (program [("A", .struct [⟨[], .array (.app "Box" (.one (.name "A"))) (some 0), .unit⟩])]) m (.app "Box" (.one (.name "A"))) = none := by
      intro m
      induction m with
      | zero => exact ⟨rfl, rfl⟩
      | succ m ih =>
        constructor
        · have : minCalls (program [("A", .struct [⟨[], .array (.app "Box" (.one (.name "A"))) (some 0), .unit⟩])]) (m + 1) (.name "A") =
            sumMin (fieldMin fun s => minCalls (program [("A", .struct [⟨[], .array (.app "Box" (.one (.name "A"))) (some 0), .unit⟩])]) m s.strip)
              [⟨[], .array (.app "Box" (.one (.name "A"))) (some 0), .unit⟩] := rfl
          rw [this]
          have h2 : fieldMin (fun s => minCalls (program [("A", .struct [⟨[], .array (.app "Box" (.one (.name "A"))) (some 0), .unit⟩])]) m s.strip)
              ⟨[], .array (.app "Box" (.one (.name "A"))) (some 0), .unit⟩ = Option.map (· + 0) (Option.map (· * 0)
                (minCalls (program [("A", .struct [⟨[], .array (.app "Box" (.one (.name "A"))) (some 0), .unit⟩])]) m (.app "Box" (.one (.name "A"))))) := rfl
          rw [sumMin, h2, ih.2]
          rfl
        · exact ih.1
    have := h n (Nat.le_refl _)
    rw [(key n).1] at this
    cases this

/-- The unit test of `is_guaranteed_non_recursive` (speedy-derive/src/lib.rs:218-239). -/
example : nonRecursive (.name "String") = true ∧ nonRecursive (.name "u8") = true ∧ nonRecursive (.tuple .nil) = true ∧
    nonRecursive (.ptr (.name "u8")) = true ∧ nonRecursive (.array (.name "u8") (some 2)) = true ∧
    nonRecursive (.tuple (.cons (.name "u8") (.cons (.name "u16") .nil))) = true ∧ nonRecursive .never = true ∧
    nonRecursive (.app "Vec" (.one (.name "u8"))) = true ∧ nonRecursive (.name "T") = false ∧
    nonRecursive (.app "Vec" (.one (.name "T"))) = false := by decide

/-! ## Cases -/

section Cases
open Samples

example (k : Nat) (h : MinIs (program Samples.decls) (.name "Dir") k) : k = 26 :=
  C58_result h ⟨8, fun _ hm => minCalls_mono (n := 8) (by decide) hm⟩

end Cases

end Verif
