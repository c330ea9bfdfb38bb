import Verif.Connect
import Verif.Total

/-!
# Structs field by field

Splitting the fields of a struct into those before some field and the rest, for
reading (`decodeFields_run`, `parseFields_append`) and writing (`wireFields_append`).
-/

namespace Verif

/-- Fields followed by other fields. -/
def Fields.append : Fields → Fields → Fields
  | .nil, gs => gs
  | .cons a t fs, gs => .cons a t (fs.append gs)

/-- The values of fields followed by those of other fields. -/
def Fields.join : Fields → Val → Val → Val
  | .cons _ _ fs, .pair v rest, w => .pair v (fs.join rest w)
  | _, _, w => w

/-- The values of the fields which are not skipped. -/
def Fields.kept : Fields → Val → List Val
  | .cons a _ fs, .pair v rest => if a.skip then fs.kept rest else v :: fs.kept rest
  | _, _ => []

/-- All fields satisfy a condition. -/
def Fields.all (p : Attrs → Ty → Bool) : Fields → Bool
  | .nil => true
  | .cons a t fs => p a t && fs.all p

/-- What a successful run of a sequence did. -/
theorem M.run_bind_inv {α β σ : Type} {R : ReaderOps σ} {p : M α} {f : α → M β} {s s'' : σ} {b : β}
    (h : (M.bind p f).run R s = (.ok b, s'')) :
    ∃ a s', p.run R s = (.ok a, s') ∧ (f a).run R s' = (.ok b, s'') := by
  rcases hp : p.run R s with ⟨r, s'⟩
  cases r with
  | error er => rw [M.run_bind_err hp] at h; simp at h
  | ok a => rw [M.run_bind_ok hp] at h; exact ⟨a, s', rfl, h⟩

theorem M.run_map {α β σ : Type} {R : ReaderOps σ} {p : M α} {f : α → β} {s : σ} :
    (M.map f p).run R s = ((p.run R s).1.map f, (p.run R s).2) := by
  unfold M.map M.bind
  rw [Prog.run_bind]
  rcases p.run R s with ⟨_ | _, _⟩ <;> rfl

theorem M.run_map_ok {α β σ : Type} {R : ReaderOps σ} {p : M α} {f : α → β} {s s' : σ} {a : α}
    (h : p.run R s = (.ok a, s')) : (M.map f p).run R s = (.ok (f a), s') := M.run_bind_ok h

theorem M.run_map_err {α β σ : Type} {R : ReaderOps σ} {p : M α} {f : α → β} {s s' : σ} {er : Err}
    (h : p.run R s = (.error er, s')) : (M.map f p).run R s = (.error er, s') := M.run_bind_err h

theorem M.run_map_inv {α β σ : Type} {R : ReaderOps σ} {p : M α} {f : α → β} {s s' : σ} {b : β}
    (h : (M.map f p).run R s = (.ok b, s')) : ∃ a, p.run R s = (.ok a, s') ∧ f a = b := by
  obtain ⟨a, s1, h1, h2⟩ := M.run_bind_inv h
  simp only [M.pure, Prog.run, Prod.mk.injEq, Except.ok.injEq] at h2
  exact ⟨a, by rw [h1, h2.2], h2.1⟩

/-- The code for one field (before looking at `skip`). -/
def fieldBody (T : Target) (e : Endian) (a : Attrs) (t : Ty) (prev : List Val) : M Val :=
  let body := if a.varint then M.map .num (readVarint T.toHost e) else decode T e t (a.cx T.toHost prev)
  let body := if a.pre.isEmpty then body else M.bind (readConstant T.toHost e (u8Elem T e) a.pre) fun _ => body
  if a.defaultOnEof then onEof body a.dflt else body

theorem decodeFields_cons (T : Target) (e : Endian) (a : Attrs) (t : Ty) (fs : Fields) (prev : List Val) :
    decodeFields T e (.cons a t fs) prev =
      if a.skip then M.map (.pair a.dflt) (decodeFields T e fs prev)
      else M.bind (fieldBody T e a t prev) fun v => M.map (.pair v) (decodeFields T e fs (prev ++ [v])) := by
  simp only [decodeFields, fieldBody]

section
variable {T : Target} {e : Endian} {σ : Type} {R : ReaderOps σ}

/-- Reading fields and then the others, when the first ones succeed. -/
theorem decodeFields_run_ok (gs : Fields) : ∀ (fs : Fields) (prev : List Val) {s s' : σ} {v : Val},
    (decodeFields T e fs prev).run R s = (.ok v, s') →
    (decodeFields T e (fs.append gs) prev).run R s =
      (M.map (fs.join v) (decodeFields T e gs (prev ++ fs.kept v))).run R s'
  | .nil, prev, s, s', v, h => by
    simp only [decodeFields, M.pure, Prog.run, Prod.mk.injEq, Except.ok.injEq] at h
    obtain ⟨rfl, rfl⟩ := h
    simp only [Fields.append, Fields.kept, List.append_nil]
    rw [M.run_map]
    rcases (decodeFields T e gs prev).run R s with ⟨_ | _, _⟩ <;> rfl
  | .cons a t fs, prev, s, s', v, h => by
    rw [decodeFields_cons] at h
    rw [Fields.append, decodeFields_cons]
    by_cases hsk : a.skip = true
    · rw [if_pos hsk] at h ⊢
      obtain ⟨u, h1, h2⟩ := M.run_map_inv h
      subst h2
      have := decodeFields_run_ok gs fs prev h1
      simp only [Fields.kept, hsk, if_true]
      rw [M.run_map, this, M.run_map, M.run_map]
      rcases (decodeFields T e gs (prev ++ fs.kept u)).run R s' with ⟨_ | _, _⟩ <;> rfl
    · rw [if_neg hsk] at h ⊢
      obtain ⟨x, s1, h1, h2⟩ := M.run_bind_inv h
      obtain ⟨u, h3, h4⟩ := M.run_map_inv h2
      subst h4
      rw [M.run_bind_ok h1]
      have := decodeFields_run_ok gs fs (prev ++ [x]) h3
      simp only [Fields.kept, hsk, Bool.false_eq_true, if_false]
      rw [List.append_assoc] at this
      simp only [List.cons_append, List.nil_append] at this
      rw [M.run_map, this, M.run_map, M.run_map]
      rcases (decodeFields T e gs (prev ++ x :: fs.kept u)).run R s' with ⟨_ | _, _⟩ <;> rfl

/-- If the first fields fail, so does the whole. -/
theorem decodeFields_run_err (gs : Fields) : ∀ (fs : Fields) (prev : List Val) {s s' : σ} {er : Err},
    (decodeFields T e fs prev).run R s = (.error er, s') →
    (decodeFields T e (fs.append gs) prev).run R s = (.error er, s')
  | .nil, prev, s, s', er, h => by simp [decodeFields, M.pure, Prog.run] at h
  | .cons a t fs, prev, s, s', er, h => by
    rw [decodeFields_cons] at h
    rw [Fields.append, decodeFields_cons]
    by_cases hsk : a.skip = true
    · rw [if_pos hsk] at h ⊢
      rcases hr : (decodeFields T e fs prev).run R s with ⟨_ | _, s1⟩
      · rw [M.run_map_err hr] at h
        rw [M.run_map_err (decodeFields_run_err gs fs prev hr)]
        exact h
      · rw [M.run_map_ok hr] at h; simp at h
    · rw [if_neg hsk] at h ⊢
      rcases hb : (fieldBody T e a t prev).run R s with ⟨_ | x, s1⟩
      · rw [M.run_bind_err hb] at h ⊢; exact h
      · rw [M.run_bind_ok hb] at h ⊢
        rcases hr : (decodeFields T e fs (prev ++ [x])).run R s1 with ⟨_ | _, s2⟩
        · rw [M.run_map_err hr] at h
          rw [M.run_map_err (decodeFields_run_err gs fs _ hr)]
          exact h
        · rw [M.run_map_ok hr] at h; simp at h

/-- A successful reading of all fields reads the first ones successfully. -/
theorem decodeFields_run_inv (gs fs : Fields) (prev : List Val) {s s' : σ} {v : Val}
    (h : (decodeFields T e (fs.append gs) prev).run R s = (.ok v, s')) :
    ∃ u s1 w, (decodeFields T e fs prev).run R s = (.ok u, s1) ∧
      (decodeFields T e gs (prev ++ fs.kept u)).run R s1 = (.ok w, s') ∧ v = fs.join u w := by
  rcases hr : (decodeFields T e fs prev).run R s with ⟨er | u, s1⟩
  · rw [decodeFields_run_err gs fs prev hr] at h; simp at h
  · rw [decodeFields_run_ok gs fs prev hr] at h
    obtain ⟨w, h1, h2⟩ := M.run_map_inv h
    exact ⟨u, s1, w, rfl, h1, h2.symm⟩

end

/-! ## Parsing -/

theorem parseFields_append {T : Target} {e : Endian} (gs : Fields) : ∀ (fs : Fields) (prev : List Val)
    {bs rest : Bytes} {v : Val}, parseFields T e fs prev bs = .ok v rest →
    parseFields T e (fs.append gs) prev bs = P.map (fs.join v) (parseFields T e gs (prev ++ fs.kept v)) rest
  | .nil, prev, bs, rest, v, h => by
    simp only [parseFields, P.pure, PRes.ok.injEq] at h
    obtain ⟨rfl, rfl⟩ := h
    simp only [Fields.append, Fields.kept, List.append_nil]
    unfold P.map P.bind
    cases parseFields T e gs prev bs <;> rfl
  | .cons a t fs, prev, bs, rest, v, h => by
    simp only [parseFields] at h
    simp only [Fields.append, parseFields]
    by_cases hsk : a.skip = true
    · rw [if_pos hsk] at h ⊢
      obtain ⟨u, r, h1, h2⟩ := pBind_ok (show P.bind _ _ _ = _ from h)
      simp only [P.pure, PRes.ok.injEq] at h2
      obtain ⟨rfl, rfl⟩ := h2
      have := parseFields_append gs fs prev h1
      simp only [Fields.kept, hsk, if_true]
      unfold P.map P.bind at this ⊢
      rw [this]
      cases parseFields T e gs (prev ++ fs.kept u) r <;> rfl
    · rw [if_neg hsk] at h ⊢
      obtain ⟨x, r, h1, h2⟩ := pBind_ok h
      obtain ⟨u, r', h3, h4⟩ := pBind_ok (show P.bind _ _ _ = _ from h2)
      simp only [P.pure, PRes.ok.injEq] at h4
      obtain ⟨rfl, rfl⟩ := h4
      rw [P.bind_ok h1]
      have := parseFields_append gs fs (prev ++ [x]) h3
      simp only [Fields.kept, hsk, Bool.false_eq_true, if_false]
      rw [List.append_assoc] at this
      simp only [List.cons_append, List.nil_append] at this
      unfold P.map P.bind at this ⊢
      rw [this]
      cases parseFields T e gs (prev ++ x :: fs.kept u) r' <;> rfl

/-! ## Writing -/

theorem wireFields_append {T : Target} (F : Fmt) (gs : Fields) (w : Val) : ∀ (fs : Fields) (prev : List Val) (v : Val),
    hasTyFields T fs v → wireFields F (fs.append gs) prev (fs.join v w) =
      cat (wireFields F fs prev v) (wireFields F gs (prev ++ fs.kept v) w)
  | .nil, prev, v, h => by
    cases v <;> simp only [hasTyFields] at h
    simp [Fields.append, Fields.join, Fields.kept, wireFields, cat_nil_left]
  | .cons a t fs, prev, v, h => by
    cases v <;> simp only [hasTyFields] at h
    simp only [Fields.append, Fields.join, Fields.kept, wireFields]
    by_cases hsk : a.skip = true
    · simp only [hsk, if_true]
      exact wireFields_append F gs w fs prev _ h.2
    · simp only [hsk, Bool.false_eq_true, if_false]
      rw [wireFields_append F gs w fs _ _ h.2, List.append_assoc, cat_assoc, cat_assoc, cat_assoc]
      rfl

theorem hasTyFields_join {T : Target} {gs : Fields} {w : Val} : ∀ {fs : Fields} {v : Val}, hasTyFields T fs v →
    (hasTyFields T (fs.append gs) (fs.join v w) ↔ hasTyFields T gs w)
  | .nil, v, h => Iff.rfl
  | .cons a t fs, v, h => by
    cases v <;> simp only [hasTyFields] at h
    simp only [Fields.append, Fields.join, hasTyFields, h.1, true_and]
    exact hasTyFields_join h.2

/-- Every value of a struct splits. -/
theorem hasTyFields_split {T : Target} {gs : Fields} : ∀ {fs : Fields} {v : Val}, hasTyFields T (fs.append gs) v →
    ∃ u w, v = fs.join u w ∧ hasTyFields T fs u ∧ hasTyFields T gs w
  | .nil, v, h => ⟨.unit, v, rfl, trivial, h⟩
  | .cons a t fs, v, h => by
    cases v <;> simp only [Fields.append, hasTyFields] at h
    obtain ⟨u, w, h1, h2, h3⟩ := hasTyFields_split h.2
    rename_i x rest
    exact ⟨.pair x u, w, by simp [Fields.join, h1], ⟨h.1, h2⟩, h3⟩

theorem declOkFields_append {gs : Fields} : ∀ {fs : Fields}, declOkFields (fs.append gs) = true →
    declOkFields fs = true ∧ declOkFields gs = true
  | .nil, h => ⟨rfl, h⟩
  | .cons a t fs, h => by
    simp only [Fields.append, declOkFields, Bool.and_eq_true] at h ⊢
    obtain ⟨h1, h2⟩ := declOkFields_append h.1.2
    refine ⟨⟨⟨h.1.1, h1⟩, ?_⟩, h2⟩
    have := h.2
    cases fs with
    | nil => split <;> simp_all
    | cons a' t' fs' =>
      simp only [Fields.append] at this
      split
      · rename_i h1 _; rw [h1] at this; simp at this
      · rfl

theorem layoutOkFields_append {T : Target} {gs : Fields} : ∀ {fs : Fields}, layoutOkFields T (fs.append gs) = true →
    layoutOkFields T fs = true ∧ layoutOkFields T gs = true
  | .nil, h => ⟨rfl, h⟩
  | .cons a t fs, h => by
    simp only [Fields.append, layoutOkFields, Bool.and_eq_true] at h ⊢
    obtain ⟨h1, h2⟩ := layoutOkFields_append h.2
    exact ⟨⟨h.1, h1⟩, h2⟩

theorem regularFields_append {T : Target} {e : Endian} {gs : Fields} : ∀ {fs : Fields},
    regularFields T e (fs.append gs) = true → regularFields T e fs = true ∧ regularFields T e gs = true
  | .nil, h => ⟨rfl, h⟩
  | .cons a t fs, h => by
    simp only [Fields.append, regularFields, Bool.and_eq_true] at h ⊢
    obtain ⟨h1, h2⟩ := regularFields_append h.2
    exact ⟨⟨h.1, h1⟩, h2⟩

theorem canonFields_append {T : Target} {F : Fmt} {gs : Fields} {w : Val} : ∀ {fs : Fields} {v : Val}, hasTyFields T fs v →
    canonFields F (fs.append gs) (fs.join v w) → canonFields F fs v ∧ canonFields F gs w
  | .nil, v, h, hc => ⟨trivial, hc⟩
  | .cons a t fs, v, h, hc => by
    cases v <;> simp only [hasTyFields] at h
    simp only [Fields.append, Fields.join, canonFields] at hc ⊢
    obtain ⟨h1, h2⟩ := canonFields_append h.2 hc.2
    exact ⟨⟨hc.1, h1⟩, h2⟩

end Verif
