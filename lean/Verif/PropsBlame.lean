import Verif.Blame
import Verif.PropsNames
import Verif.PropsReport
import Verif.PropsAttrs

/-!
# An error about a length names the field (C94)

`structPieces` and `runPieces` are the generated code with the name in the error (`Blame.lean`).
-/

namespace Verif.Gen

variable {T : Target} {e : Endian}

/-! ## Names are all that is added -/

theorem runPieces_append {σ : Type} (W : WriterOps σ) : ∀ (ps qs : List Piece) (s : σ), runPieces W (ps ++ qs) s =
    match runPieces W ps s with
    | (.ok _, s') => runPieces W qs s'
    | (.error er, s') => (.error er, s')
  | [], qs, s => rfl
  | .prog p :: ps, qs, s => by
    simp only [List.cons_append, runPieces]
    rcases p.run W s with ⟨_ | _, s'⟩
    · rfl
    · exact runPieces_append W ps qs s'
  | .check x b :: ps, qs, s => by
    simp only [List.cons_append, runPieces]
    split
    · exact runPieces_append W ps qs s
    · rfl

theorem forget_single {σ : Type} (W : WriterOps σ) (p : WProg) (s : σ) : forget (runPieces W [.prog p] s) = p.run W s := by
  simp only [runPieces]
  rcases p.run W s with ⟨_ | ⟨⟩, s'⟩ <;> rfl

/-- The steps are the statement. -/
theorem pieces_exec : ∀ (st : Stmt) (env : WEnv) (ps : List Piece), st.pieces T e env = some ps →
    ∃ p, st.exec T e env = some p ∧ ∀ {σ : Type} (W : WriterOps σ) (s : σ), forget (runPieces W ps s) = p.run W s
  | .nop, env, ps, h => by
    cases h
    exact ⟨_, rfl, fun W s => rfl⟩
  | .seq a b, env, ps, h => by
    simp only [Stmt.pieces] at h
    cases ha : a.pieces T e env with
    | none => simp [ha] at h
    | some pa =>
      cases hb : b.pieces T e env with
      | none => simp [ha, hb] at h
      | some pb =>
        simp only [ha, hb, Option.some.injEq] at h
        subst h
        obtain ⟨p, hp, kp⟩ := pieces_exec a env pa ha
        obtain ⟨q, hq, kq⟩ := pieces_exec b env pb hb
        refine ⟨p.seq q, by simp only [Stmt.exec, hp, hq], fun W s => ?_⟩
        rw [runPieces_append, wrun_seq, ← kp W s]
        rcases runPieces W pa s with ⟨_ | ⟨⟩, s'⟩
        · rfl
        · exact kq W s'
  | .sameLen x u, env, ps, h => by
    simp only [Stmt.pieces] at h
    cases hv : env.val x with
    | none => simp [hv] at h
    | some v =>
      cases hs : env.vals u.vars with
      | none => simp [hv, hs] at h
      | some vs =>
        simp only [hv, hs, Option.some.injEq] at h
        subst h
        simp only [Stmt.exec, hv, hs]
        refine ⟨_, rfl, fun W s => ?_⟩
        cases valLen v with
        | none => rfl
        | some n =>
          simp only [runPieces, beq_iff_eq]
          split <;> rfl
  | .ifSome x st, env, ps, h => by
    simp only [Stmt.pieces] at h
    simp only [Stmt.exec]
    split at h
    · rename_i hw
      rw [if_pos hw]
      split at h
      · rename_i v hv
        cases hs : st.pieces T e (env.set x (.val v)) with
        | none => simp [hs] at h
        | some qs =>
          simp only [hs, Option.map_some, Option.some.injEq] at h
          subst h
          obtain ⟨p, hp, kp⟩ := pieces_exec st _ qs hs
          refine ⟨.num 1 1 p, by simp only [hv, hp, Option.map_some], fun W s => ?_⟩
          simp only [runPieces, WProg.run, WProg.ok]
          rcases W.num 1 1 s with ⟨_ | _, s'⟩
          · rfl
          · exact kp W s'
      · rename_i hv
        cases h
        exact ⟨_, by simp only [hv], fun W s => forget_single W _ s⟩
      · rename_i v hn h0 hv
        cases h
        exact ⟨.fail .illTyped, by simp only [hv], fun W s => forget_single W _ s⟩
      · cases h
    · cases h
  | .writeLen lt x, env, ps, h | .contents t x, env, ps, h | .value t x, env, ps, h | .varint x, env, ps, h | .constant bs, env, ps, h => by
    simp only [Stmt.pieces, Option.map_eq_some_iff] at h
    obtain ⟨p, hp, rfl⟩ := h
    exact ⟨p, hp, fun W s => forget_single W p s⟩

/-- Every statement which compiles has steps. -/
theorem exec_pieces : ∀ (st : Stmt) (env : WEnv) (p : WProg), st.exec T e env = some p → ∃ ps, st.pieces T e env = some ps
  | .nop, env, p, h => ⟨_, rfl⟩
  | .seq a b, env, p, h => by
    simp only [Stmt.exec] at h
    cases ha : a.exec T e env with
    | none => simp [ha] at h
    | some pa =>
      cases hb : b.exec T e env with
      | none => simp [ha, hb] at h
      | some pb =>
        obtain ⟨qa, ka⟩ := exec_pieces a env pa ha
        obtain ⟨qb, kb⟩ := exec_pieces b env pb hb
        exact ⟨qa ++ qb, by simp only [Stmt.pieces, ka, kb]⟩
  | .sameLen x u, env, p, h => by
    simp only [Stmt.exec] at h
    simp only [Stmt.pieces]
    cases hv : env.val x with
    | none => simp [hv] at h
    | some v =>
      cases hs : env.vals u.vars with
      | none => simp [hv, hs] at h
      | some vs => exact ⟨_, rfl⟩
  | .ifSome x st, env, p, h => by
    simp only [Stmt.exec] at h
    simp only [Stmt.pieces]
    split at h
    · rename_i hw
      rw [if_pos hw]
      split at h
      · rename_i v hv
        simp only [Option.map_eq_some_iff] at h
        obtain ⟨q, hq, _⟩ := h
        obtain ⟨qs, hqs⟩ := exec_pieces st _ q hq
        exact ⟨_, by simp only [hv, hqs, Option.map_some]; rfl⟩
      · rename_i hv
        exact ⟨_, by simp only [hv]; rfl⟩
      · rename_i v hn h0 hv
        exact ⟨_, by simp only [hv]; rfl⟩
      · cases h
    · cases h
  | .writeLen lt x, env, p, h | .contents t x, env, p, h | .value t x, env, p, h | .varint x, env, p, h | .constant bs, env, p, h => by
    simp only [Stmt.pieces, h]
    exact ⟨_, rfl⟩

/-! ## Checks -/

/-- A named error comes from a check which failed, and all before it succeeded. -/
theorem run_named {σ : Type} {W : WriterOps σ} {x : Ident} {er : Err} : ∀ {ps : List Piece} {s s' : σ},
    runPieces W ps s = (.error (er, some x), s') → er = .lengthMismatch ∧ .check x false ∈ ps
  | [], s, s', h => by cases h
  | .prog p :: ps, s, s', h => by
    simp only [runPieces] at h
    rcases hp : p.run W s with ⟨_ | _, s1⟩
    · rw [hp] at h; cases h
    · rw [hp] at h
      obtain ⟨h1, h2⟩ := run_named h
      exact ⟨h1, List.mem_cons_of_mem _ h2⟩
  | .check y b :: ps, s, s', h => by
    simp only [runPieces] at h
    split at h
    · obtain ⟨h1, h2⟩ := run_named h
      exact ⟨h1, List.mem_cons_of_mem _ h2⟩
    · rename_i hb
      simp only [Prod.mk.injEq, Except.error.injEq, Option.some.injEq] at h
      obtain ⟨⟨rfl, rfl⟩, _⟩ := h
      exact ⟨rfl, by simp [Bool.eq_false_iff.mpr hb]⟩

/-- If there is no error all checks succeed. -/
theorem run_ok {σ : Type} {W : WriterOps σ} {x : Ident} {b : Bool} : ∀ {ps : List Piece} {s s' : σ},
    runPieces W ps s = (.ok (), s') → .check x b ∈ ps → b = true
  | [], s, s', _, hm => by cases hm
  | .prog p :: ps, s, s', h, hm => by
    simp only [runPieces] at h
    rcases hp : p.run W s with ⟨_ | _, s1⟩
    · rw [hp] at h; cases h
    · rw [hp] at h
      rcases List.mem_cons.mp hm with hm | hm
      · cases hm
      · exact run_ok h hm
  | .check y c :: ps, s, s', h, hm => by
    simp only [runPieces] at h
    split at h
    · rename_i hc
      rcases List.mem_cons.mp hm with hm | hm
      · cases hm; exact hc
      · exact run_ok h hm
    · cases h

theorem run_ill {σ : Type} {W : WriterOps σ} : ∀ {ps : List Piece} {s s' : σ}, runPieces W ps s = (.ok (), s') → .prog (.fail .illTyped) ∉ ps
  | [], _, _, _, hm => by cases hm
  | .prog p :: ps, s, s', h, hm => by
    simp only [runPieces] at h
    rcases List.mem_cons.mp hm with hm | hm
    · cases hm
      simp only [WProg.fail, WProg.run] at h
      cases h
    · rcases hp : p.run W s with ⟨_ | _, s1⟩
      · rw [hp] at h; cases h
      · rw [hp] at h
        exact run_ill h hm
  | .check y c :: ps, s, s', h, hm => by
    simp only [runPieces] at h
    rcases List.mem_cons.mp hm with hm | hm
    · cases hm
    · split at h
      · exact run_ill h hm
      · cases h

/-- The length of the field is not what its attribute says. -/
def Differs (env : WEnv) (d : FieldD) : Prop :=
  ∃ u v vs, d.len = some (.expr u) ∧ env.val d.name = some v ∧ env.vals u.vars = some vs ∧ valLen v ≠ some (u.value vs)

/-- A check which may be among the steps of a field. -/
def CheckOf (env : WEnv) (d : FieldD) (x : Ident) (b : Bool) : Prop :=
  x = d.name ∧ ∃ u v vs n, d.len = some (.expr u) ∧ env.val d.name = some v ∧ env.vals u.vars = some vs ∧ valLen v = some n ∧ b = (n == u.value vs)

theorem checks_length {d : FieldD} {env : WEnv} {ps : List Piece} (h : (writeLengthBody d).pieces T e env = some ps) {x : Ident} {b : Bool}
    (hm : .check x b ∈ ps) : CheckOf env d x b := by
  unfold writeLengthBody at h
  split at h
  · rename_i u hu
    simp only [Stmt.pieces] at h
    cases hv : env.val d.name with
    | none => simp [hv] at h
    | some v =>
      cases hs : env.vals u.vars with
      | none => simp [hv, hs] at h
      | some vs =>
        simp only [hv, hs, Option.some.injEq] at h
        subst h
        cases hn : valLen v with
        | none => simp [hn] at hm
        | some n =>
          simp only [hn, List.mem_singleton, Piece.check.injEq] at hm
          exact ⟨hm.1, u, v, vs, n, hu, hv, hs, hn, hm.2⟩
  · cases h; cases hm
  all_goals
    simp only [Stmt.pieces, Option.map_eq_some_iff] at h
    obtain ⟨p, _, rfl⟩ := h
    simp at hm

theorem checks_inner {d : FieldD} {t : Ty} {env : WEnv} {ps : List Piece} (h : (writeInner d t).pieces T e env = some ps) {x : Ident} {b : Bool}
    (hm : .check x b ∈ ps) : CheckOf env d x b := by
  have single : ∀ {st : Option WProg}, st.map (fun p => [Piece.prog p]) = some ps → False := by
    intro st h
    simp only [Option.map_eq_some_iff] at h
    obtain ⟨p, _, rfl⟩ := h
    simp at hm
  unfold writeInner at h
  split at h
  · exact (single h).elim
  · split at h
    · exact (single h).elim
    · split at h
      · simp only [Stmt.pieces] at h
        cases ha : (writeLengthBody d).pieces T e env with
        | none => simp [ha] at h
        | some pa =>
          cases hb : (Stmt.contents t d.name).exec T e env with
          | none => simp [ha, hb] at h
          | some pb =>
            simp only [ha, hb, Option.map_some, Option.some.injEq] at h
            subst h
            simp only [List.mem_append, List.mem_singleton, reduceCtorEq, or_false] at hm
            exact checks_length ha hm
      · exact (single h).elim

theorem checks_field_pieces {d : FieldD} (hacc : d.accepted = true) {env : WEnv} {ps : List Piece}
    (h : (writeFieldBody d).pieces T e env = some ps) {x : Ident} {b : Bool} (hm : .check x b ∈ ps) : CheckOf env d x b := by
  have key : ∀ {qs}, (writeBody d).pieces T e env = some qs → .check x b ∈ qs → CheckOf env d x b := by
    intro qs h hm
    have single : ∀ {st : Option WProg}, st.map (fun p => [Piece.prog p]) = some qs → False := by
      intro st h
      simp only [Option.map_eq_some_iff] at h
      obtain ⟨p, _, rfl⟩ := h
      simp at hm
    unfold writeBody at h
    split at h
    · split at h <;> exact (single h).elim
    · split at h
      · rename_i t ht
        simp only [Stmt.pieces] at h
        split at h
        · split at h
          · rename_i v hv
            cases hs : (writeInner d t).pieces T e (env.set d.name (.val v)) with
            | none => simp [hs] at h
            | some rs =>
              simp only [hs, Option.map_some, Option.some.injEq] at h
              subst h
              simp only [List.mem_cons, reduceCtorEq, false_or] at hm
              obtain ⟨_, u, _, _, _, hu, _⟩ := checks_inner hs hm
              simp [FieldD.accepted, hu, ht, isContainer] at hacc
          · cases h; simp at hm
          · cases h; simp at hm
          · cases h
        · cases h
      · exact checks_inner h hm
  have h1 : writeFieldBody d = if d.pre.isEmpty then writeBody d else .seq (.constant d.pre) (writeBody d) := rfl
  rw [h1] at h
  split at h
  · exact key h hm
  · simp only [Stmt.pieces] at h
    cases ha : (Stmt.constant d.pre).exec T e env with
    | none => simp [ha] at h
    | some pa =>
      cases hb : (writeBody d).pieces T e env with
      | none => simp [ha, hb] at h
      | some pb =>
        simp only [ha, hb, Option.map_some, Option.some.injEq] at h
        subst h
        simp only [List.mem_append, List.mem_singleton, reduceCtorEq, false_or] at hm
        exact key hb hm

theorem check_inside {d : FieldD} {env : WEnv} {ps : List Piece} (hacc : d.accepted = true) (h : (writeFieldBody d).pieces T e env = some ps)
    {u : UserExpr} (hu : d.len = some (.expr u)) :
    ∃ v vs pb, env.val d.name = some v ∧ env.vals u.vars = some vs ∧
      ps = (if d.pre.isEmpty then [] else [.prog (.bytes d.pre .ok)]) ++ ((match valLen v with
        | some n => [Piece.check d.name (n == u.value vs)]
        | none => [.prog (.fail .illTyped)]) ++ [.prog pb]) := by
  have ha : d.opaqueTy = false ∧ isContainer d.ty = true ∧ d.varint = false := by
    simp only [FieldD.accepted, hu, Bool.and_eq_true, Bool.not_eq_true', Bool.or_eq_true] at hacc
    refine ⟨hacc.1.1, hacc.1.2, ?_⟩
    rcases hacc.2 with hv | hv
    · exact hv
    · have := isU64_eq hv
      rw [this] at hacc
      simp [isContainer] at hacc
  have hb : writeFieldBody d = if d.pre.isEmpty then .seq (.sameLen d.name u) (.contents d.ty d.name)
      else .seq (.constant d.pre) (.seq (.sameLen d.name u) (.contents d.ty d.name)) := by
    obtain ⟨ho, hc, hv⟩ := ha
    have : writeInner d d.ty = .seq (.sameLen d.name u) (.contents d.ty d.name) := by
      unfold writeInner
      split
      · rename_i h; simp [h, isContainer] at hc
      · rw [hv, hc]; simp only [Bool.false_eq_true, if_false, if_true, writeLengthBody, hu]
    unfold writeFieldBody
    simp only [ho, Bool.false_eq_true, if_false]
    split <;> split
    all_goals first
      | (rename_i h; simp [h, isContainer] at hc; done)
      | (rename_i h _; simp [h, isContainer] at hc; done)
      | rw [this]
  have key : ∀ {qs}, (Stmt.seq (.sameLen d.name u) (.contents d.ty d.name)).pieces T e env = some qs →
      ∃ v vs pb, env.val d.name = some v ∧ env.vals u.vars = some vs ∧ qs = (match valLen v with
        | some n => [Piece.check d.name (n == u.value vs)]
        | none => [.prog (.fail .illTyped)]) ++ [.prog pb] := by
    intro qs h
    simp only [Stmt.pieces] at h
    cases hv : env.val d.name with
    | none => simp [hv] at h
    | some v =>
      cases hs : env.vals u.vars with
      | none => simp [hv, hs] at h
      | some vs =>
        cases hp : (Stmt.contents d.ty d.name).exec T e env with
        | none => simp [hv, hs, hp] at h
        | some pb =>
          simp only [hv, hs, hp, Option.map_some, Option.some.injEq] at h
          exact ⟨v, vs, pb, rfl, rfl, h.symm⟩
  rw [hb] at h
  split at h
  · rename_i hpre
    simp only [hpre, if_true, List.nil_append]
    exact key h
  · rename_i hpre
    simp only [hpre, if_false, Bool.false_eq_true]
    rw [Stmt.pieces] at h
    cases hb : (Stmt.seq (.sameLen d.name u) (.contents d.ty d.name)).pieces T e env with
    | none => simp [hb] at h
    | some qs =>
      rw [hb] at h
      obtain ⟨v, vs, pb, h1, h2, rfl⟩ := key hb
      refine ⟨v, vs, pb, h1, h2, ?_⟩
      simp only [Stmt.pieces, Stmt.exec] at h
      split at h
      · rename_i p q hp hq
        cases hq
        cases h
        by_cases hw : env.hasWriter = true
        · simp only [hw, if_true, Option.map_some, Option.some.injEq] at hp
          subst hp
          rfl
        · simp [hw] at hp
      · cases h

theorem field_differs {d : FieldD} {env : WEnv} {ps : List Piece} (hacc : d.accepted = true) (h : (writeFieldBody d).pieces T e env = some ps)
    {σ : Type} {W : WriterOps σ} {s s' : σ} (hr : runPieces W ps s = (.ok (), s')) : ¬ Differs env d := by
  rintro ⟨u, v, vs, hu, hv, hs, hne⟩
  obtain ⟨v', vs', pb, hv', hs', rfl⟩ := check_inside hacc h hu
  rw [hv] at hv'
  rw [hs] at hs'
  cases hv'
  cases hs'
  cases hn : valLen v with
  | none => exact run_ill hr (by simp [hn])
  | some n =>
    have : (n == u.value vs) = true := run_ok (x := d.name) hr (by simp [hn])
    rw [hn] at hne
    exact hne (by rw [beq_iff_eq.mp this])

/-! ## Bodies -/

theorem body_named {env : WEnv} {σ : Type} {W : WriterOps σ} {er : Err} {x : Ident} : ∀ {ds : List FieldD} {ps : List Piece} {s s' : σ},
    (∀ d ∈ ds, d.accepted = true) → (writableBody ds).pieces T e env = some ps → runPieces W ps s = (.error (er, some x), s') →
    er = .lengthMismatch ∧ ∃ pre d post, ds = pre ++ d :: post ∧ d.name = x ∧ d.skip = false ∧ Differs env d ∧
      ∀ f ∈ pre, f.skip = false → ¬ Differs env f
  | [], ps, s, s', _, h, hr => by
    cases h
    cases hr
  | d :: ds, ps, s, s', hacc, h, hr => by
    unfold writableBody at h
    split at h
    · rename_i hk
      obtain ⟨h1, pre, f, post, rfl, h2, h3, h4, h5⟩ := body_named (fun f hf => hacc f (List.mem_cons_of_mem _ hf)) h hr
      refine ⟨h1, d :: pre, f, post, rfl, h2, h3, h4, fun g hg hgk => ?_⟩
      rcases List.mem_cons.mp hg with rfl | hg
      · rw [hk] at hgk; cases hgk
      · exact h5 g hg hgk
    · rename_i hk
      simp only [Stmt.pieces] at h
      cases ha : (writeFieldBody d).pieces T e env with
      | none => simp [ha] at h
      | some pa =>
        cases hb : (writableBody ds).pieces T e env with
        | none => simp [ha, hb] at h
        | some pb =>
          simp only [ha, hb, Option.some.injEq] at h
          subst h
          rw [runPieces_append] at hr
          rcases hpa : runPieces W pa s with ⟨er' | ⟨⟩, s1⟩
          · rw [hpa] at hr
            cases hr
            obtain ⟨h1, h2⟩ := run_named hpa
            obtain ⟨rfl, u, v, vs, n, hu, hv, hs, hn, hbn⟩ := checks_field_pieces (hacc d (by simp)) ha h2
            refine ⟨h1, [], d, ds, rfl, rfl, by simpa using hk, ⟨u, v, vs, hu, hv, hs, ?_⟩, by simp⟩
            rw [hn]
            intro hh
            simp only [Option.some.injEq] at hh
            simp [hh] at hbn
          · rw [hpa] at hr
            obtain ⟨h1, pre, f, post, rfl, h2, h3, h4, h5⟩ := body_named (fun f hf => hacc f (List.mem_cons_of_mem _ hf)) hb hr
            refine ⟨h1, d :: pre, f, post, rfl, h2, h3, h4, fun g hg hgk => ?_⟩
            rcases List.mem_cons.mp hg with rfl | hg
            · exact field_differs (hacc g (by simp)) ha hpa
            · exact h5 g hg hgk

theorem body_ok {env : WEnv} {σ : Type} {W : WriterOps σ} : ∀ {ds : List FieldD} {ps : List Piece} {s s' : σ},
    (∀ d ∈ ds, d.accepted = true) → (writableBody ds).pieces T e env = some ps → runPieces W ps s = (.ok (), s') →
    ∀ f ∈ ds, f.skip = false → ¬ Differs env f
  | [], ps, s, s', _, h, hr, f, hf, _ => by cases hf
  | d :: ds, ps, s, s', hacc, h, hr, f, hf, hfk => by
    unfold writableBody at h
    split at h
    · rename_i hk
      rcases List.mem_cons.mp hf with rfl | hf
      · rw [hk] at hfk; cases hfk
      · exact body_ok (fun f hf => hacc f (List.mem_cons_of_mem _ hf)) h hr f hf hfk
    · simp only [Stmt.pieces] at h
      cases ha : (writeFieldBody d).pieces T e env with
      | none => simp [ha] at h
      | some pa =>
        cases hb : (writableBody ds).pieces T e env with
        | none => simp [ha, hb] at h
        | some pb =>
          simp only [ha, hb, Option.some.injEq] at h
          subst h
          rw [runPieces_append] at hr
          rcases hpa : runPieces W pa s with ⟨er' | ⟨⟩, s1⟩
          · rw [hpa] at hr; cases hr
          · rw [hpa] at hr
            rcases List.mem_cons.mp hf with rfl | hf
            · exact field_differs (hacc f (by simp)) ha hpa
            · exact body_ok (fun f hf => hacc f (List.mem_cons_of_mem _ hf)) hb hr f hf hfk

/-- Steps of the fields before a field, of the field, and of those after it. -/
theorem body_split {env : WEnv} : ∀ {pre : List FieldD} {d : FieldD} {post : List FieldD} {ps : List Piece},
    (writableBody (pre ++ d :: post)).pieces T e env = some ps → d.skip = false →
    ∃ pa pb pc, (writableBody pre).pieces T e env = some pa ∧ (writeFieldBody d).pieces T e env = some pb ∧ ps = pa ++ (pb ++ pc)
  | [], d, post, ps, h, hk => by
    simp only [List.nil_append, writableBody, hk, Bool.false_eq_true, if_false, Stmt.pieces] at h
    split at h
    · rename_i p q hp hq
      cases h
      exact ⟨[], p, q, rfl, hp, rfl⟩
    · cases h
  | f :: pre, d, post, ps, h, hk => by
    simp only [List.cons_append, writableBody] at h ⊢
    split at h
    · rename_i hf
      rw [if_pos hf]
      exact body_split h hk
    · rename_i hf
      rw [if_neg hf]
      simp only [Stmt.pieces] at h ⊢
      split at h
      · rename_i p q hp hq
        cases h
        obtain ⟨pa, pb, pc, h1, h2, rfl⟩ := body_split hq hk
        exact ⟨p ++ pa, pb, pc, by simp only [hp, h1], h2, by simp⟩
      · cases h

/-! ## Values of fields -/

/-- The value of the field `x`. -/
abbrev valueOf (ds : List FieldD) (vs : List Val) (x : Ident) : Option Val := pick (ds.map (·.name)) vs x

theorem assign_val {x : Ident} {v : Val} : ∀ (ds : List FieldD) (vs : List Val) (env : WEnv), (ds.map (·.name)).Nodup →
    (assign ds vs env).val x = some v → valueOf ds vs x = some v ∨ (env.val x = some v)
  | [], _, env, _, h => .inr (by simpa [assign] using h)
  | _ :: _, [], env, _, h => .inr (by simpa [assign] using h)
  | d :: ds, w :: vs, env, hnd, h => by
    simp only [List.map_cons, List.nodup_cons] at hnd
    simp only [assign] at h
    simp only [valueOf, List.map_cons, pick]
    by_cases hx : x = d.name
    · subst hx
      rw [WEnv.val, assign_other ds vs _ hnd.1] at h
      rw [if_pos rfl]
      split at h
      · rename_i w' hw
        split at hw
        · exact .inr (by simp only [WEnv.val, hw]; exact h)
        · simp only [WEnv.set, if_true, Option.some.injEq, Wv.val.injEq] at hw
          subst hw
          exact .inl h
      · cases h
    · rw [if_neg hx]
      rcases assign_val ds vs _ hnd.2 h with h | h
      · exact .inl h
      · refine .inr ?_
        split at h
        · exact h
        · simpa [WEnv.val, WEnv.set, hx] using h

theorem start_val (x : Ident) : writeEnv.val x = none := by
  simp only [WEnv.val, writeEnv]
  split
  · rename_i h; split at h <;> cases h
  · rfl

theorem value_of {ds : List FieldD} {vs : List Val} (hnd : (ds.map (·.name)).Nodup) {x : Ident} {v : Val}
    (h : (assign ds vs writeEnv).val x = some v) : valueOf ds vs x = some v := by
  rcases assign_val ds vs writeEnv hnd h with h | h
  · exact h
  · rw [start_val] at h; cases h

theorem values_of {ds : List FieldD} {vs : List Val} (hnd : (ds.map (·.name)).Nodup) : ∀ {xs : List Ident} {ws : List Val},
    (assign ds vs writeEnv).vals xs = some ws → xs.map (valueOf ds vs) = ws.map some
  | [], ws, h => by cases h; rfl
  | x :: xs, ws, h => by
    simp only [WEnv.vals] at h
    split at h
    · rename_i v ws' hv hw
      cases h
      simp only [List.map_cons, value_of hnd hv, values_of hnd hw]
    · cases h

theorem bound_val {env : WEnv} : ∀ {ds : List FieldD} {vs : List Val}, BoundW env ds vs → ∀ {d}, d ∈ ds → d.skip = false → ∃ v, env.val d.name = some v
  | f :: ds, v :: vs, h, d, hd, hk => by
    rcases List.mem_cons.mp hd with rfl | hd
    · exact ⟨v, h.1 hk⟩
    · exact bound_val h.2 hd hk
  | [], [], _, _, hd, _ => by cases hd
  | [], _ :: _, h, _, _, _ => h.elim
  | _ :: _, [], h, _, _, _ => h.elim

/-- The field `d` has `#[speedy(length = ...)]`, and what this says for the values `vs` of the fields is not its length. -/
def WrongLength (ds : List FieldD) (vs : List Val) (d : FieldD) : Prop :=
  ∃ u v ws, d.len = some (.expr u) ∧ valueOf ds vs d.name = some v ∧ u.vars.map (valueOf ds vs) = ws.map some ∧ valLen v ≠ some (u.value ws)

theorem wrong_of {ds : List FieldD} {vs : List Val} (hnd : (ds.map (·.name)).Nodup) {d : FieldD} (h : Differs (assign ds vs writeEnv) d) :
    WrongLength ds vs d := by
  obtain ⟨u, v, ws, hu, hv, hs, hne⟩ := h
  exact ⟨u, v, ws, hu, value_of hnd hv, values_of hnd hs, hne⟩

theorem some_inj : ∀ {xs ys : List Val}, xs.map some = ys.map some → xs = ys
  | [], [], _ => rfl
  | [], _ :: _, h => by cases h
  | _ :: _, [], h => by cases h
  | x :: xs, y :: ys, h => by
    simp only [List.map_cons, List.cons.injEq, Option.some.injEq] at h
    rw [h.1, some_inj h.2]

theorem differs_of {ds : List FieldD} {vs : List Val} (hnd : (ds.map (·.name)).Nodup) {d : FieldD} (hacc : d.accepted = true) {ps : List Piece}
    (hp : (writeFieldBody d).pieces T e (assign ds vs writeEnv) = some ps) (h : WrongLength ds vs d) : Differs (assign ds vs writeEnv) d := by
  obtain ⟨u, v, ws, hu, hv, hs, hne⟩ := h
  obtain ⟨v', ws', pb, hv', hs', _⟩ := check_inside hacc hp hu
  have h1 := value_of hnd hv'
  have h2 := values_of hnd hs'
  rw [hv] at h1
  cases h1
  have := some_inj (hs.symm.trans h2)
  subst this
  exact ⟨u, v, ws, hu, hv', hs', hne⟩

end Verif.Gen

namespace Verif

open Gen Samples

variable {T : Target} {e : Endian}

/-- **C94**, the names are all that is added to the generated code of C87, which is the `write_to` of the struct. -/
theorem C94_erase (T : Target) (e : Endian) (d : StructDesc) {ds : List FieldD} (h : StructOk ds) {vs : List Val} (hl : ds.length = vs.length)
    (hty : hasTy T (.struct d (fieldsOf [] ds)) (chain vs .unit)) :
    ∃ ps, structPieces T e ds vs = some ps ∧ ∀ {σ : Type} (W : WriterOps σ) (s : σ),
      forget (runPieces W ps s) = (encode T e (.struct d (fieldsOf [] ds)) Cx.std (chain vs .unit)).run W s := by
  have hw := C87_write T e d h hl hty
  obtain ⟨ps, hps⟩ := exec_pieces _ _ _ hw
  obtain ⟨p, hp, k⟩ := pieces_exec _ _ _ hps
  refine ⟨ps, hps, fun W s => ?_⟩
  have : p = _ := Option.some.inj (hp.symm.trans hw)
  rw [k W s, this]

theorem struct_named {ds : List FieldD} (hnd : (ds.map (·.name)).Nodup) (hacc : ∀ d ∈ ds, d.accepted = true) {vs : List Val} {ps : List Piece}
    (hp : structPieces T e ds vs = some ps) {σ : Type} {W : WriterOps σ} {s s' : σ} {er : Err} {x : Ident}
    (hr : runPieces W ps s = (.error (er, some x), s')) :
    er = .lengthMismatch ∧ ∃ pre d post, ds = pre ++ d :: post ∧ d.name = x ∧ d.skip = false ∧ WrongLength ds vs d ∧
      ∀ f ∈ pre, f.skip = false → ¬ WrongLength ds vs f := by
  obtain ⟨h1, pre, d, post, rfl, h2, h3, h4, h5⟩ := body_named hacc hp hr
  refine ⟨h1, pre, d, post, rfl, h2, h3, wrong_of hnd h4, fun f hf hk hw => ?_⟩
  obtain ⟨qa, qb, rfl⟩ := List.append_of_mem hf
  have hp' : (writableBody (qa ++ f :: (qb ++ d :: post))).pieces T e (assign (qa ++ f :: qb ++ d :: post) vs writeEnv) = some ps := by
    simpa [structPieces] using hp
  obtain ⟨_, pf, _, _, hpf, _⟩ := body_split hp' hk
  exact h5 f hf hk (differs_of hnd (hacc f (by simp)) hpf hw)

/-- **C94**: if the error has the name of a field then this field is the first whose length is not what its attribute says. -/
theorem C94_named {ds : List FieldD} (h : StructOk ds) {vs : List Val} {ps : List Piece} (hp : structPieces T e ds vs = some ps)
    {σ : Type} {W : WriterOps σ} {s s' : σ} {er : Err} {x : Ident} (hr : runPieces W ps s = (.error (er, some x), s')) :
    er = .lengthMismatch ∧ ∃ pre d post, ds = pre ++ d :: post ∧ d.name = x ∧ d.skip = false ∧ WrongLength ds vs d ∧
      ∀ f ∈ pre, f.skip = false → ¬ WrongLength ds vs f :=
  struct_named h.nodup h.accepted hp hr

theorem struct_refused {ds : List FieldD} (hnd : (ds.map (·.name)).Nodup) (hacc : ∀ d ∈ ds, d.accepted = true) {vs : List Val} {ps : List Piece}
    (hp : structPieces T e ds vs = some ps) {d : FieldD} (hd : d ∈ ds) (hk : d.skip = false) (hw : WrongLength ds vs d)
    {σ : Type} (W : WriterOps σ) (s : σ) : ∃ er, (runPieces W ps s).1 = .error er := by
  rcases hr : runPieces W ps s with ⟨er | ⟨⟩, s'⟩
  · exact ⟨er, rfl⟩
  · obtain ⟨pre, post, rfl⟩ := List.append_of_mem hd
    obtain ⟨_, pf, _, _, hpf, _⟩ := body_split hp hk
    exact absurd (differs_of hnd (hacc d hd) hpf hw) (body_ok hacc hp hr d hd hk)

/-- **C94**, a value in which some field has not the length which its attribute says is never written. -/
theorem C94_refused {ds : List FieldD} (h : StructOk ds) {vs : List Val} {ps : List Piece} (hp : structPieces T e ds vs = some ps)
    {d : FieldD} (hd : d ∈ ds) (hk : d.skip = false) (hw : WrongLength ds vs d) {σ : Type} (W : WriterOps σ) (s : σ) :
    ∃ er, (runPieces W ps s).1 = .error er :=
  struct_refused h.nodup h.accepted hp hd hk hw W s

theorem struct_first {pre : List FieldD} {d : FieldD} {post : List FieldD} (hnd : ((pre ++ d :: post).map (·.name)).Nodup)
    (hacc : ∀ f ∈ pre ++ d :: post, f.accepted = true) {vs : List Val} {ps : List Piece}
    (hp : structPieces T e (pre ++ d :: post) vs = some ps) (hk : d.skip = false) (hw : WrongLength (pre ++ d :: post) vs d)
    (hlen : ∀ v, valueOf (pre ++ d :: post) vs d.name = some v → ∃ n, valLen v = some n) :
    ∃ pa, (writableBody pre).pieces T e (assign (pre ++ d :: post) vs writeEnv) = some pa ∧
      ∀ {σ : Type} (W : WriterOps σ) {s s1 s2 : σ}, runPieces W pa s = (.ok (), s1) →
        (if d.pre.isEmpty then WProg.ok else .bytes d.pre .ok).run W s1 = (.ok (), s2) →
        runPieces W ps s = (.error (.lengthMismatch, some d.name), s2) := by
  obtain ⟨pa, pb, pc, h1, h2, rfl⟩ := body_split hp hk
  refine ⟨pa, h1, fun W s s1 s2 hr hc => ?_⟩
  obtain ⟨u, v, ws, hu, hv, hs, hne⟩ := differs_of hnd (hacc d (by simp)) h2 hw
  obtain ⟨v', ws', pb', hv', hs', rfl⟩ := check_inside (hacc d (by simp)) h2 hu
  rw [hv] at hv'
  rw [hs] at hs'
  cases hv'
  cases hs'
  obtain ⟨n, hn⟩ := hlen v (value_of hnd hv)
  have hb : (n == u.value ws) = false := by
    rw [hn] at hne
    simpa using hne
  rw [runPieces_append, hr]
  simp only [hn, hb]
  by_cases hpre : d.pre.isEmpty = true
  · rw [if_pos hpre] at hc ⊢
    cases hc
    rfl
  · rw [if_neg hpre] at hc ⊢
    simp only [List.cons_append, List.nil_append, runPieces, hc, Bool.false_eq_true, if_false]

/-- **C94**, conversely: if the fields before are written and the length of the field is wrong then the error has its name; of the field only
the constant before it is written. -/
theorem C94_first {pre : List FieldD} {d : FieldD} {post : List FieldD} (h : StructOk (pre ++ d :: post)) {vs : List Val} {ps : List Piece}
    (hp : structPieces T e (pre ++ d :: post) vs = some ps) (hk : d.skip = false) (hw : WrongLength (pre ++ d :: post) vs d)
    (hlen : ∀ v, valueOf (pre ++ d :: post) vs d.name = some v → ∃ n, valLen v = some n) :
    ∃ pa, (writableBody pre).pieces T e (assign (pre ++ d :: post) vs writeEnv) = some pa ∧
      ∀ {σ : Type} (W : WriterOps σ) {s s1 s2 : σ}, runPieces W pa s = (.ok (), s1) →
        (if d.pre.isEmpty then WProg.ok else .bytes d.pre .ok).run W s1 = (.ok (), s2) →
        runPieces W ps s = (.error (.lengthMismatch, some d.name), s2) :=
  struct_first h.nodup h.accepted hp hk hw hlen

theorem enum_named {d : EnumDesc} {σ : Type} {W : WriterOps σ} {er : Err} {x : Ident} :
    ∀ {arms : List (Nat × List FieldD)} {i : Nat} {vs : List Val} {ps : List Piece} {s s' : σ},
    (∀ a ∈ arms, (a.2.map (·.name)).Nodup) → (∀ a ∈ arms, ∀ f ∈ a.2, f.accepted = true) →
    enumPieces T e d arms i vs = some ps → runPieces W ps s = (.error (er, some x), s') →
    er = .lengthMismatch ∧ ∃ tag ds pre f post, arms[i]? = some (tag, ds) ∧ ds = pre ++ f :: post ∧ f.name = x ∧ f.skip = false ∧
      WrongLength ds vs f ∧ ∀ g ∈ pre, g.skip = false → ¬ WrongLength ds vs g
  | [], i, vs, ps, s, s', _, _, h, _ => by cases h
  | (tag, ds) :: arms, 0, vs, ps, s, s', hn, ha, h, hr => by
    simp only [enumPieces] at h
    split at h
    · rename_i p q _ hq
      cases h
      simp only [runPieces] at hr
      rcases hp : p.run W s with ⟨er' | ⟨⟩, s1⟩
      · rw [hp] at hr; cases hr
      · rw [hp] at hr
        obtain ⟨h1, pre, f, post, h2, h3, h4, h5, h6⟩ := struct_named (hn _ (List.mem_cons_self ..)) (ha _ (List.mem_cons_self ..)) hq hr
        exact ⟨h1, tag, ds, pre, f, post, rfl, h2, h3, h4, h5, h6⟩
    · cases h
  | a :: arms, i + 1, vs, ps, s, s', hn, ha, h, hr => by
    obtain ⟨h1, tag, ds, pre, f, post, h2, h3⟩ := enum_named (i := i) (fun b hb => hn b (List.mem_cons_of_mem _ hb))
      (fun b hb => ha b (List.mem_cons_of_mem _ hb)) h hr
    exact ⟨h1, tag, ds, pre, f, post, by simpa using h2, h3⟩

/-- **C94** for enums: the field is one of the variant which is written. -/
theorem C94_enum {d : EnumDesc} {arms : List (Nat × List FieldD)} (h : EnumOk d arms) {i : Nat} {vs : List Val} {ps : List Piece}
    (hp : enumPieces T e d arms i vs = some ps) {σ : Type} {W : WriterOps σ} {s s' : σ} {er : Err} {x : Ident}
    (hr : runPieces W ps s = (.error (er, some x), s')) :
    er = .lengthMismatch ∧ ∃ tag ds pre f post, arms[i]? = some (tag, ds) ∧ ds = pre ++ f :: post ∧ f.name = x ∧ f.skip = false ∧
      WrongLength ds vs f ∧ ∀ g ∈ pre, g.skip = false → ¬ WrongLength ds vs g :=
  enum_named h.nodup h.accepted hp hr

/-- The steps of an enum are the tag and the steps of the variant. -/
theorem enum_split {d : EnumDesc} : ∀ {arms : List (Nat × List FieldD)} {i : Nat} {vs : List Val} {ps : List Piece},
    enumPieces T e d arms i vs = some ps → ∃ tag ds q, arms[i]? = some (tag, ds) ∧ structPieces T e ds vs = some q ∧
      ps = .prog (if d.peek then WProg.ok else writeLenRaw T.toHost d.tagTy tag) :: q
  | [], i, vs, ps, h => by cases h
  | (tag, ds) :: arms, 0, vs, ps, h => by
    simp only [enumPieces] at h
    split at h
    · rename_i p q hp hq
      cases h
      refine ⟨tag, ds, q, rfl, hq, ?_⟩
      split at hp
      · rename_i hd; cases hp; rw [if_pos hd]
      · rename_i hd
        rw [if_neg hd]
        split at hp
        · cases hp; rfl
        · cases hp
    · cases h
  | a :: arms, i + 1, vs, ps, h => by
    obtain ⟨tag, ds, q, h1, h2⟩ := enum_split (arms := arms) (i := i) h
    exact ⟨tag, ds, q, by simpa using h1, h2⟩

/-- **C94** for enums: a value with a wrong length is never written. -/
theorem C94_enum_refused {d : EnumDesc} {arms : List (Nat × List FieldD)} (h : EnumOk d arms) {i tag : Nat} {ds : List FieldD}
    (hi : arms[i]? = some (tag, ds)) {vs : List Val} {ps : List Piece} (hp : enumPieces T e d arms i vs = some ps)
    {f : FieldD} (hf : f ∈ ds) (hk : f.skip = false) (hw : WrongLength ds vs f) {σ : Type} (W : WriterOps σ) (s : σ) :
    ∃ er, (runPieces W ps s).1 = .error er := by
  obtain ⟨tag', ds', q, h1, h2, rfl⟩ := enum_split hp
  rw [hi] at h1
  cases h1
  have hm := List.mem_of_getElem? hi
  simp only [runPieces]
  rcases WProg.run W _ s with ⟨er | ⟨⟩, s1⟩
  · exact ⟨_, rfl⟩
  · exact struct_refused (h.nodup _ hm) (h.accepted _ hm) h2 hf hk hw W s1

/-- **C94** for enums, conversely: if the tag and the fields before are written and the length of the field is wrong then the error has its
name. -/
theorem C94_enum_first {d : EnumDesc} {arms : List (Nat × List FieldD)} (h : EnumOk d arms) {i tag : Nat} {pre : List FieldD} {f : FieldD}
    {post : List FieldD} (hi : arms[i]? = some (tag, pre ++ f :: post)) {vs : List Val} {ps : List Piece}
    (hp : enumPieces T e d arms i vs = some ps) (hk : f.skip = false) (hw : WrongLength (pre ++ f :: post) vs f)
    (hlen : ∀ v, valueOf (pre ++ f :: post) vs f.name = some v → ∃ n, valLen v = some n) :
    ∃ pa, (writableBody pre).pieces T e (assign (pre ++ f :: post) vs writeEnv) = some pa ∧
      ∀ {σ : Type} (W : WriterOps σ) {s s0 s1 s2 : σ},
        (if d.peek then WProg.ok else writeLenRaw T.toHost d.tagTy tag).run W s = (.ok (), s0) → runPieces W pa s0 = (.ok (), s1) →
        (if f.pre.isEmpty then WProg.ok else .bytes f.pre .ok).run W s1 = (.ok (), s2) →
        runPieces W ps s = (.error (.lengthMismatch, some f.name), s2) := by
  obtain ⟨tag', ds', q, h1, h2, rfl⟩ := enum_split hp
  rw [hi] at h1
  cases h1
  have hm := List.mem_of_getElem? hi
  obtain ⟨pa, h3, h4⟩ := struct_first (h.nodup _ hm) (h.accepted _ hm) h2 hk hw hlen
  refine ⟨pa, h3, fun W s s0 s1 s2 ht hr hc => ?_⟩
  simp only [runPieces, ht]
  exact h4 W hr hc

theorem enumPieces_exec {d : EnumDesc} : ∀ {arms : List (Nat × List FieldD)} {i : Nat} {vs : List Val} {p : WProg},
    writeEnum T e d arms i vs = some p →
    ∃ ps, enumPieces T e d arms i vs = some ps ∧ ∀ {σ : Type} (W : WriterOps σ) (s : σ), forget (runPieces W ps s) = p.run W s
  | [], i, vs, p, h => by cases h
  | (tag, ds) :: arms, 0, vs, p, h => by
    simp only [writeEnum] at h
    simp only [enumPieces]
    split at h
    · rename_i a b ha hb
      cases h
      obtain ⟨q, hq⟩ := exec_pieces _ _ _ hb
      obtain ⟨b', hb', k⟩ := pieces_exec _ _ _ hq
      have : b' = b := Option.some.inj (hb'.symm.trans hb)
      subst this
      refine ⟨.prog a :: q, by simp only [ha, hq], fun W s => ?_⟩
      rw [wrun_seq]
      simp only [runPieces]
      rcases a.run W s with ⟨_ | ⟨⟩, s'⟩
      · rfl
      · exact k W s'
    · cases h
  | a :: arms, i + 1, vs, p, h => enumPieces_exec (arms := arms) (i := i) h

/-- **C94** for enums: the names are all that is added to the generated code. -/
theorem C94_enum_erase {d : EnumDesc} {arms : List (Nat × List FieldD)} {i : Nat} {vs : List Val} {p : WProg}
    (h : writeEnum T e d arms i vs = some p) :
    ∃ ps, enumPieces T e d arms i vs = some ps ∧ ∀ {σ : Type} (W : WriterOps σ) (s : σ), forget (runPieces W ps s) = p.run W s :=
  enumPieces_exec h

/-- **C94**, the text of the error tells the field: different fields give different texts.  (Fields of one struct all have names, or all have
numbers.) -/
theorem C94_text {x y : Ident} (hk : (∃ a b, x = .named a ∧ y = .named b) ∨ ∃ i j, x = .nth i ∧ y = .nth j)
    (h : (ErrKind.lengthIsNotTheSameAsLengthAttribute x.text).display = (ErrKind.lengthIsNotTheSameAsLengthAttribute y.text).display) : x = y := by
  have ht : x.text = y.text := by
    rcases C92_text (by simp) (by simp) h with h | ⟨_, _, h, _⟩
    · exact ErrKind.lengthIsNotTheSameAsLengthAttribute.inj h
    · cases h
  rcases hk with ⟨a, b, rfl, rfl⟩ | ⟨i, j, rfl, rfl⟩
  · rw [String.toList_inj.mp ht]
  · simp only [Ident.text, List.cons.injEq, true_and] at ht
    rw [decimal_inj ht]

/-! ## Examples -/

/-- The struct of `plainNames` with `n` = 3 and two elements. -/
def threeOfTwo : List Val := [.num 3, .num 7, .list [.num 8, .num 9], .bytes [65]]

theorem threeOfTwo_wrong : WrongLength plainNames threeOfTwo plainNames[2] :=
  ⟨⟨[.named "n"], numOf⟩, .list [.num 8, .num 9], [.num 3], rfl, by decide, by decide, by decide⟩

/-- What is written is the first field; the error has the name `data`. -/
example : (structPieces x64 .little plainNames threeOfTwo).map (fun ps => runPieces (writingCollector x64.toHost .little) ps ⟨[], []⟩) =
    some (.error (.lengthMismatch, some (.named "data")), ⟨[3], []⟩) := by
  decide

theorem threeOfTwo_pieces (T : Target) (e : Endian) : ∃ ps, structPieces T e plainNames threeOfTwo = some ps := ⟨_, rfl⟩

example (T : Target) (e : Endian) {σ : Type} (W : WriterOps σ) (s : σ) :
    ∃ ps, structPieces T e plainNames threeOfTwo = some ps ∧ ∃ er, (runPieces W ps s).1 = .error er := by
  obtain ⟨ps, h⟩ := threeOfTwo_pieces T e
  exact ⟨ps, h, C94_refused plainNames_ok h (d := plainNames[2]) (by simp [plainNames]) rfl threeOfTwo_wrong W s⟩

/-- Whatever the writer, once it accepts the first field. -/
example (T : Target) (e : Endian) : ∃ ps pa, structPieces T e plainNames threeOfTwo = some ps ∧
    (writableBody (plainNames.take 2)).pieces T e (assign plainNames threeOfTwo writeEnv) = some pa ∧
    ∀ {σ : Type} (W : WriterOps σ) {s s1 : σ}, runPieces W pa s = (.ok (), s1) →
      runPieces W ps s = (.error (.lengthMismatch, some (.named "data")), s1) := by
  obtain ⟨ps, h⟩ := threeOfTwo_pieces T e
  obtain ⟨pa, h1, h2⟩ := C94_first (pre := plainNames.take 2) (d := plainNames[2]) (post := plainNames.drop 3) plainNames_ok h rfl threeOfTwo_wrong
    (fun v hv => by
      have : v = .list [.num 8, .num 9] := by
        have h0 : valueOf plainNames threeOfTwo (.named "data") = some (.list [.num 8, .num 9]) := by decide
        exact Option.some.inj (hv.symm.trans h0)
      exact ⟨2, by rw [this]; rfl⟩)
  exact ⟨ps, pa, h, h1, fun W s s1 hr => h2 W hr rfl⟩

/-- The same value through the model of C87. -/
example (e : Endian) (d : StructDesc) : ∃ ps, structPieces x64 e plainNames threeOfTwo = some ps ∧ ∀ {σ : Type} (W : WriterOps σ) (s : σ),
    forget (runPieces W ps s) = (encode x64 e (.struct d (fieldsOf [] plainNames)) Cx.std (chain threeOfTwo .unit)).run W s :=
  C94_erase x64 e d plainNames_ok rfl (by
    simp [plainNames, threeOfTwo, fieldsOf, chain, hasTy, hasTyFields, Prim.size, sizeOf]
    decide)

/-- Two wrong lengths: the error is about the first. -/
def twoLengths : List FieldD :=
  [{ name := .nth 0, ty := .prim .u8 },
   { name := .nth 1, ty := .seq .vec (.prim .u8), len := some (.expr ⟨[.nth 0], numOf⟩), pre := [1, 2] },
   { name := .nth 2, ty := .str .owned, len := some (.expr ⟨[.nth 0], numOf⟩) }]

theorem twoLengths_ok : StructOk twoLengths := ⟨by decide, by decide, by decide, by decide⟩

example : (structPieces x64 .little twoLengths [.num 3, .list [.num 8], .bytes [65]]).map
    (fun ps => runPieces (writingCollector x64.toHost .little) ps ⟨[], []⟩) =
    some (.error (.lengthMismatch, some (.nth 1)), ⟨[3, 1, 2], []⟩) := by
  decide

example {ps : List Piece} (h : structPieces x64 .little twoLengths [.num 3, .list [.num 8], .bytes [65]] = some ps) {s s' : Sink}
    {er : Err} {x : Ident} (hr : runPieces (writingCollector x64.toHost .little) ps s = (.error (er, some x), s')) :
    er = .lengthMismatch := (C94_named twoLengths_ok h hr).1

example : Ident.text (.nth 12) = "t12".toList := by decide

example : (ErrKind.lengthIsNotTheSameAsLengthAttribute (Ident.text (.nth 1))).display ≠
    (ErrKind.lengthIsNotTheSameAsLengthAttribute (Ident.text (.nth 12))).display := fun h =>
  absurd (C94_text (.inr ⟨1, 12, rfl, rfl⟩) h) (by decide)

/-- An enum: after the tag. -/
example : (enumPieces x64 .little ⟨.u32, false, 0⟩ plainEnum 0 [.num 2, .list [.num 8]]).map
    (fun ps => runPieces (writingCollector x64.toHost .little) ps ⟨[], []⟩) =
    some (.error (.lengthMismatch, some (.named "data")), ⟨[0, 0, 0, 0, 2], []⟩) := by
  decide

example {ps : List Piece} (h : enumPieces x64 .little ⟨.u32, false, 0⟩ plainEnum 0 [.num 2, .list [.num 8]] = some ps) {s s' : Sink}
    {er : Err} {x : Ident} (hr : runPieces (writingCollector x64.toHost .little) ps s = (.error (er, some x), s')) :
    er = .lengthMismatch := (C94_enum plainEnum_ok h hr).1

example : ∃ ps, enumPieces x64 .little ⟨.u32, false, 0⟩ plainEnum 0 [.num 2, .list [.num 8]] = some ps := by
  obtain ⟨ps, h, _⟩ := C94_enum_erase (T := x64) (e := .little) (d := ⟨.u32, false, 0⟩) (arms := plainEnum) (i := 0)
    (vs := [.num 2, .list [.num 8]]) rfl
  exact ⟨ps, h⟩

theorem plainEnum_wrong : WrongLength plainEnum[0].2 [.num 2, .list [.num 8]] (plainEnum[0].2)[1] :=
  ⟨⟨[.named "kind"], numOf⟩, .list [.num 8], [.num 2], rfl, by decide, by decide, by decide⟩

example (T : Target) (e : Endian) {σ : Type} (W : WriterOps σ) (s : σ) :
    ∃ ps, enumPieces T e ⟨.u32, false, 0⟩ plainEnum 0 [.num 2, .list [.num 8]] = some ps ∧ ∃ er, (runPieces W ps s).1 = .error er :=
  ⟨_, rfl, C94_enum_refused plainEnum_ok (i := 0) rfl rfl (List.mem_cons_of_mem _ (List.mem_cons_self ..)) rfl plainEnum_wrong W s⟩

example (T : Target) (e : Endian) : ∃ ps pa, enumPieces T e ⟨.u32, false, 0⟩ plainEnum 0 [.num 2, .list [.num 8]] = some ps ∧
    ∀ {σ : Type} (W : WriterOps σ) {s s0 s1 : σ}, (writeLenRaw T.toHost .u32 0).run W s = (.ok (), s0) → runPieces W pa s0 = (.ok (), s1) →
      runPieces W ps s = (.error (.lengthMismatch, some (.named "data")), s1) := by
  obtain ⟨pa, h1, h2⟩ := C94_enum_first (T := T) (e := e) plainEnum_ok (i := 0) (tag := 0) (pre := plainEnum[0].2.take 1)
    (f := (plainEnum[0].2)[1]) (post := []) (vs := [.num 2, .list [.num 8]]) rfl rfl rfl plainEnum_wrong (fun v hv => by
      have h0 : valueOf plainEnum[0].2 [.num 2, .list [.num 8]] (.named "data") = some (.list [.num 8]) := by decide
      have : v = .list [.num 8] := Option.some.inj (hv.symm.trans h0)
      exact ⟨1, by rw [this]; rfl⟩)
  exact ⟨_, pa, rfl, fun W s s0 s1 ht hr => h2 W ht hr rfl⟩

end Verif
