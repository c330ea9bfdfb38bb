import Verif.Gen
import Verif.Spec

/-!
# The generated code does what `Decode` and `Encode` say
-/

namespace Verif.Gen

theorem pbind_bind {α β γ : Type} (p : Prog α) (f : α → Prog β) (g : β → Prog γ) : (p.bind f).bind g = p.bind fun a => (f a).bind g := by
  induction p <;> simp only [Prog.bind, *]

theorem pbind_congr {α β : Type} (p : Prog α) {f g : α → Prog β} (h : ∀ a, f a = g a) : p.bind f = p.bind g := by
  rw [funext h]

/-- The end of a statement: a value, or `return`. -/
def fin : Except Err Val → Prog Flow
  | .ok v => .ret (.done (.val v))
  | .error er => .ret (.ret (.error er))

/-- What follows does the same after `return Err( er )` as after the value `Err( er )`; for errors other than the end of the input
if `deof`. -/
def Even {β : Type} (deof : Bool) (K : Flow → Prog β) : Prop :=
  ∀ er, (deof = true → er.isEof = false) → K (.ret (.error er)) = K (.done (.res (.error er)))

/-- The code `x` has the result of `m`, if what follows is even. -/
def Means (deof : Bool) (x : Prog Flow) (m : M Val) : Prop :=
  ∀ (β : Type) (K : Flow → Prog β), Even deof K → x.bind K = Prog.bind m fun r => K (.done (.res r))

theorem Means.mono {x : Prog Flow} {m : M Val} {deof : Bool} (h : Means deof x m) : Means false x m := fun β K hK =>
  h β K fun er _ => hK er (fun h => by cases h)

theorem Means.try {x : Prog Flow} {m : M Val} {deof : Bool} (h : Means deof x m) : x.bind tryK = Prog.bind m fin := by
  rw [h.mono _ tryK (fun er _ => rfl)]
  exact pbind_congr _ fun r => by cases r <;> rfl

theorem Means.orDefault {x : Prog Flow} {m : M Val} {deof : Bool} (h : Means deof x m) (hd : deof = true) (d : Val) :
    x.bind (orDefaultK d) = Prog.bind (onEof m d) fin := by
  subst hd
  rw [h _ (orDefaultK d) (fun er he => by simp only [orDefaultK]; rw [if_neg (by simp [he rfl])])]
  unfold onEof
  rw [pbind_bind]
  refine pbind_congr _ fun r => ?_
  cases r with
  | ok v => rfl
  | error er => simp only [orDefaultK]; cases er.isEof <;> rfl

section
variable {T : Target} {e : Endian}

theorem means_call {c : Call} {x : Option Ident} {a : Option Val} {p : M Val} {env : Env} {deof : Bool} (hr : env readerId = some .reader)
    (ha : env.arg x = some a) (hc : c.run T e a = some p) : Means deof ((Exp.call c x).eval T e env) p := by
  intro β K _
  simp only [Exp.eval, hr, ha, hc]
  rw [pbind_bind]
  rfl

theorem eval_call {c : Call} {x : Option Ident} {a : Option Val} {p : M Val} {env : Env} (hr : env readerId = some .reader)
    (ha : env.arg x = some a) (hc : c.run T e a = some p) {β : Type} (K : Flow → Prog β) :
    ((Exp.call c x).eval T e env).bind K = Prog.bind p fun r => K (.done (.res r)) := by
  simp only [Exp.eval, hr, ha, hc]
  rw [pbind_bind]
  rfl

/-- A slice whose numbers would be in the wrong byte order. -/
def refused (T : Target) (e : Endian) : Ty → Bool
  | .seq .ref s => sizeOf T s != 1 && e.conv T.toHost
  | _ => false

/-- The containers. -/
theorem decode_container {t : Ty} (ht : isContainer t = true) (cx : Cx) :
    ∃ f : Option Nat → M Val, (∀ len, readInto T e len t = some (f len)) ∧
      decode T e t cx = if refused T e t = true then M.fail .endiannessMismatch else M.bind (readLenR T.toHost e cx.len) f := by
  cases t <;> simp only [isContainer, Bool.false_eq_true] at ht
  case str k => exact ⟨_, fun _ => rfl, rfl⟩
  case seq k s =>
    refine ⟨_, fun _ => rfl, ?_⟩
    simp only [decode]
    cases k
    · rfl
    · rfl
    · simp only [refused, beq_self_eq_true, Bool.true_and]
      rfl
  case set s =>
    refine ⟨_, fun _ => rfl, ?_⟩
    simp only [decode, refused, Bool.false_eq_true, if_false]
    congr 1
  case map k v =>
    refine ⟨_, fun _ => rfl, ?_⟩
    simp only [decode, refused, Bool.false_eq_true, if_false]
    congr 1

theorem set_reader {env : Env} (hr : env readerId = some .reader) {x : Ident} (hx : readerId ≠ x) (v : Rv) :
    (env.set x v) readerId = some .reader := by
  simp only [Env.set, if_neg hx, hr]

theorem arg_set {env : Env} {x : Ident} {v : Val} : (env.set x (.val v)).arg (some x) = some (some v) := by
  simp [Env.arg, Env.val, Env.set]

/-- `{ let _length_ = …; _reader_.read_…( _length_ ) }` once the length is there. -/
theorem means_contents {t : Ty} {f : Option Nat → M Val} (hf : ∀ len, readInto T e len t = some (f len)) {env : Env}
    (hr : env readerId = some .reader) (n : Nat) {deof : Bool} :
    Means deof ((Exp.call (.contents t) (some lengthId)).eval T e (env.set lengthId (.val (.num n)))) (f (some n)) :=
  means_call (set_reader hr (by decide) _) arg_set (by simp only [Call.run]; exact hf _)

/-- The variables in the length have the values of the preceding fields. -/
def Sees (env : Env) (scope : List Ident) (prev : List Val) (d : FieldD) : Prop :=
  ∀ u, d.len = some (.expr u) → env.vals u.vars = some (u.vars.map fun x => (pick scope prev x).getD .unit)

/-- `{ let _length_ = read_length( _reader_ )?; … }` -/
theorem means_typed {t : Ty} {f : Option Nat → M Val} (hf : ∀ len, readInto T e len t = some (f len)) {env : Env}
    (hr : env readerId = some .reader) (lt : LenTy) :
    Means false ((Exp.block lengthId (.try (.call (.len lt) none)) (.call (.contents t) (some lengthId))).eval T e env)
      (M.bind (readLenR T.toHost e (.typed lt false)) f) := by
  intro β K hK
  have hl : Means false ((Exp.call (.len lt) none).eval T e env) (M.map .num (readLen T.toHost e lt)) := means_call hr rfl rfl
  rw [Exp.eval, Exp.eval, hl.try, pbind_bind, pbind_bind]
  simp only [readLenR, M.map, M.bind, M.pure]
  rw [pbind_bind, pbind_bind, pbind_bind]
  refine pbind_congr _ fun r => ?_
  cases r with
  | ok n => exact means_contents hf hr n _ K hK
  | error er => exact hK er (fun h => by cases h)

/-- The same with `default_on_eof`. -/
theorem means_typed_eof {t : Ty} {f : Option Nat → M Val} (hf : ∀ len, readInto T e len t = some (f len)) {env : Env}
    (hr : env readerId = some .reader) (lt : LenTy) :
    Means true ((Exp.block lengthId (.orDefault (.num 0) (.call (.len lt) none)) (.call (.contents t) (some lengthId))).eval T e env)
      (M.bind (readLenR T.toHost e (.typed lt true)) f) := by
  intro β K hK
  have hl : Means true ((Exp.call (.len lt) none).eval T e env) (M.map .num (readLen T.toHost e lt)) := means_call hr rfl rfl
  rw [Exp.eval, Exp.eval, hl.orDefault rfl, pbind_bind, pbind_bind]
  simp only [readLenR, M.map, M.bind, M.pure, onEof]
  rw [pbind_bind, pbind_bind, pbind_bind, pbind_bind, pbind_bind]
  refine pbind_congr _ fun r => ?_
  cases r with
  | ok n => exact means_contents hf hr n _ K hK
  | error er =>
    simp only [Prog.bind]
    cases he : er.isEof
    · exact hK er (fun _ => he)
    · exact means_contents hf hr 0 _ K hK

theorem means_container {t : Ty} {f : Option Nat → M Val} (hf : ∀ len, readInto T e len t = some (f len)) {env : Env}
    (hr : env readerId = some .reader) {scope : List Ident} {prev : List Val} {d : FieldD} (ho : d.opaqueTy = false)
    (hs : Sees env scope prev d) :
    Means d.defaultOnEof ((readContainer d t).eval T e env) (M.bind (readLenR T.toHost e ((d.attrs scope).cx T.toHost prev).len) f) := by
  have hty : ∀ lt, Means d.defaultOnEof ((Exp.block lengthId (if d.defaultOnEof then .orDefault (.num 0) (.call (.len lt) none)
      else .try (.call (.len lt) none)) (.call (.contents t) (some lengthId))).eval T e env)
      (M.bind (readLenR T.toHost e (.typed lt d.defaultOnEof)) f) := by
    intro lt
    cases d.defaultOnEof
    · exact means_typed hf hr lt
    · exact means_typed_eof hf hr lt
  unfold readContainer readLengthBody Attrs.cx Attrs.wcx FieldD.attrs
  cases hl : d.len with
  | none => simp only [ho, Bool.false_eq_true, if_false]; exact hty .u32
  | some l =>
    cases l with
    | typed lt => simp only [ho, Bool.false_eq_true, if_false]; exact hty lt
    | untilEof =>
      simp only [ho, Bool.false_eq_true, if_false]
      exact means_call (c := .rest t) (a := none) hr rfl (hf none)
    | expr u =>
      simp only [ho, Bool.false_eq_true, if_false]
      intro β K hK
      simp only [Exp.eval, hs u hl, Prog.bind]
      exact means_contents hf hr _ _ K hK

/-! ## Fields -/

/-- The value of one field — `decodeFields`. -/
def fieldM (T : Target) (e : Endian) (a : Attrs) (t : Ty) (prev : List Val) : M Val :=
  let body := if a.varint then M.map .num (readVarint T.toHost e) else decode T e t (a.cx T.toHost prev)
  let body := if a.pre.isEmpty then body else M.bind (readConstant T.toHost e (u8Elem T e) a.pre) fun _ => body
  if a.defaultOnEof then onEof body a.dflt else body

theorem decodeFields_cons (a : Attrs) (t : Ty) (fs : Fields) (prev : List Val) :
    decodeFields T e (.cons a t fs) prev = if a.skip then M.map (.pair a.dflt) (decodeFields T e fs prev)
      else M.bind (fieldM T e a t prev) fun v => M.map (.pair v) (decodeFields T e fs (prev ++ [v])) := by
  rw [decodeFields]
  rfl

theorem repeatE_eq {x : Prog Flow} {p : M Val} (hx : x = Prog.bind p fin) : ∀ (n : Nat) (k : List Val → Prog Flow),
    repeatE n x k = Prog.bind (repeatM n p) fun r => match r with
      | .ok vs => k vs
      | .error er => .ret (.ret (.error er))
  | 0, k => rfl
  | n + 1, k => by
    simp only [repeatE, repeatM, M.bind, M.pure]
    rw [hx, pbind_bind, pbind_bind]
    refine pbind_congr _ fun r => ?_
    cases r with
    | error er => rfl
    | ok v =>
      simp only [fin, Prog.bind]
      rw [← hx, repeatE_eq hx, pbind_bind]
      refine pbind_congr _ fun r => ?_
      cases r <;> rfl

/-- `[T; N]` -/
theorem means_array {env : Env} (hr : env readerId = some .reader) (n : Nat) (t : Ty) {deof : Bool} {el : Elem} (hel : el.read = decode T e t Cx.std) :
    Means deof ((Exp.closure (.okArray n (.try (.call (.value t) none)))).eval T e env) (M.map .list (repeatM n el.read)) := by
  intro β K _
  have hv : Means false ((Exp.call (.value t) none).eval T e env) el.read := means_call hr rfl (by rw [hel]; rfl)
  rw [Exp.eval, Exp.eval, repeatE_eq (by rw [Exp.eval]; exact hv.try)]
  simp only [M.map, M.bind, M.pure]
  rw [pbind_bind, pbind_bind, pbind_bind]
  refine pbind_congr _ fun r => ?_
  cases r <;> rfl

/-- Types which the macro does not look into do not use the context. -/
theorem decode_cx {t : Ty} (h1 : isContainer t = false) (h2 : ∀ n s, t ≠ .array n s) (h3 : ∀ s, t ≠ .option s) (cx : Cx) :
    decode T e t cx = decode T e t Cx.std := by
  cases t <;> first
    | (simp only [isContainer] at h1; cases h1; done)
    | (exact absurd rfl (h2 _ _))
    | (exact absurd rfl (h3 _))
    | simp only [decode]

/-- `field.ty.inner()` -/
theorem means_inner {env : Env} (hr : env readerId = some .reader) {scope : List Ident} {prev : List Val} {d : FieldD} (ho : d.opaqueTy = false)
    (hv : d.varint = false) (hs : Sees env scope prev d) (t : Ty) {cx : Cx} (hcx : (∀ s, t ≠ .option s) → cx = (d.attrs scope).cx T.toHost prev)
    (hcx' : ∀ s, t = .option s → cx = Cx.std) :
    Means d.defaultOnEof ((readInner d t).eval T e env) (decode T e t cx) := by
  by_cases hc : isContainer t = true
  · obtain ⟨f, hf, hdec⟩ := decode_container (T := T) (e := e) hc cx
    have hcx := hcx (by intro s hs; subst hs; simp [isContainer] at hc)
    rw [hdec, hcx]
    have hm := means_container hf hr ho hs (scope := scope) (prev := prev)
    have hplain : refused T e t = false → Means d.defaultOnEof ((readContainer d t).eval T e env)
        (if refused T e t = true then M.fail .endiannessMismatch
          else M.bind (readLenR T.toHost e ((d.attrs scope).cx T.toHost prev).len) f) := by
      intro h
      rw [if_neg (by simp [h])]
      exact hm
    have hplain' : readInner d t = readContainer d t → refused T e t = false → Means d.defaultOnEof ((readInner d t).eval T e env)
        (if refused T e t = true then M.fail .endiannessMismatch
          else M.bind (readLenR T.toHost e ((d.attrs scope).cx T.toHost prev).len) f) := by
      intro h1 h2
      rw [h1]
      exact hplain h2
    cases t with
    | str k => exact hplain' (by simp [readInner, hv, isContainer]) rfl
    | set s => exact hplain' (by simp [readInner, hv, isContainer]) rfl
    | map k v => exact hplain' (by simp [readInner, hv, isContainer]) rfl
    | seq k s =>
      cases k with
      | vec => exact hplain' (by simp [readInner, hv, isContainer]) rfl
      | cow => exact hplain' (by simp [readInner, hv, isContainer]) rfl
      | ref =>
        cases hu : isU8 s
        · intro β K hK
          simp only [readInner, hu, Bool.false_eq_true, if_false, Exp.eval]
          by_cases hn : (sizeOf T s != 1 && e.conv T.toHost) = true
          · rw [if_pos hn, if_pos (show refused T e (.seq .ref s) = true from hn)]; rfl
          · rw [if_neg hn, if_neg (show ¬ refused T e (.seq .ref s) = true from hn)]
            exact hm _ K hK
        · refine hplain' (by simp [readInner, hu]) ?_
          have : s = .prim .u8 := by
            unfold isU8 at hu
            split at hu
            · rfl
            · cases hu
          subst this
          rfl
    | _ => simp [isContainer] at hc
  · have hc : isContainer t = false := by simpa using hc
    unfold readInner
    split
    · simp [isContainer] at hc
    · rename_i n s
      have hcx := hcx (by intro _ h; cases h)
      have hi : cx.inl = true := by
        rw [hcx]; unfold Attrs.cx Attrs.wcx FieldD.attrs
        simp only [ho, Bool.false_eq_true, if_false]
        cases d.len with
        | none => rfl
        | some l => cases l <;> rfl
      simp only [decode, readArray, hi, Bool.not_true, Bool.false_and, Bool.false_eq_true, if_false]
      exact means_array hr _ _ rfl
    · rename_i hn1 hn2
      simp only [hv, hc, Bool.false_eq_true, if_false]
      refine means_call hr rfl ?_
      simp only [Call.run, Option.some.injEq]
      by_cases h3 : ∀ s, t ≠ .option s
      · exact (decode_cx hc (fun n s => hn2 n s) h3 _).symm
      · have : ∃ s, t = .option s := by
          apply Classical.byContradiction
          intro hne
          exact h3 fun s hs => hne ⟨s, hs⟩
        obtain ⟨s, hs⟩ := this
        rw [hcx' s hs]

theorem means_option {env : Env} (hr : env readerId = some .reader) {x : Exp} {m : M Val} {deof : Bool}
    (hx : ∀ v, Means deof (x.eval T e (env.set flagId v)) m) {deof' : Bool} :
    Means deof' ((readOption x).eval T e env)
      (M.bind (readBool T.toHost e) fun flag => if flag then M.map .some m else M.pure .none) := by
  intro β K _
  unfold readOption
  rw [Exp.eval, pbind_bind, eval_call hr rfl rfl]
  simp only [readBool, M.map, M.bind, M.pure]
  rw [pbind_bind, pbind_bind, pbind_bind]
  refine pbind_congr _ fun r => ?_
  cases r with
  | error er => rfl
  | ok n =>
    simp only [Prog.bind, Exp.eval, show (env.set flagId (.val (.num n))).val flagId = some (.num n) by simp [Env.val, Env.set]]
    by_cases hn : n = 0
    · subst hn; rfl
    · rw [if_pos hn, show (n != 0) = true by simpa using hn]
      simp only [if_true]
      rw [(hx _).try, pbind_bind, pbind_bind, pbind_bind, pbind_bind]
      refine pbind_congr _ fun r => ?_
      cases r <;> rfl

theorem means_constant {env : Env} (hr : env readerId = some .reader) {x : Exp} {m : M Val} {deof : Bool} (hx : Means deof (x.eval T e env) m)
    (bs : Bytes) {deof' : Bool} :
    Means deof' ((Exp.andThen (.call (.constant bs) none) none x).eval T e env)
      (M.bind (readConstant T.toHost e (u8Elem T e) bs) fun _ => m) := by
  intro β K _
  rw [Exp.eval, pbind_bind, eval_call hr rfl rfl]
  simp only [M.map, M.bind, M.pure]
  rw [pbind_bind, pbind_bind]
  refine pbind_congr _ fun r => ?_
  cases r with
  | error er => rfl
  | ok n =>
    simp only [Prog.bind]
    rw [hx.mono _ closureK (fun er _ => rfl), pbind_bind]
    rfl

/-- The body of a field, before `constant_prefix` and `default_on_eof`. -/
def fieldBody (d : FieldD) : Exp :=
  if d.opaqueTy then (if d.varint then .call .varint none else .call (.value d.ty) none) else match d.ty with
    | .option t => readOption (readInner d t)
    | t => readInner d t

theorem isU64_eq {t : Ty} (h : isU64 t = true) : t = .prim .u64 := by
  unfold isU64 at h
  split at h
  · rfl
  · cases h

theorem means_fieldBody {env : Env} (hr : env readerId = some .reader) {scope : List Ident} {prev : List Val} {d : FieldD}
    (hs : Sees env scope prev d) (ha : d.accepted = true) :
    Means d.defaultOnEof ((fieldBody d).eval T e env)
      (if d.varint then M.map .num (readVarint T.toHost e) else decode T e d.ty ((d.attrs scope).cx T.toHost prev)) := by
  simp only [FieldD.accepted, Bool.and_eq_true, Bool.or_eq_true, Bool.not_eq_true'] at ha
  unfold fieldBody
  cases ho : d.opaqueTy
  · simp only [Bool.false_eq_true, if_false]
    cases hv : d.varint
    · simp only [Bool.false_eq_true, if_false]
      split
      · rename_i t ht
        have hnone : ∀ u, d.len ≠ some (.expr u) := by
          intro u hu
          have := ha.1
          simp [hu, ht, isContainer] at this
        rw [ht]
        simp only [decode]
        refine means_option hr (fun v => means_inner (scope := scope) (prev := prev) (set_reader hr (by decide) _) ho hv
          (fun u hu => absurd hu (hnone u)) t ?_ ?_)
        · intro h
          cases t <;> first | rfl | exact absurd rfl (h _)
        · intro s hs'
          rw [hs']
          rfl
      · rename_i hn
        exact means_inner hr ho hv hs _ (fun _ => rfl) (fun s h => absurd h (hn s))
    · have ht := isU64_eq (ha.2.resolve_left (by simp [hv]))
      rw [ht]
      simp only [readInner, hv, if_true]
      exact means_call hr rfl rfl
  · simp only [if_true]
    cases hv : d.varint
    · simp only [Bool.false_eq_true, if_false]
      have : (d.attrs scope).cx T.toHost prev = Cx.std := by
        simp only [Attrs.cx, Attrs.wcx, FieldD.attrs, ho, if_true]
        rfl
      rw [this]
      exact means_call hr rfl rfl
    · exact means_call hr rfl rfl

/-- One statement. -/
theorem eval_field {env : Env} (hr : env readerId = some .reader) {scope : List Ident} {prev : List Val} {d : FieldD}
    (hs : Sees env scope prev d) (ha : d.accepted = true) (hk : d.skip = false) :
    (readFieldBody d).eval T e env = Prog.bind (fieldM T e (d.attrs scope) d.ty prev) fin := by
  have hm := means_fieldBody (T := T) (e := e) hr hs ha
  have hp : Means d.defaultOnEof ((if d.pre.isEmpty then fieldBody d else .andThen (.call (.constant d.pre) none) none (fieldBody d)).eval T e env)
      (if d.pre.isEmpty then (if d.varint then M.map .num (readVarint T.toHost e) else decode T e d.ty ((d.attrs scope).cx T.toHost prev))
        else M.bind (readConstant T.toHost e (u8Elem T e) d.pre) fun _ =>
          (if d.varint then M.map .num (readVarint T.toHost e) else decode T e d.ty ((d.attrs scope).cx T.toHost prev))) := by
    cases d.pre.isEmpty
    · exact means_constant hr hm _
    · exact hm
  have h1 : readFieldBody d = if d.defaultOnEof
      then .orDefault d.dflt (if d.pre.isEmpty then fieldBody d else .andThen (.call (.constant d.pre) none) none (fieldBody d))
      else .try (if d.pre.isEmpty then fieldBody d else .andThen (.call (.constant d.pre) none) none (fieldBody d)) := by
    unfold readFieldBody
    rw [if_neg (by simp [hk])]
    rfl
  rw [h1]
  show _ = Prog.bind (if d.defaultOnEof then onEof _ d.dflt else _) fin
  cases hd : d.defaultOnEof
  · simp only [Bool.false_eq_true, if_false, Exp.eval]
    exact hp.try
  · simp only [if_true, Exp.eval]
    exact hp.orDefault hd _

/-! ## Statements one after another -/

theorem vals_append {env : Env} : ∀ {xs ys : List Ident} {vs ws : List Val}, env.vals xs = some vs → env.vals ys = some ws →
    env.vals (xs ++ ys) = some (vs ++ ws)
  | [], _, vs, ws, h1, h2 => by
    simp only [Env.vals, Option.some.injEq] at h1
    subst h1
    exact h2
  | x :: xs, ys, vs, ws, h1, h2 => by
    simp only [Env.vals] at h1
    split at h1
    · rename_i v vs' hv hvs
      simp only [Option.some.injEq] at h1
      subst h1
      simp only [List.cons_append, Env.vals, hv, vals_append hvs h2]
    · cases h1

theorem vals_set {env : Env} {x : Ident} {v : Rv} : ∀ {xs : List Ident}, x ∉ xs → (env.set x v).vals xs = env.vals xs
  | [], _ => rfl
  | y :: ys, h => by
    simp only [List.mem_cons, not_or] at h
    have : (env.set x v).val y = env.val y := by
      simp only [Env.val, Env.set, if_neg (Ne.symm h.1)]
    simp only [Env.vals, this, vals_set h.2]

/-- The variables have the values of the fields. -/
def Holds (env : Env) (scope : List Ident) (prev : List Val) : Prop :=
  ∀ x ∈ scope, ∃ v, pick scope prev x = some v ∧ env.val x = some v

theorem Holds.vals {env : Env} {scope : List Ident} {prev : List Val} (h : Holds env scope prev) : ∀ {xs : List Ident}, (∀ x ∈ xs, x ∈ scope) →
    env.vals xs = some (xs.map fun x => (pick scope prev x).getD .unit)
  | [], _ => rfl
  | x :: xs, hx => by
    obtain ⟨v, h1, h2⟩ := h x (hx x (by simp))
    simp only [Env.vals, h2, h.vals (fun y hy => hx y (List.mem_cons_of_mem _ hy)), List.map_cons, h1, Option.getD_some]

theorem pick_append {x : Ident} : ∀ {xs : List Ident} {vs : List Val} {y : Ident} {v : Val}, xs.length = vs.length → y ∉ xs →
    pick (xs ++ [y]) (vs ++ [v]) x = if x = y then some v else pick xs vs x
  | [], [], y, v, _, _ => by simp [pick]
  | z :: zs, w :: ws, y, v, hl, hy => by
    simp only [List.mem_cons, not_or] at hy
    simp only [List.cons_append, pick]
    by_cases hx : x = z
    · rw [if_pos hx, if_pos hx, if_neg (fun h : x = y => hy.1 (h.symm.trans hx))]
    · rw [if_neg hx, if_neg hx]
      exact pick_append (by simpa using hl) hy.2

theorem Holds.set {env : Env} {scope : List Ident} {prev : List Val} (h : Holds env scope prev) (hl : scope.length = prev.length) {x : Ident}
    (hx : x ∉ scope) (v : Val) : Holds (env.set x (.val v)) (scope ++ [x]) (prev ++ [v]) := by
  intro y hy
  rw [pick_append hl hx]
  by_cases hyx : y = x
  · subst hyx
    exact ⟨v, by simp, by simp [Env.val, Env.set]⟩
  · obtain ⟨w, h1, h2⟩ := h y (by simpa [hyx] using hy)
    exact ⟨w, by rw [if_neg hyx]; exact h1, by simpa [Env.val, Env.set, hyx] using h2⟩

theorem Holds.skip {env : Env} {scope : List Ident} {prev : List Val} (h : Holds env scope prev) {x : Ident}
    (hx : x ∉ scope) (v : Rv) : Holds (env.set x v) scope prev := by
  intro y hy
  obtain ⟨w, h1, h2⟩ := h y hy
  have : y ≠ x := fun h => hx (h ▸ hy)
  exact ⟨w, h1, by simpa [Env.val, Env.set, this] using h2⟩

/-- The lengths mention only preceding fields which are not skipped. -/
def closed : List Ident → List FieldD → Prop
  | _, [] => True
  | scope, d :: ds => (d.skip = false → ∀ u, d.len = some (.expr u) → ∀ x ∈ u.vars, x ∈ scope) ∧ closed (after scope d) ds

/-! ## Checks -/

/-- Variables of the type of a reader are the reader. -/
def Agrees (k : KEnv) (env : Env) : Prop := ∀ x, k x = some .handle → env x = some .reader

theorem Agrees.set {k : KEnv} {env : Env} (h : Agrees k env) (x : Ident) (v : Rv) : Agrees (k.set x .value) (env.set x v) := by
  intro y hy
  unfold KEnv.set at hy
  unfold Env.set
  split at hy
  · cases hy
  · rename_i hne
    rw [if_neg hne]
    exact h y hy

theorem checks_readContainer {d : FieldD} {t : Ty} {k : KEnv} (h : (readContainer d t).checks k = true) : k readerId = some .handle := by
  unfold readContainer at h
  split at h
  · simp only [Exp.checks, Bool.and_eq_true, beq_iff_eq] at h
    have := h.2.1
    unfold KEnv.set at this
    rwa [if_neg (by decide)] at this
  · simpa [Exp.checks] using h

theorem checks_readInner {d : FieldD} {t : Ty} {k : KEnv} (h : (readInner d t).checks k = true) : k readerId = some .handle := by
  unfold readInner at h
  split at h
  · split at h
    · exact checks_readContainer h
    · exact checks_readContainer (by simpa [Exp.checks] using h)
  · simpa [Exp.checks] using h
  · split at h
    · simpa [Exp.checks] using h
    · split at h
      · exact checks_readContainer h
      · simpa [Exp.checks] using h

theorem checks_fieldBody {d : FieldD} {k : KEnv} (h : (fieldBody d).checks k = true) : k readerId = some .handle := by
  unfold fieldBody at h
  split at h
  · split at h <;> simpa [Exp.checks] using h
  · split at h
    · simp only [readOption, Exp.checks, Bool.and_eq_true, beq_iff_eq] at h
      exact h.1
    · exact checks_readInner h

theorem readFieldBody_eq {d : FieldD} (hk : d.skip = false) : readFieldBody d = if d.defaultOnEof
      then .orDefault d.dflt (if d.pre.isEmpty then fieldBody d else .andThen (.call (.constant d.pre) none) none (fieldBody d))
      else .try (if d.pre.isEmpty then fieldBody d else .andThen (.call (.constant d.pre) none) none (fieldBody d)) := by
  unfold readFieldBody
  rw [if_neg (by simp [hk])]
  rfl

theorem checks_field {d : FieldD} {k : KEnv} (hk : d.skip = false) (h : (readFieldBody d).checks k = true) : k readerId = some .handle := by
  rw [readFieldBody_eq hk] at h
  have h' : (if d.pre.isEmpty then fieldBody d else .andThen (.call (.constant d.pre) none) none (fieldBody d)).checks k = true := by
    split at h <;> simpa only [Exp.checks] using h
  split at h'
  · exact checks_fieldBody h'
  · simp only [Exp.checks, Bool.and_eq_true] at h'
    exact checks_fieldBody h'.2

/-! ## Structs and enums: reading -/

/-- The code as it is for a list of fields. -/
theorem runBody_eq : ∀ (ds : List FieldD) {scope pre : List Ident} {prev done : List Val} {k : KEnv} {env : Env},
    Agrees k env → Holds env scope prev → scope.length = prev.length → (∀ x ∈ scope, x ∈ pre) → env.vals pre = some done →
    (pre ++ ds.map (·.name)).Nodup → (∀ d ∈ ds, d.accepted = true) → checksBody (readableBody ds).1 k = true → closed scope ds →
    runBody T e (readableBody ds).1 (pre ++ (readableBody ds).2) env =
      Prog.bind (decodeFields T e (fieldsOf scope ds) prev) fun r => .ret (some (match r with
        | .ok v => .ok (chain done v)
        | .error er => .error er))
  | [], scope, pre, prev, done, k, env, _, _, _, _, hvals, _, _, _, _ => by
    simp only [readableBody, List.map_nil, List.append_nil, runBody, hvals, fieldsOf, decodeFields, M.pure, Prog.bind, Option.map_some]
  | d :: ds, scope, pre, prev, done, k, env, hag, hh, hlen, hsub, hvals, hnd, hacc, hck, hcl => by
    have hnd' : (pre ++ [d.name] ++ ds.map (·.name)).Nodup := by simpa using hnd
    have hnp : d.name ∉ pre := by
      rw [List.nodup_append] at hnd
      intro h
      exact hnd.2.2 _ h _ (by simp) rfl
    have hns : d.name ∉ scope := fun h => hnp (hsub _ h)
    have hck : (readFieldBody d).checks k = true ∧ checksBody (readableBody ds).1 (k.set d.name .value) = true := by
      simpa [readableBody, checksBody] using hck
    have hnames : pre ++ (readableBody (d :: ds)).2 = (pre ++ [d.name]) ++ (readableBody ds).2 := by simp [readableBody]
    have hvals' : ∀ v, (env.set d.name (.val v)).vals (pre ++ [d.name]) = some (done ++ [v]) := by
      intro v
      refine vals_append ?_ ?_
      · rw [vals_set hnp, hvals]
      · simp [Env.vals, Env.val, Env.set]
    have hch : ∀ (v w : Val), chain (done ++ [v]) w = chain done (.pair v w) := by
      intro v w
      simp [chain]
    rw [hnames]
    show ((readFieldBody d).eval T e env).bind _ = _
    simp only [fieldsOf]
    rw [decodeFields_cons]
    cases hk : d.skip
    · have hr := hag _ (checks_field hk hck.1)
      have hs : Sees env scope prev d := fun u hu => hh.vals (hcl.1 hk u hu)
      rw [eval_field hr hs (hacc d (by simp)) hk, if_neg (by simp [FieldD.attrs, hk]), pbind_bind]
      simp only [M.bind, M.map]
      rw [pbind_bind]
      refine pbind_congr _ fun r => ?_
      cases r with
      | error er => rfl
      | ok v =>
        simp only [fin, Prog.bind]
        have hcl2 : closed (scope ++ [d.name]) ds := by
          have := hcl.2
          simpa [after, hk] using this
        show runBody T e (readableBody ds).1 _ _ = _
        rw [runBody_eq ds (hag.set _ (.val v)) (hh.set hlen hns v) (by simp [hlen])
          (by intro x hx; simp only [List.mem_append] at hx ⊢; exact hx.imp (hsub x) id) (hvals' v) hnd'
          (fun d' hd' => hacc d' (by simp [hd'])) hck.2 hcl2, pbind_bind]
        simp only [after, hk, Bool.false_eq_true, if_false]
        refine pbind_congr _ fun r => ?_
        cases r with
        | error er => rfl
        | ok w => simp only [hch, Prog.bind, M.pure]
    · have hb : readFieldBody d = .default d.dflt := by unfold readFieldBody; rw [if_pos hk]
      rw [hb, if_pos (by simp [FieldD.attrs, hk])]
      simp only [Exp.eval, Prog.bind, M.map, M.bind]
      have hcl2 : closed scope ds := by
        have := hcl.2
        simpa [after, hk] using this
      show runBody T e (readableBody ds).1 _ _ = _
      rw [runBody_eq ds (hag.set _ (.val d.dflt)) (hh.skip hns _) hlen
        (fun x hx => List.mem_append_left _ (hsub x hx)) (hvals' d.dflt) hnd' (fun d' hd' => hacc d' (by simp [hd'])) hck.2 hcl2, pbind_bind]
      simp only [after, hk, if_true]
      refine pbind_congr _ fun r => ?_
      cases r with
      | error er => rfl
      | ok w => simp only [hch, Prog.bind, M.pure, FieldD.attrs]

theorem runBody_start {ds : List FieldD} {k : KEnv} {env : Env} (hag : Agrees k env) (hnd : (ds.map (·.name)).Nodup)
    (hacc : ∀ d ∈ ds, d.accepted = true) (hck : checksBody (readableBody ds).1 k = true) (hcl : closed [] ds) :
    runBody T e (readableBody ds).1 (readableBody ds).2 env = Prog.bind (decodeFields T e (fieldsOf [] ds) []) fun r => .ret (some r) := by
  have := runBody_eq (T := T) (e := e) ds (scope := []) (pre := []) (prev := []) (done := []) hag (fun x hx => by cases hx) rfl
    (fun x hx => by cases hx) rfl (by simpa using hnd) hacc hck hcl
  simp only [List.nil_append] at this
  rw [this]
  exact pbind_congr _ fun r => by cases r <;> rfl

theorem agrees_start : Agrees readKinds readEnv := by
  intro x hx
  unfold readKinds at hx
  unfold readEnv
  split at hx
  · rename_i h; rw [if_pos h]
  · cases hx

theorem readStruct_eq {ds : List FieldD} (hnd : (ds.map (·.name)).Nodup) (hacc : ∀ d ∈ ds, d.accepted = true) (hck : readChecks ds = true)
    (hcl : closed [] ds) : readStruct T e ds = Prog.bind (decodeFields T e (fieldsOf [] ds) []) fun r => .ret (some r) :=
  runBody_start agrees_start hnd hacc hck hcl

theorem runArms_eq {env : Env} {k : KEnv} (hag : Agrees k env) (kind : Nat) : ∀ (arms : List (Nat × List FieldD)) (i : Nat),
    (∀ a ∈ arms, (a.2.map (·.name)).Nodup ∧ (∀ d ∈ a.2, d.accepted = true) ∧ checksBody (readableBody a.2).1 k = true ∧ closed [] a.2) →
    runArms T e env kind arms i = Prog.bind (decodeVariants T e (variantsOf arms) kind i) fun r => .ret (some r)
  | [], i, _ => by simp only [runArms, variantsOf, decodeVariants, M.fail, Prog.bind]
  | (tag, ds) :: arms, i, h => by
    obtain ⟨h1, h2, h3, h4⟩ := h (tag, ds) (by simp)
    simp only [runArms, variantsOf, decodeVariants]
    split
    · rw [runBody_start hag h1 h2 h3 h4, pbind_bind]
      simp only [M.map, M.bind]
      rw [pbind_bind]
      refine pbind_congr _ fun r => ?_
      cases r <;> rfl
    · exact runArms_eq hag kind arms (i + 1) fun a ha => h a (by simp [ha])

theorem readEnum_eq {d : EnumDesc} {arms : List (Nat × List FieldD)}
    (h : ∀ a ∈ arms, (a.2.map (·.name)).Nodup ∧ (∀ f ∈ a.2, f.accepted = true) ∧ closed [] a.2) (hck : readEnumChecks arms = true) :
    readEnum T e d arms = Prog.bind (decode T e (.enum d (variantsOf arms)) Cx.std) fun r => .ret (some r) := by
  unfold readEnum
  rw [Exp.eval, pbind_bind, eval_call (by rfl) rfl rfl]
  simp only [decode, M.map, M.bind]
  rw [pbind_bind, pbind_bind]
  refine pbind_congr _ fun r => ?_
  cases r with
  | error er => rfl
  | ok tag =>
    simp only [tryK, Prog.bind, M.pure]
    refine runArms_eq (agrees_start.set _ _) tag arms 0 fun a ha => ?_
    obtain ⟨h1, h2, h3⟩ := h a ha
    unfold readEnumChecks at hck
    rw [List.all_eq_true] at hck
    exact ⟨h1, h2, hck a ha, h3⟩

/-! ## Writing -/

/-- The variables have the values of the fields. -/
def HoldsW (env : WEnv) (scope : List Ident) (prev : List Val) : Prop :=
  ∀ x ∈ scope, ∃ v, pick scope prev x = some v ∧ env.val x = some v

theorem HoldsW.vals {env : WEnv} {scope : List Ident} {prev : List Val} (h : HoldsW env scope prev) : ∀ {xs : List Ident}, (∀ x ∈ xs, x ∈ scope) →
    env.vals xs = some (xs.map fun x => (pick scope prev x).getD .unit)
  | [], _ => rfl
  | x :: xs, hx => by
    obtain ⟨v, h1, h2⟩ := h x (hx x (by simp))
    simp only [WEnv.vals, h2, h.vals (fun y hy => hx y (List.mem_cons_of_mem _ hy)), List.map_cons, h1, Option.getD_some]

theorem HoldsW.next {env : WEnv} {scope : List Ident} {prev : List Val} (h : HoldsW env scope prev) (hl : scope.length = prev.length) {x : Ident}
    (hx : x ∉ scope) {v : Val} (hv : env.val x = some v) : HoldsW env (scope ++ [x]) (prev ++ [v]) := by
  intro y hy
  rw [pick_append hl hx]
  by_cases hyx : y = x
  · subst hyx
    exact ⟨v, by simp, hv⟩
  · obtain ⟨w, h1, h2⟩ := h y (by simpa [hyx] using hy)
    exact ⟨w, by rw [if_neg hyx]; exact h1, h2⟩

/-- The variables in the length have the values of the preceding fields. -/
def SeesW (env : WEnv) (scope : List Ident) (prev : List Val) (d : FieldD) : Prop :=
  ∀ u, d.len = some (.expr u) → env.vals u.vars = some (u.vars.map fun x => (pick scope prev x).getD .unit)

theorem exec_length {env : WEnv} (hw : env.hasWriter = true) {scope : List Ident} {prev : List Val} {d : FieldD} (ho : d.opaqueTy = false)
    (hs : SeesW env scope prev d) {v : Val} (hx : env.val d.name = some v) {n : Nat} (hn : valLen v = some n) :
    (writeLengthBody d).exec T e env = some (writeLenR T.toHost n ((d.attrs scope).wcx prev).len) := by
  unfold writeLengthBody Attrs.wcx FieldD.attrs
  cases hl : d.len with
  | none => simp only [ho, Bool.false_eq_true, if_false, Stmt.exec, hw, if_true, hx, Option.map_some, hn, writeLenR]
  | some l =>
    cases l with
    | typed lt => simp only [ho, Bool.false_eq_true, if_false, Stmt.exec, hw, if_true, hx, Option.map_some, hn, writeLenR]
    | untilEof => simp only [ho, Bool.false_eq_true, if_false, Stmt.exec, writeLenR]
    | expr u => simp only [ho, Bool.false_eq_true, if_false, Stmt.exec, hx, hs u hl, hn, writeLenR]

/-- Types which the macro does not look into do not use the context. -/
theorem encode_cx {t : Ty} (h1 : isContainer t = false) (h2 : ∀ n s, t ≠ .array n s) (h3 : ∀ s, t ≠ .option s) (cx : Cx) {v : Val} (hty : hasTy T t v) :
    encode T e t cx v = encode T e t Cx.std v := by
  unfold hasTy at hty
  split at hty <;> first
    | (simp only [isContainer] at h1; cases h1; done)
    | (exact absurd rfl (h2 _ _))
    | (exact absurd rfl (h3 _))
    | (exact absurd hty id)
    | simp only [encode]

theorem exec_container {env : WEnv} (hw : env.hasWriter = true) {scope : List Ident} {prev : List Val} {d : FieldD} (ho : d.opaqueTy = false)
    (hs : SeesW env scope prev d) {v : Val} (hx : env.val d.name = some v) {n : Nat} (hn : valLen v = some n) (t : Ty) :
    (Stmt.seq (writeLengthBody d) (.contents t d.name)).exec T e env =
      some ((writeLenR T.toHost n ((d.attrs scope).wcx prev).len).seq (writeContents T e t v)) := by
  simp only [Stmt.exec, exec_length hw ho hs hx hn, hw, if_true, hx, Option.map_some]

/-- `field.ty.inner()` -/
theorem exec_inner {env : WEnv} (hw : env.hasWriter = true) {scope : List Ident} {prev : List Val} {d : FieldD} (ho : d.opaqueTy = false)
    (hv : d.varint = false) (hs : SeesW env scope prev d) {v : Val} (hx : env.val d.name = some v) (t : Ty) {cx : Cx}
    (hcx : (∀ s, t ≠ .option s) → cx = (d.attrs scope).wcx prev) (hcx' : ∀ s, t = .option s → cx = Cx.std) (hty : hasTy T t v) :
    (writeInner d t).exec T e env = some (encode T e t cx v) := by
  by_cases hc : isContainer t = true
  · have hcx := hcx (by intro s hs; subst hs; simp [isContainer] at hc)
    subst hcx
    have hi : writeInner d t = .seq (writeLengthBody d) (.contents t d.name) := by
      cases t <;> simp only [isContainer, Bool.false_eq_true] at hc <;> simp [writeInner, hv, isContainer]
    rw [hi]
    cases t <;> simp only [isContainer, Bool.false_eq_true] at hc <;> cases v <;> simp only [hasTy] at hty
    all_goals
      rw [exec_container hw ho hs hx rfl]
      simp only [encode, writeContents] <;> rfl
  · have hc : isContainer t = false := by simpa using hc
    unfold writeInner
    split
    · have hcx := hcx (by intro _ h; cases h)
      have hi : cx.inl = true := by
        rw [hcx]; unfold Attrs.wcx FieldD.attrs
        simp only [ho, Bool.false_eq_true, if_false]
        cases d.len with
        | none => rfl
        | some l => cases l <;> rfl
      cases v <;> simp only [hasTy] at hty
      simp only [Stmt.exec, hw, if_true, hx, Option.map_some, writeContents, encode, hi]
    · rename_i hn
      simp only [hv, hc, Bool.false_eq_true, if_false, Stmt.exec, hw, if_true, hx, Option.map_some, Option.some.injEq]
      by_cases h3 : ∀ s, t ≠ .option s
      · exact (encode_cx hc (fun n s => hn n s) h3 _ hty).symm
      · have : ∃ s, t = .option s := by
          apply Classical.byContradiction
          intro hne
          exact h3 fun s hs => hne ⟨s, hs⟩
        obtain ⟨s, hs⟩ := this
        rw [hcx' s hs]

/-- `_writer_.write_u64_varint( *x )?;` -/
def varintW (T : Target) : Val → WProg
  | .num n => writeVarint T.toHost n
  | _ => .fail .illTyped

/-- The body of a field, before `constant_prefix`. -/
def writeBody (d : FieldD) : Stmt :=
  if d.opaqueTy then (if d.varint then .varint d.name else .value d.ty d.name) else match d.ty with
    | .option t => .ifSome d.name (writeInner d t)
    | t => writeInner d t

theorem hasWriter_set {env : WEnv} (hw : env.hasWriter = true) {x : Ident} (hx : x ≠ writerId) (v : Wv) : (env.set x v).hasWriter = true := by
  unfold WEnv.hasWriter WEnv.set at *
  rw [if_neg (Ne.symm hx)]
  exact hw

theorem name_ne {env : WEnv} (hw : env.hasWriter = true) {x : Ident} {v : Val} (hx : env.val x = some v) : x ≠ writerId := by
  intro h
  subst h
  unfold WEnv.hasWriter at hw
  unfold WEnv.val at hx
  split at hx
  · rename_i h; rw [h] at hw; cases hw
  · cases hx

theorem exec_writeBody {env : WEnv} (hw : env.hasWriter = true) {scope : List Ident} {prev : List Val} {d : FieldD} (hs : SeesW env scope prev d)
    (ha : d.accepted = true) {v : Val} (hx : env.val d.name = some v) (hty : hasTy T d.ty v) :
    (writeBody d).exec T e env = some (if d.varint then varintW T v
      else encode T e d.ty ((d.attrs scope).wcx prev) v) := by
  simp only [FieldD.accepted, Bool.and_eq_true, Bool.or_eq_true, Bool.not_eq_true'] at ha
  unfold writeBody
  cases ho : d.opaqueTy
  · simp only [Bool.false_eq_true, if_false]
    cases hv : d.varint
    · simp only [Bool.false_eq_true, if_false]
      split
      · rename_i t ht
        have hnone : ∀ u, d.len ≠ some (.expr u) := by
          intro u hu
          have := ha.1
          simp [hu, ht, isContainer] at this
        rw [ht] at hty ⊢
        cases v <;> simp only [hasTy] at hty
        · simp only [Stmt.exec, hw, if_true, hx, encode]
        · rename_i w
          simp only [Stmt.exec, hw, if_true, hx, encode]
          rw [exec_inner (scope := scope) (prev := prev) (hasWriter_set hw (name_ne hw hx) _) ho hv (fun u hu => absurd hu (hnone u))
            (v := w) (by simp [WEnv.val, WEnv.set]) t (cx := ((d.attrs scope).wcx prev).opt t) ?_ ?_ hty]
          · rfl
          · intro h
            cases t <;> first | rfl | exact absurd rfl (h _)
          · intro s hs'
            rw [hs']
            rfl
      · rename_i hn
        exact exec_inner hw ho hv hs hx _ (fun _ => rfl) (fun s h => absurd h (hn s)) hty
    · have ht := isU64_eq (ha.2.resolve_left (by simp [hv]))
      rw [ht]
      simp only [writeInner, hv, if_true, Stmt.exec, hw, hx, Option.map_some]
      cases v <;> rfl
  · simp only [if_true]
    cases hv : d.varint
    · simp only [Bool.false_eq_true, if_false, Stmt.exec, hw, if_true, hx, Option.map_some, Attrs.wcx, FieldD.attrs, ho]
    · simp only [if_true, Stmt.exec, hw, hx, Option.map_some]
      cases v <;> rfl

theorem exec_field {env : WEnv} (hw : env.hasWriter = true) {scope : List Ident} {prev : List Val} {d : FieldD} (hs : SeesW env scope prev d)
    (ha : d.accepted = true) {v : Val} (hx : env.val d.name = some v) (hty : hasTy T d.ty v) :
    (writeFieldBody d).exec T e env = some (
      let body := if d.varint then varintW T v
        else encode T e d.ty ((d.attrs scope).wcx prev) v
      if d.pre.isEmpty then body else .bytes d.pre body) := by
  have h := exec_writeBody (T := T) (e := e) hw hs ha hx hty
  have h1 : writeFieldBody d = if d.pre.isEmpty then writeBody d else .seq (.constant d.pre) (writeBody d) := rfl
  rw [h1]
  cases d.pre.isEmpty
  · simp only [Bool.false_eq_true, if_false, Stmt.exec, hw, if_true, h]
    rfl
  · simp only [if_true]
    exact h

/-- The variables of the fields which are not skipped have their values. -/
def BoundW (env : WEnv) : List FieldD → List Val → Prop
  | d :: ds, v :: vs => (d.skip = false → env.val d.name = some v) ∧ BoundW env ds vs
  | [], [] => True
  | _, _ => False

/-- Variables of the type of a writer are the writer. -/
def AgreesW (k : KEnv) (env : WEnv) : Prop := ∀ x, k x = some .handle → env x = some .writer

theorem checks_writeInner {d : FieldD} {t : Ty} {k : KEnv} (h : (writeInner d t).checks k = true) : k writerId = some .handle := by
  unfold writeInner at h
  split at h
  · simp only [Stmt.checks, Bool.and_eq_true, beq_iff_eq] at h
    exact h.1
  · split at h
    · simp only [Stmt.checks, Bool.and_eq_true, beq_iff_eq] at h
      exact h.1
    · split at h
      · simp only [Stmt.checks, Bool.and_eq_true, beq_iff_eq] at h
        exact h.2.1
      · simp only [Stmt.checks, Bool.and_eq_true, beq_iff_eq] at h
        exact h.1

theorem checks_writeField {d : FieldD} {k : KEnv} (h : (writeFieldBody d).checks k = true) : k writerId = some .handle := by
  have h1 : writeFieldBody d = if d.pre.isEmpty then writeBody d else .seq (.constant d.pre) (writeBody d) := rfl
  rw [h1] at h
  split at h
  · unfold writeBody at h
    split at h
    · split at h <;> · simp only [Stmt.checks, Bool.and_eq_true, beq_iff_eq] at h; exact h.1
    · split at h
      · simp only [Stmt.checks, Bool.and_eq_true, beq_iff_eq] at h; exact h.1.1
      · exact checks_writeInner h
  · simp only [Stmt.checks, Bool.and_eq_true, beq_iff_eq] at h
    exact h.1

theorem exec_body {env : WEnv} {k : KEnv} (hag : AgreesW k env) : ∀ (ds : List FieldD) (vs : List Val) {scope : List Ident} {prev : List Val},
    BoundW env ds vs → HoldsW env scope prev → scope.length = prev.length → (scope ++ ds.map (·.name)).Nodup →
    (∀ d ∈ ds, d.accepted = true) → (writableBody ds).checks k = true → closed scope ds →
    hasTyFields T (fieldsOf scope ds) (chain vs .unit) →
    (writableBody ds).exec T e env = some (encodeFields T e (fieldsOf scope ds) prev (chain vs .unit))
  | [], [], scope, prev, _, _, _, _, _, _, _, _ => by
    simp only [writableBody, Stmt.exec, fieldsOf, chain, List.foldr_nil, encodeFields]
  | [], v :: vs, _, _, hb, _, _, _, _, _, _, _ => by cases hb
  | d :: ds, [], _, _, hb, _, _, _, _, _, _, _ => by cases hb
  | d :: ds, v :: vs, scope, prev, hb, hh, hlen, hnd, hacc, hck, hcl, hty => by
    have hch : chain (v :: vs) .unit = .pair v (chain vs .unit) := rfl
    rw [hch] at hty ⊢
    simp only [fieldsOf, hasTyFields] at hty
    simp only [fieldsOf, encodeFields]
    cases hk : d.skip
    · have hns : d.name ∉ scope := by
        rw [List.nodup_append] at hnd
        intro h
        exact hnd.2.2 _ h _ (by simp) rfl
      simp only [writableBody, hk, Bool.false_eq_true, if_false, Stmt.checks, Bool.and_eq_true] at hck ⊢
      have hw : env.hasWriter = true := by
        unfold WEnv.hasWriter
        rw [hag _ (checks_writeField hck.1)]
      have hx := hb.1 hk
      have hcl2 : closed (scope ++ [d.name]) ds := by
        have := hcl.2
        simpa [after, hk] using this
      have ha : after scope d = scope ++ [d.name] := by simp [after, hk]
      rw [ha] at hty ⊢
      rw [Stmt.exec, exec_field hw (fun u hu => hh.vals (hcl.1 hk u hu)) (hacc d (by simp)) hx hty.1,
        exec_body hag ds vs (prev := prev ++ [v]) hb.2 (hh.next hlen hns hx) (by simp [hlen]) (by simpa using hnd)
          (fun d' hd' => hacc d' (by simp [hd'])) hck.2 hcl2 hty.2]
      simp only [show (d.attrs scope).skip = false from hk, Bool.false_eq_true, if_false]
      rfl
    · simp only [writableBody, hk, if_true] at hck ⊢
      have hcl2 : closed scope ds := by
        have := hcl.2
        simpa [after, hk] using this
      have ha : after scope d = scope := by simp [after, hk]
      rw [ha] at hty ⊢
      rw [if_pos (by simp [FieldD.attrs, hk])]
      refine exec_body hag ds vs hb.2 hh hlen ?_ (fun d' hd' => hacc d' (by simp [hd'])) hck hcl2 hty.2
      rw [List.map_cons] at hnd
      exact hnd.sublist (List.Sublist.append_left (List.sublist_cons_self _ _) _)

theorem assign_other {x : Ident} : ∀ (ds : List FieldD) (vs : List Val) (env : WEnv), x ∉ ds.map (·.name) → assign ds vs env x = env x
  | [], _, env, _ => by simp only [assign]
  | d :: ds, [], env, _ => by simp only [assign]
  | d :: ds, v :: vs, env, h => by
    simp only [List.map_cons, List.mem_cons, not_or] at h
    simp only [assign]
    rw [assign_other ds vs _ h.2]
    split
    · rfl
    · simp only [WEnv.set, if_neg h.1]

theorem bound_mono {env env' : WEnv} : ∀ (ds : List FieldD) (vs : List Val), BoundW env ds vs → (∀ x ∈ ds.map (·.name), env.val x = env'.val x) →
    BoundW env' ds vs
  | [], [], _, _ => trivial
  | [], _ :: _, h, _ => h
  | _ :: _, [], h, _ => h
  | d :: ds, v :: vs, h, he => ⟨fun hk => by rw [← he d.name (by simp)]; exact h.1 hk, bound_mono ds vs h.2 fun x hx => he x (by simp at hx ⊢; exact Or.inr hx)⟩

theorem assign_bound : ∀ (ds : List FieldD) (vs : List Val) (env : WEnv), ds.length = vs.length → (ds.map (·.name)).Nodup →
    BoundW (assign ds vs env) ds vs
  | [], [], _, _, _ => trivial
  | [], _ :: _, _, h, _ => by cases h
  | _ :: _, [], _, h, _ => by cases h
  | d :: ds, v :: vs, env, h, hnd => by
    simp only [List.map_cons, List.nodup_cons] at hnd
    refine ⟨fun hk => ?_, assign_bound ds vs _ (by simpa using h) hnd.2⟩
    simp only [assign, WEnv.val]
    rw [assign_other ds vs _ hnd.1]
    simp [hk, WEnv.set]

theorem assign_agrees : ∀ (ds : List FieldD) (vs : List Val) {k : KEnv} {env : WEnv}, ds.length = vs.length → AgreesW k env →
    AgreesW (assignKinds ds k) (assign ds vs env)
  | [], [], _, _, _, h => h
  | [], _ :: _, _, _, h, _ => by cases h
  | _ :: _, [], _, _, h, _ => by cases h
  | d :: ds, v :: vs, k, env, hl, h => by
    simp only [assignKinds, assign]
    refine assign_agrees ds vs (by simpa using hl) ?_
    cases d.skip
    · intro y hy
      simp only [Bool.false_eq_true, if_false, KEnv.set] at hy
      simp only [Bool.false_eq_true, if_false, WEnv.set]
      split at hy
      · cases hy
      · rename_i hne
        rw [if_neg hne]
        exact h y hy
    · exact h

theorem agreesW_start : AgreesW writeKinds writeEnv := by
  intro x hx
  unfold writeKinds at hx
  unfold writeEnv
  split at hx
  · rename_i h; rw [if_pos h]
  · cases hx

theorem writeStruct_eq {ds : List FieldD} {vs : List Val} (hl : ds.length = vs.length) (hnd : (ds.map (·.name)).Nodup)
    (hacc : ∀ d ∈ ds, d.accepted = true) (hck : writeChecks ds = true) (hcl : closed [] ds)
    (hty : hasTyFields T (fieldsOf [] ds) (chain vs .unit)) :
    writeStruct T e ds vs = some (encodeFields T e (fieldsOf [] ds) [] (chain vs .unit)) :=
  exec_body (assign_agrees ds vs hl agreesW_start) ds vs (assign_bound ds vs _ hl hnd) (fun x hx => by cases hx) rfl (by simpa using hnd) hacc hck hcl hty

theorem writeEnum_eq {d : EnumDesc} : ∀ {arms : List (Nat × List FieldD)} {i : Nat} {vs : List Val},
    (∀ a ∈ arms, (a.2.map (·.name)).Nodup ∧ (∀ f ∈ a.2, f.accepted = true) ∧ closed [] a.2) → writeEnumChecks d arms = true →
    (∀ a, arms[i]? = some a → a.2.length = vs.length) → hasTyVariants T (variantsOf arms) i (chain vs .unit) →
    writeEnum T e d arms i vs = some (encodeVariants T e d (variantsOf arms) i (chain vs .unit))
  | [], _, _, _, _, _, hty => by simp only [variantsOf, hasTyVariants] at hty
  | (tag, ds) :: arms, 0, vs, h, hck, hl, hty => by
    obtain ⟨h1, h2, h3⟩ := h (tag, ds) (by simp)
    simp only [writeEnumChecks, List.all_cons, Bool.and_eq_true, Bool.or_eq_true, beq_iff_eq] at hck
    have hl := hl (tag, ds) rfl
    simp only [variantsOf, hasTyVariants] at hty
    have hs := writeStruct_eq (T := T) (e := e) hl h1 h2 hck.1.1 h3 hty
    unfold writeStruct at hs
    have hw : d.peek = false → (assign ds vs writeEnv).hasWriter = true := by
      intro hp
      unfold WEnv.hasWriter
      rw [assign_agrees ds vs hl agreesW_start _ (hck.1.2.resolve_left (by simp [hp]))]
    simp only [writeEnum, hs, variantsOf, encodeVariants]
    cases hp : d.peek
    · simp only [Bool.false_eq_true, if_false, hw hp, if_true]
    · rfl
  | a :: arms, i + 1, vs, h, hck, hl, hty => by
    obtain ⟨tag, ds⟩ := a
    simp only [writeEnum, variantsOf, encodeVariants]
    simp only [writeEnumChecks, List.all_cons, Bool.and_eq_true] at hck
    simp only [variantsOf, hasTyVariants] at hty
    exact writeEnum_eq (fun a ha => h a (by simp [ha])) hck.2 (fun a ha => hl a (by simpa using ha)) hty

end

/-! ## Which lengths can be written down -/

theorem checks_vars_container {d : FieldD} {t : Ty} {k : KEnv} (h : (readContainer d t).checks k = true) {u : UserExpr} (hu : d.len = some (.expr u)) :
    ∀ x ∈ u.vars, k x = some .value := by
  simp only [readContainer, readLengthBody, hu, Exp.checks, Bool.and_eq_true, List.all_eq_true, beq_iff_eq] at h
  exact h.1

/-- The variables in the length are in scope when the field is read. -/
theorem checks_vars {d : FieldD} {k : KEnv} (hk : d.skip = false) (ha : d.accepted = true) (h : (readFieldBody d).checks k = true) {u : UserExpr}
    (hu : d.len = some (.expr u)) : ∀ x ∈ u.vars, k x = some .value := by
  simp only [FieldD.accepted, hu, Bool.and_eq_true, Bool.not_eq_true', Bool.or_eq_true] at ha
  rw [readFieldBody_eq hk] at h
  have h' : (if d.pre.isEmpty then fieldBody d else .andThen (.call (.constant d.pre) none) none (fieldBody d)).checks k = true := by
    split at h <;> simpa only [Exp.checks] using h
  have h2 : (fieldBody d).checks k = true := by
    split at h'
    · exact h'
    · simp only [Exp.checks, Bool.and_eq_true] at h'
      exact h'.2
  have hv : d.varint = false := by
    rcases ha.2 with h | h
    · exact h
    · rw [isU64_eq h] at ha
      simp [isContainer] at ha
  unfold fieldBody at h2
  rw [if_neg (by simp [ha.1.1])] at h2
  have hc := ha.1.2
  split at h2
  · rename_i t ht; rw [ht] at hc; simp [isContainer] at hc
  · unfold readInner at h2
    split at h2
    · split at h2
      · exact checks_vars_container h2 hu
      · exact checks_vars_container (t := d.ty) (by simp only [Exp.checks] at h2; simpa [*] using h2) hu
    · rename_i ht; rw [ht] at hc; simp [isContainer] at hc
    · simp only [hv, hc, Bool.false_eq_true, if_false, if_true] at h2
      exact checks_vars_container h2 hu

/-- The variables in the length are in scope when the field is written. -/
theorem checks_vars_write {d : FieldD} {k : KEnv} (ha : d.accepted = true) (h : (writeFieldBody d).checks k = true) {u : UserExpr}
    (hu : d.len = some (.expr u)) : ∀ x ∈ u.vars, k x = some .value := by
  simp only [FieldD.accepted, hu, Bool.and_eq_true, Bool.not_eq_true', Bool.or_eq_true] at ha
  have hc := ha.1.2
  have hv : d.varint = false := by
    rcases ha.2 with h | h
    · exact h
    · rw [isU64_eq h] at hc
      simp [isContainer] at hc
  have h1 : writeFieldBody d = if d.pre.isEmpty then writeBody d else .seq (.constant d.pre) (writeBody d) := rfl
  rw [h1] at h
  have h2 : (writeBody d).checks k = true := by
    split at h
    · exact h
    · simp only [Stmt.checks, Bool.and_eq_true] at h
      exact h.2
  unfold writeBody at h2
  rw [if_neg (by simp [ha.1.1])] at h2
  split at h2
  · rename_i t ht; rw [ht] at hc; simp [isContainer] at hc
  · unfold writeInner at h2
    split at h2
    · rename_i ht; rw [ht] at hc; simp [isContainer] at hc
    · simp only [hv, hc, Bool.false_eq_true, if_false, if_true, Stmt.checks, writeLengthBody, hu, Bool.and_eq_true, List.all_eq_true, beq_iff_eq] at h2
      exact h2.1.2

/-- Names of the fields which are not skipped. -/
def kept (ds : List FieldD) : List Ident := (ds.filter (!·.skip)).map (·.name)

theorem assignKinds_value {x : Ident} : ∀ (ds : List FieldD) {k : KEnv}, assignKinds ds k x = some .value → x ∈ kept ds ∨ k x = some .value
  | [], _, h => Or.inr h
  | d :: ds, k, h => by
    simp only [assignKinds] at h
    rcases assignKinds_value ds h with h | h
    · left
      simp only [kept, List.mem_map, List.mem_filter] at h ⊢
      obtain ⟨d', hd', hx⟩ := h
      exact ⟨d', ⟨by simp [hd'.1], hd'.2⟩, hx⟩
    · cases hk : d.skip
      · simp only [hk, Bool.false_eq_true, if_false, KEnv.set] at h
        split at h
        · rename_i hx
          left
          simp [kept, hk, hx]
        · exact Or.inr h
      · simp only [hk, if_true] at h
        exact Or.inr h

theorem kept_sub {x : Ident} {ds : List FieldD} (h : x ∈ kept ds) : x ∈ ds.map (·.name) := by
  simp only [kept, List.mem_map, List.mem_filter] at h ⊢
  obtain ⟨d, hd, hx⟩ := h
  exact ⟨d, hd.1, hx⟩

/-- If reading and writing compile, the lengths mention only preceding fields; unless variables in scope at the beginning are also names
of fields. -/
theorem closed_of_checks {k0 : Ident → Prop} {all : List FieldD} {kw : KEnv} (hkw : ∀ x, kw x = some .value → x ∈ kept all) :
    ∀ (ds : List FieldD) {scope pre : List Ident} {k : KEnv},
    (∀ x, k x = some .value → x ∈ pre ∨ k0 x) → (∀ x ∈ pre, x ∈ kept all → x ∈ scope) → (∀ x, k0 x → x ∈ kept all → x ∈ scope) →
    (∀ d ∈ ds, d ∈ all) → (all.map (·.name)).Nodup → (∀ d ∈ ds, d.accepted = true) →
    checksBody (readableBody ds).1 k = true → (writableBody ds).checks kw = true → closed scope ds
  | [], _, _, _, _, _, _, _, _, _, _, _ => trivial
  | d :: ds, scope, pre, k, h1, h2, h3, hin, hnd, hacc, hr, hw => by
    have hr : (readFieldBody d).checks k = true ∧ checksBody (readableBody ds).1 (k.set d.name .value) = true := by
      simpa [readableBody, checksBody] using hr
    have h1' : ∀ x, (k.set d.name .value) x = some .value → x ∈ (pre ++ [d.name]) ∨ k0 x := by
      intro x hx
      unfold KEnv.set at hx
      split at hx
      · rename_i h; left; simp [h]
      · exact (h1 x hx).imp (fun h => List.mem_append_left _ h) id
    have hd := hin d (by simp)
    cases hk : d.skip
    · have hw : (writeFieldBody d).checks kw = true ∧ (writableBody ds).checks kw = true := by
        simpa [writableBody, hk, Stmt.checks] using hw
      refine ⟨fun _ u hu x hx => ?_, ?_⟩
      · have hr' := checks_vars hk (hacc d (by simp)) hr.1 hu x hx
        have hkp := hkw x (checks_vars_write (hacc d (by simp)) hw.1 hu x hx)
        rcases h1 x hr' with h | h
        · exact h2 x h hkp
        · exact h3 x h hkp
      · have : after scope d = scope ++ [d.name] := by simp [after, hk]
        rw [this]
        refine closed_of_checks hkw ds h1' ?_ (fun x hx hx' => List.mem_append_left _ (h3 x hx hx')) (fun d' hd' => hin d' (by simp [hd'])) hnd
          (fun d' hd' => hacc d' (by simp [hd'])) hr.2 hw.2
        intro x hx hx'
        rcases List.mem_append.mp hx with h | h
        · exact List.mem_append_left _ (h2 x h hx')
        · exact List.mem_append_right _ h
    · have hw : (writableBody ds).checks kw = true := by
        simpa [writableBody, hk] using hw
      refine ⟨(fun h => by rw [hk] at h; cases h), ?_⟩
      have : after scope d = scope := by simp [after, hk]
      rw [this]
      refine closed_of_checks hkw ds h1' ?_ h3 (fun d' hd' => hin d' (by simp [hd'])) hnd
          (fun d' hd' => hacc d' (by simp [hd'])) hr.2 hw
      intro x hx hx'
      rcases List.mem_append.mp hx with h | h
      · exact h2 x h hx'
      · simp only [List.mem_singleton] at h
        subst h
        exfalso
        simp only [kept, List.mem_map, List.mem_filter] at hx'
        obtain ⟨d', hd', hname⟩ := hx'
        have : d' = d := by
          have hinj : ∀ (l : List FieldD), (l.map (·.name)).Nodup → d' ∈ l → d ∈ l → d' = d := by
            intro l
            induction l with
            | nil => intro _ h; cases h
            | cons a l ih =>
              intro hnd h1 h2
              simp only [List.map_cons, List.nodup_cons, List.mem_map, not_exists, not_and] at hnd
              simp only [List.mem_cons] at h1 h2
              rcases h1 with h1 | h1 <;> rcases h2 with h2 | h2
              · rw [h1, h2]
              · subst h1; exact absurd hname.symm (hnd.1 d h2)
              · subst h2; exact absurd hname (hnd.1 d' h1)
              · exact ih hnd.2 h1 h2
          exact hinj all hnd hd'.1 hd
        subst this
        simp [hk] at hd'

theorem writeKinds_value {ds : List FieldD} (x : Ident) (h : assignKinds ds writeKinds x = some .value) : x ∈ kept ds := by
  rcases assignKinds_value ds h with h | h
  · exact h
  · unfold writeKinds at h
    split at h <;> cases h

/-- Structs. -/
theorem closed_struct {ds : List FieldD} (hnd : (ds.map (·.name)).Nodup) (hacc : ∀ d ∈ ds, d.accepted = true) (hr : readChecks ds = true)
    (hw : writeChecks ds = true) : closed [] ds := by
  refine closed_of_checks (k0 := fun _ => False) (pre := []) (k := readKinds) writeKinds_value ds ?_ (fun x h => by cases h) (fun x h => h.elim)
    (fun d h => h) hnd hacc hr hw
  intro x hx
  unfold readKinds at hx
  split at hx <;> cases hx

/-- Variants. -/
theorem closed_variant {ds : List FieldD} (hnd : (ds.map (·.name)).Nodup) (hacc : ∀ d ∈ ds, d.accepted = true)
    (hr : checksBody (readableBody ds).1 (readKinds.set kindId .value) = true) (hw : writeChecks ds = true) (hkind : kindId ∉ ds.map (·.name)) :
    closed [] ds := by
  refine closed_of_checks (k0 := fun x => x = kindId) (pre := []) (k := readKinds.set kindId .value) writeKinds_value ds ?_ (fun x h => by cases h)
    (fun x h hx => by subst h; exact absurd (kept_sub hx) hkind) (fun d h => h) hnd hacc hr hw
  intro x hx
  unfold KEnv.set at hx
  split at hx
  · rename_i h; exact Or.inr h
  · unfold readKinds at hx
    split at hx <;> cases hx

/-! ## Names which compile -/

theorem checks_readContainer_of {d : FieldD} {k : KEnv} (hr : k readerId = some .handle)
    (hl : ∀ u, d.len = some (.expr u) → ∀ x ∈ u.vars, k x = some .value) (t : Ty) : (readContainer d t).checks k = true := by
  have h1 : (k.set lengthId .value) readerId = some .handle := by
    unfold KEnv.set
    rw [if_neg (by decide), hr]
  have h2 : (k.set lengthId .value) lengthId = some .value := by
    unfold KEnv.set
    rw [if_pos rfl]
  unfold readContainer readLengthBody
  cases hd : d.len with
  | none => cases d.defaultOnEof <;> simp [Exp.checks, hr, h1, h2]
  | some l =>
    cases l with
    | typed lt => cases d.defaultOnEof <;> simp [Exp.checks, hr, h1, h2]
    | untilEof => simp [Exp.checks, hr]
    | expr u => simp only [Exp.checks, h1, h2, beq_self_eq_true, Bool.and_true, List.all_eq_true, beq_iff_eq]; exact hl u hd

theorem checks_readInner_of {d : FieldD} {k : KEnv} (hr : k readerId = some .handle)
    (hl : ∀ u, d.len = some (.expr u) → ∀ x ∈ u.vars, k x = some .value) (t : Ty) : (readInner d t).checks k = true := by
  unfold readInner
  split
  · split
    · exact checks_readContainer_of hr hl _
    · exact checks_readContainer_of hr hl _
  · simp [Exp.checks, hr]
  · split
    · simp [Exp.checks, hr]
    · split
      · exact checks_readContainer_of hr hl _
      · simp [Exp.checks, hr]

theorem checks_field_of {d : FieldD} {k : KEnv} (hr : d.skip = false → k readerId = some .handle)
    (hl : d.skip = false → ∀ u, d.len = some (.expr u) → ∀ x ∈ u.vars, k x = some .value) : (readFieldBody d).checks k = true := by
  cases hk : d.skip
  · have hr := hr hk
    have hl := hl hk
    have hb : (fieldBody d).checks k = true := by
      unfold fieldBody
      split
      · split <;> simp [Exp.checks, hr]
      · split
        · have h1 : (k.set flagId .value) flagId = some .value := by unfold KEnv.set; rw [if_pos rfl]
          simp only [readOption, Exp.checks, hr, h1, beq_self_eq_true, Bool.true_and, Bool.and_true]
          refine checks_readInner_of ?_ ?_ _
          · unfold KEnv.set
            rw [if_neg (by decide), hr]
          · intro u hu x hx
            unfold KEnv.set
            split
            · rfl
            · exact hl u hu x hx
        · exact checks_readInner_of hr hl _
    rw [readFieldBody_eq hk]
    split <;> split <;> simp [Exp.checks, hb, hr]
  · unfold readFieldBody
    rw [if_pos hk]
    rfl

theorem checksBody_of : ∀ (ds : List FieldD) {scope : List Ident} {k : KEnv}, k readerId = some .handle → readerId ∉ ds.map (·.name) →
    (∀ x ∈ scope, k x = some .value) → closed scope ds → checksBody (readableBody ds).1 k = true
  | [], _, _, _, _, _, _ => rfl
  | d :: ds, scope, k, hr, hn, hs, hcl => by
    simp only [List.map_cons, List.mem_cons, not_or] at hn
    show ((readFieldBody d).checks k && checksBody (readableBody ds).1 (k.set d.name .value)) = true
    rw [checks_field_of (fun _ => hr) (fun hk u hu x hx => hs x (hcl.1 hk u hu x hx)), Bool.true_and]
    refine checksBody_of ds ?_ hn.2 ?_ hcl.2
    · unfold KEnv.set
      rw [if_neg hn.1, hr]
    · intro x hx
      unfold KEnv.set
      split
      · rfl
      · rename_i hne
        refine hs x ?_
        unfold after at hx
        split at hx
        · exact hx
        · simpa [hne] using hx

theorem checks_writeField_of {d : FieldD} {k : KEnv} (hw : k writerId = some .handle) (hx : k d.name = some .value)
    (hl : ∀ u, d.len = some (.expr u) → ∀ x ∈ u.vars, k x = some .value) : (writeFieldBody d).checks k = true := by
  have hne : writerId ≠ d.name := by
    intro h
    rw [← h, hw] at hx
    cases hx
  have hlen : ∀ k' : KEnv, k' writerId = some .handle → k' d.name = some .value → (∀ u, d.len = some (.expr u) → ∀ x ∈ u.vars, k' x = some .value) →
      (writeLengthBody d).checks k' = true := by
    intro k' h1 h2 h3
    unfold writeLengthBody
    cases hd : d.len with
    | none => simp [Stmt.checks, h1, h2]
    | some l =>
      cases l with
      | typed lt => simp [Stmt.checks, h1, h2]
      | untilEof => simp [Stmt.checks]
      | expr u => simp only [Stmt.checks, h2, beq_self_eq_true, Bool.true_and, List.all_eq_true, beq_iff_eq]; exact h3 u hd
  have hin : ∀ (k' : KEnv) (t : Ty), k' writerId = some .handle → k' d.name = some .value → (∀ u, d.len = some (.expr u) → ∀ x ∈ u.vars, k' x = some .value) →
      (writeInner d t).checks k' = true := by
    intro k' t h1 h2 h3
    unfold writeInner
    split
    · simp [Stmt.checks, h1, h2]
    · split
      · simp [Stmt.checks, h1, h2]
      · split
        · simp [Stmt.checks, h1, h2, hlen k' h1 h2 h3]
        · simp [Stmt.checks, h1, h2]
  have hb : (writeBody d).checks k = true := by
    unfold writeBody
    split
    · split <;> simp [Stmt.checks, hw, hx]
    · split
      · simp only [Stmt.checks, hw, hx, beq_self_eq_true, Bool.true_and]
        refine hin _ _ ?_ ?_ ?_
        · unfold KEnv.set; rw [if_neg hne, hw]
        · unfold KEnv.set; rw [if_pos rfl]
        · intro u hu x hx'
          unfold KEnv.set
          split
          · rfl
          · exact hl u hu x hx'
      · exact hin _ _ hw hx hl
  have h1 : writeFieldBody d = if d.pre.isEmpty then writeBody d else .seq (.constant d.pre) (writeBody d) := rfl
  rw [h1]
  split
  · exact hb
  · simp [Stmt.checks, hw, hb]

theorem assignKinds_kept {x : Ident} : ∀ (ds : List FieldD) (k : KEnv), assignKinds ds k x = if x ∈ kept ds then some .value else k x
  | [], k => by simp [assignKinds, kept]
  | d :: ds, k => by
    simp only [assignKinds]
    rw [assignKinds_kept ds]
    cases hk : d.skip
    · have : kept (d :: ds) = d.name :: kept ds := by simp [kept, hk]
      rw [this]
      simp only [Bool.false_eq_true, if_false, KEnv.set, List.mem_cons]
      by_cases h1 : x ∈ kept ds <;> by_cases h2 : x = d.name <;> simp [h1, h2]
    · have : kept (d :: ds) = kept ds := by simp [kept, hk]
      rw [this]
      simp only [if_true]

theorem writableBody_of {k : KEnv} {all : List Ident} (hw : k writerId = some .handle) (hall : ∀ x ∈ all, k x = some .value) :
    ∀ (ds : List FieldD) {scope : List Ident}, (∀ x ∈ scope, x ∈ all) → (∀ x ∈ kept ds, x ∈ all) → closed scope ds → (writableBody ds).checks k = true
  | [], _, _, _, _ => rfl
  | d :: ds, scope, hs, hk', hcl => by
    cases hk : d.skip
    · have hkd : kept (d :: ds) = d.name :: kept ds := by simp [kept, hk]
      rw [hkd] at hk'
      simp only [writableBody, hk, Bool.false_eq_true, if_false, Stmt.checks]
      rw [checks_writeField_of hw (hall _ (hk' _ (by simp))) (fun u hu x hx => hall _ (hs _ (hcl.1 hk u hu x hx))), Bool.true_and]
      refine writableBody_of hw hall ds ?_ (fun x hx => hk' x (by simp [hx])) hcl.2
      intro x hx
      simp only [after, hk, Bool.false_eq_true, if_false, List.mem_append, List.mem_singleton] at hx
      rcases hx with h | h
      · exact hs x h
      · rw [h]; exact hk' _ (by simp)
    · have hkd : kept (d :: ds) = kept ds := by simp [kept, hk]
      rw [hkd] at hk'
      simp only [writableBody, hk, if_true]
      refine writableBody_of hw hall ds ?_ hk' hcl.2
      simpa [after, hk] using hs

theorem writeChecks_of {ds : List FieldD} (hn : writerId ∉ kept ds) (hcl : closed [] ds) : writeChecks ds = true := by
  refine writableBody_of (all := kept ds) ?_ ?_ ds (fun x h => by cases h) (fun x h => h) hcl
  · rw [assignKinds_kept, if_neg hn]
    rfl
  · intro x hx
    rw [assignKinds_kept, if_pos hx]

theorem readChecks_of {ds : List FieldD} (hn : readerId ∉ ds.map (·.name)) (hcl : closed [] ds) : readChecks ds = true :=
  checksBody_of ds rfl hn (fun x h => by cases h) hcl

/-! ## Renaming -/

/-- The same expression with other names. -/
def UserExpr.rename (ρ : Ident → Ident) (u : UserExpr) : UserExpr := ⟨u.vars.map ρ, u.value⟩

/-- The same field with other names. -/
def FieldD.rename (ρ : Ident → Ident) (d : FieldD) : FieldD :=
  { d with
    name := ρ d.name
    len := match d.len with
      | some (.expr u) => some (.expr (u.rename ρ))
      | l => l }

theorem pick_rename {ρ : Ident → Ident} (hρ : ∀ x y, ρ x = ρ y → x = y) (x : Ident) : ∀ (scope : List Ident) (prev : List Val),
    pick (scope.map ρ) prev (ρ x) = pick scope prev x
  | [], _ => rfl
  | y :: ys, [] => rfl
  | y :: ys, v :: vs => by
    simp only [List.map_cons, pick]
    by_cases h : x = y
    · rw [if_pos h, if_pos (by rw [h])]
    · rw [if_neg h, if_neg (fun h' => h (hρ _ _ h')), pick_rename hρ]

theorem attrs_rename {ρ : Ident → Ident} (hρ : ∀ x y, ρ x = ρ y → x = y) (scope : List Ident) (d : FieldD) :
    (d.rename ρ).attrs (scope.map ρ) = d.attrs scope := by
  unfold FieldD.attrs FieldD.rename
  cases hd : d.len with
  | none => rfl
  | some l =>
    cases l with
    | typed lt => rfl
    | untilEof => rfl
    | expr u =>
      simp only [UserExpr.rename, List.map_map]
      congr 3
      funext prev
      congr 1
      refine List.map_congr_left fun x _ => ?_
      simp only [Function.comp_apply, pick_rename hρ]

theorem fieldsOf_rename {ρ : Ident → Ident} (hρ : ∀ x y, ρ x = ρ y → x = y) : ∀ (ds : List FieldD) (scope : List Ident),
    fieldsOf (scope.map ρ) (ds.map (·.rename ρ)) = fieldsOf scope ds
  | [], _ => rfl
  | d :: ds, scope => by
    simp only [List.map_cons, fieldsOf, attrs_rename hρ]
    have h1 : after (scope.map ρ) (d.rename ρ) = (after scope d).map ρ := by
      unfold after
      have : (d.rename ρ).skip = d.skip := rfl
      rw [this]
      split
      · rfl
      · simp [FieldD.rename]
    rw [h1, fieldsOf_rename hρ ds]
    rfl

theorem accepted_rename (ρ : Ident → Ident) (d : FieldD) : (d.rename ρ).accepted = d.accepted := by
  unfold FieldD.accepted FieldD.rename
  cases hd : d.len with
  | none => rfl
  | some l => cases l <;> rfl

theorem closed_rename {ρ : Ident → Ident} : ∀ {ds : List FieldD} {scope : List Ident}, closed scope ds →
    closed (scope.map ρ) (ds.map (·.rename ρ))
  | [], _, _ => trivial
  | d :: ds, scope, h => by
    refine ⟨fun hk u hu x hx => ?_, ?_⟩
    · have hu' : ∃ u', d.len = some (.expr u') ∧ u = u'.rename ρ := by
        simp only [FieldD.rename] at hu
        split at hu
        · rename_i u' h'
          simp only [Option.some.injEq, LenSrc.expr.injEq] at hu
          exact ⟨u', h', hu.symm⟩
        · rename_i h1
          exact absurd hu (h1 u)
      obtain ⟨u', h1, h2⟩ := hu'
      subst h2
      simp only [UserExpr.rename, List.mem_map] at hx
      obtain ⟨y, hy, hyx⟩ := hx
      rw [← hyx]
      exact List.mem_map_of_mem (h.1 hk u' h1 y hy)
    · have h1 : after (scope.map ρ) (d.rename ρ) = (after scope d).map ρ := by
        unfold after
        have : (d.rename ρ).skip = d.skip := rfl
        rw [this]
        split
        · rfl
        · simp [FieldD.rename]
      rw [h1]
      exact closed_rename h.2

theorem names_rename {ρ : Ident → Ident} (ds : List FieldD) : (ds.map (·.rename ρ)).map (·.name) = (ds.map (·.name)).map ρ := by
  simp [FieldD.rename]

theorem nodup_rename {ρ : Ident → Ident} (hρ : ∀ x y, ρ x = ρ y → x = y) {ds : List FieldD} (h : (ds.map (·.name)).Nodup) :
    ((ds.map (·.rename ρ)).map (·.name)).Nodup := by
  rw [names_rename]
  unfold List.Nodup at *
  rw [List.pairwise_map]
  exact h.imp fun hne he => hne (hρ _ _ he)

end Verif.Gen
