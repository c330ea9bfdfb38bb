import Verif.Gen
import Verif.Report

/-!
# Which field an error is about

`Verif.Gen` gives the meaning of the generated code for writing; `Err` leaves out the name of the field in
`LengthIsNotTheSameAsLengthAttribute`.  Here the same code with the name.
-/

namespace Verif.Gen

/-- What a statement does, in steps: something is written (an error then comes from the writer or from the value which is written), or the length of
the field `x` is compared to its attribute (speedy-derive/src/lib.rs:1712-1719). -/
inductive Piece where
  | prog (p : WProg)
  | check (x : Ident) (same : Bool)

/-- The steps of a statement; `none` if it does not compile.  See `Stmt.exec`. -/
def Stmt.pieces (T : Target) (e : Endian) : Stmt → WEnv → Option (List Piece)
  | .nop, _ => some []
  | .seq a b, env => match a.pieces T e env, b.pieces T e env with
    | some p, some q => some (p ++ q)
    | _, _ => none
  | .sameLen x u, env => match env.val x, env.vals u.vars with
    | some v, some vs => some (match valLen v with
      | some n => [.check x (n == u.value vs)]
      | none => [.prog (.fail .illTyped)])
    | _, _ => none
  | .ifSome x s, env => if env.hasWriter then match env.val x with
      | some (.some v) => (s.pieces T e (env.set x (.val v))).map (.prog (.num 1 1 .ok) :: ·)
      | some .none => some [.prog (.num 1 0 .ok)]
      | some _ => some [.prog (.fail .illTyped)]
      | none => none
    else none
  | s, env => (s.exec T e env).map fun p => [.prog p]

/-- Steps one after another, until there is an error; with the name of the field, if the error is
`LengthIsNotTheSameAsLengthAttribute { field_name }` and made here. -/
def runPieces {σ : Type} (W : WriterOps σ) : List Piece → σ → Except (Err × Option Ident) Unit × σ
  | [], s => (.ok (), s)
  | .prog p :: ps, s => match p.run W s with
    | (.ok _, s') => runPieces W ps s'
    | (.error er, s') => (.error (er, none), s')
  | .check x same :: ps, s => if same then runPieces W ps s else (.error (.lengthMismatch, some x), s)

/-- Without the name. -/
def forget {σ : Type} : Except (Err × Option Ident) Unit × σ → Except Err Unit × σ
  | (.ok _, s) => (.ok (), s)
  | (.error (er, _), s) => (.error er, s)

/-- The steps of the generated `write_to` of a struct; see `writeStruct`. -/
def structPieces (T : Target) (e : Endian) (ds : List FieldD) (vs : List Val) : Option (List Piece) :=
  (writableBody ds).pieces T e (assign ds vs writeEnv)

/-- The steps of the generated `write_to` of an enum; see `writeEnum`. -/
def enumPieces (T : Target) (e : Endian) (d : EnumDesc) : List (Nat × List FieldD) → Nat → List Val → Option (List Piece)
  | [], _, _ => none
  | (tag, ds) :: _, 0, vs =>
    let env := assign ds vs writeEnv
    match (if d.peek then some WProg.ok else if env.hasWriter then some (writeLenRaw T.toHost d.tagTy tag) else none),
      (writableBody ds).pieces T e env with
    | some p, some q => some (.prog p :: q)
    | _, _ => none
  | _ :: arms, i + 1, vs => enumPieces T e d arms i vs

/-- `format!( "{}", field.var_name() )` — speedy-derive/src/lib.rs:766-772, 1713: fields of tuple structs are called `t0`, `t1`, …. -/
def Ident.text : Ident → List Char
  | .named s => s.toList
  | .nth i => 't' :: decimal i

end Verif.Gen
