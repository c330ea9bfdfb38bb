import Verif.Entry
import Verif.Encode

/-!
# The code which the derive macro generates

`Decode` and `Encode` say what derived implementations do.  Here is the code itself, as the macro puts it together from pieces
(`quote!`) with the names of the fields and the expressions of `#[speedy(length = ...)]` in them (speedy-derive/src/lib.rs:1392-1841,
2155-2159, 2250-2304, 2336-2455), and what it means by the scoping rules of Rust.  Identifiers made by `quote!` have the same hygiene as those of the user
(`Span::call_site`): if they are spelled alike, they are the same variable.

Pieces without names of the user in them are single calls, with the meaning they have in `Decode` and `Encode`: for instance
`_reader_.read_vec( _length_ ).and_then( speedy::private::vec_to_string )`.
-/

namespace Verif.Gen

/-- Identifiers.  `nth i` is `t{i}`, the variable for the `i`-th field of a tuple struct — `Field::var_name`,
speedy-derive/src/lib.rs:766-772; a struct has either names or numbers, and the macro's own variables are not spelled `t{i}`. -/
inductive Ident where
  | named (s : String)
  | nth (i : Nat)
  deriving DecidableEq, Repr

/-- The parameter of `read_from` — speedy-derive/src/lib.rs:2325. -/
def readerId : Ident := .named "_reader_"
/-- The parameter of `write_to` — speedy-derive/src/lib.rs:2467. -/
def writerId : Ident := .named "_writer_"
/-- The length of a container — speedy-derive/src/lib.rs:1437, 1450, 1463, .... -/
def lengthId : Ident := .named "_length_"
/-- The flag of an `Option` — speedy-derive/src/lib.rs:1626. -/
def flagId : Ident := .named "_flag_"
/-- The tag of an enum — speedy-derive/src/lib.rs:2299. -/
def kindId : Ident := .named "kind_"

/-- The expression in `#[speedy(length = expr)]`: the variables in it and its value as a function of theirs.  Constants and
functions in it are part of the function. -/
structure UserExpr where
  vars : List Ident
  value : List Val → Nat

/-- `LengthKind` and `length_type` — speedy-derive/src/lib.rs:813-816, 739-751. -/
inductive LenSrc where
  | typed (lt : LenTy)
  | expr (u : UserExpr)
  | untilEof

/-- A field with its attributes — speedy-derive/src/lib.rs:739-751; see `Attrs`. -/
structure FieldD where
  name : Ident
  ty : Ty
  skip : Bool := false
  defaultOnEof : Bool := false
  dflt : Val := .unit
  len : Option LenSrc := none
  varint : Bool := false
  pre : Bytes := []
  opaqueTy : Bool := false

/-- The containers whose reading is generated — speedy-derive/src/lib.rs:1635-1651. -/
def isContainer : Ty → Bool
  | .str _ | .seq _ _ | .set _ | .map _ _ => true
  | _ => false

/-- The type `u8`, of which slices are `Ty::RefSliceU8` — speedy-derive/src/lib.rs:1165-1175. -/
def isU8 : Ty → Bool
  | .prim .u8 => true
  | _ => false

/-- The type `u64`. -/
def isU64 : Ty → Bool
  | .prim .u64 => true
  | _ => false

/-- What `get_fields` accepts — speedy-derive/src/lib.rs:1245-1252, 1269-1316: `length` only on containers, not inside an `Option`; `varint` only on
`u64`. -/
def FieldD.accepted (d : FieldD) : Bool :=
  (match d.len with
    | some (.expr _) | some .untilEof => !d.opaqueTy && isContainer d.ty
    | _ => true) &&
  (!d.varint || isU64 d.ty)

/-! ## Meaning of the fields -/

/-- The value of the variable `x` if the variables `xs` have the values `vs`. -/
def pick : List Ident → List Val → Ident → Option Val
  | y :: ys, v :: vs, x => if x = y then some v else pick ys vs x
  | _, _, _ => none

/-- The attributes as `Decode` and `Encode` understand them: the variables in the length are the preceding fields of these names
(`scope`). -/
def FieldD.attrs (scope : List Ident) (d : FieldD) : Attrs where
  skip := d.skip
  defaultOnEof := d.defaultOnEof
  dflt := d.dflt
  len := match d.len with
    | none => none
    | some (.typed lt) => some (.typed lt)
    | some (.expr u) => some (.expr fun prev => u.value (u.vars.map fun x => (pick scope prev x).getD .unit))
    | some .untilEof => some .untilEof
  varint := d.varint
  pre := d.pre
  opaqueTy := d.opaqueTy

/-- The fields after a field `d`. -/
def after (scope : List Ident) (d : FieldD) : List Ident := if d.skip then scope else scope ++ [d.name]

/-- The fields of a struct or variant without their names. -/
def fieldsOf : List Ident → List FieldD → Fields
  | _, [] => .nil
  | scope, d :: ds => .cons (d.attrs scope) d.ty (fieldsOf (after scope d) ds)

/-- The variants of an enum without names: tag and fields. -/
def variantsOf : List (Nat × List FieldD) → Variants
  | [] => .nil
  | (tag, ds) :: vs => .cons tag (fieldsOf [] ds) (variantsOf vs)

/-! ## Generated code: reading -/

/-- Calls without names of the user in them; all are methods of `_reader_` or functions which get it.
* `len lt` — `speedy::private::read_length_…( _reader_ )`
* `contents t` — `_reader_.read_vec( _length_ )`, … for the container `t`, speedy-derive/src/lib.rs:1438, 1451, 1464, 1477, 1490, 1503, 1516,
  1529, 1542, 1555-1559, 1576-1583
* `rest t` — `_reader_.read_vec_until_eof()`, …, lines 1442, 1455, 1468, 1481, 1494, 1507, 1520, 1533, 1546, 1563-1566, 1587-1591
* `value t` — `_reader_.read_value()`, lines 1607, 1656
* `varint` — `_reader_.read_u64_varint()`, line 1620
* `u8` — `_reader_.read_u8()`, line 1626
* `constant bs` — `speedy::private::read_constant( _reader_, bs )`, line 1667
* `tag d` — `_reader_.#tag_reader()`, line 2299 -/
inductive Call where
  | len (lt : LenTy)
  | contents (t : Ty)
  | rest (t : Ty)
  | value (t : Ty)
  | varint
  | u8
  | constant (bs : Bytes)
  | tag (d : EnumDesc)

/-- Generated expressions.
* `default d` — `core::default::Default::default()`
* `length u` — `((#length) as usize)`
* `call c x` — a call with `_reader_`, and the variable `x` as the argument
* `block x e b` — `{ let x = e; b }`
* `try e` — `e?`; also `match e { Ok( value ) => value, Err( error ) => return Err( error ) }`
* `orDefault d e` — `match e { Ok( value ) => value, Err( ref error ) if speedy::IsEof::is_eof( error ) => core::default::Default::default(), Err( error ) => return Err( error ) }`
* `andThen e x b` — `e.and_then( |x| b )`
* `ifFlag x a b` — `if x != 0 { a } else { b }`
* `okSome e` — `Ok( Some( e ) )`
* `okNone` — `Ok( None )`
* `native t e` — `if core::mem::size_of::< t >() != 1 && _reader_.endianness().conversion_necessary() { Err( speedy::private::error_endianness_mismatch() ) } else { e }`
* `okArray n e` — `Ok([ e, …, e ])`
* `closure e` — `(|| { e })()` -/
inductive Exp where
  | default (d : Val)
  | length (u : UserExpr)
  | call (c : Call) (x : Option Ident)
  | block (x : Ident) (e b : Exp)
  | try (e : Exp)
  | orDefault (d : Val) (e : Exp)
  | andThen (e : Exp) (x : Option Ident) (b : Exp)
  | ifFlag (x : Ident) (a b : Exp)
  | okSome (e : Exp)
  | okNone
  | native (t : Ty) (e : Exp)
  | okArray (n : Nat) (e : Exp)
  | closure (e : Exp)

/-- `read_length_body` — speedy-derive/src/lib.rs:1409-1432; `default_on_eof_body` — 1392-1400. -/
def readLengthBody (d : FieldD) : Option Exp :=
  match d.len with
  | some (.expr u) => some (.length u)
  | some .untilEof => none
  | some (.typed lt) =>
    some (if d.defaultOnEof then .orDefault (.num 0) (.call (.len lt) none) else .try (.call (.len lt) none))
  | none => some (if d.defaultOnEof then .orDefault (.num 0) (.call (.len .u32) none) else .try (.call (.len .u32) none))

/-- `read_string` … `read_ref_str` — speedy-derive/src/lib.rs:1434-1569: `{ let _length_ = …; _reader_.read_…( _length_ ) }`. -/
def readContainer (d : FieldD) (t : Ty) : Exp :=
  match readLengthBody d with
  | some l => .block lengthId l (.call (.contents t) (some lengthId))
  | none => .call (.rest t) none

/-- The match on `field.ty.inner()` — speedy-derive/src/lib.rs:1635-1658, with `read_ref_slice` (1571-1602) and `read_array` (1604-1616). -/
def readInner (d : FieldD) : Ty → Exp
  | .seq .ref t => if isU8 t then readContainer d (.seq .ref t) else .native t (readContainer d (.seq .ref t))
  | .array n t => .closure (.okArray n (.try (.call (.value t) none)))
  | t => if d.varint then .call .varint none else if isContainer t then readContainer d t else .call (.value t) none

/-- `read_option` — speedy-derive/src/lib.rs:1624-1633. -/
def readOption (e : Exp) : Exp :=
  .andThen (.call .u8 none) (some flagId) (.ifFlag flagId (.okSome (.try e)) .okNone)

/-- `read_field_body` — speedy-derive/src/lib.rs:1402-1678.  A type which the macro does not recognise is `Ty::Ty`. -/
def readFieldBody (d : FieldD) : Exp :=
  if d.skip then .default d.dflt
  else
    let body := if d.opaqueTy then (if d.varint then .call .varint none else .call (.value d.ty) none) else match d.ty with
      | .option t => readOption (readInner d t)
      | t => readInner d t
    let body := if d.pre.isEmpty then body else .andThen (.call (.constant d.pre) none) none body
    if d.defaultOnEof then .orDefault d.dflt body else .try body

/-- `readable_body` — speedy-derive/src/lib.rs:1680-1707: `let #name: #raw_ty = #read_value;` for each field, and the initializer. -/
def readableBody (ds : List FieldD) : List (Ident × Exp) × List Ident :=
  (ds.map fun d => (d.name, readFieldBody d), ds.map (·.name))

/-! ## Its meaning -/

/-- Values of variables and expressions: the reader, a value, or a `Result`. -/
inductive Rv where
  | reader
  | val (v : Val)
  | res (r : Except Err Val)

/-- The variables in scope. -/
abbrev Env := Ident → Option Rv

/-- `let x = v`. -/
def Env.set (env : Env) (x : Ident) (v : Rv) : Env := fun y => if y = x then some v else env y

/-- How the evaluation of an expression ends: with a value, with `return`, or not at all since the code does not compile. -/
inductive Flow where
  | done (v : Rv)
  | ret (r : Except Err Val)
  | stuck

/-- A variable which has a value. -/
def Env.val (env : Env) (x : Ident) : Option Val :=
  match env x with
  | some (.val v) => some v
  | _ => none

/-- The values of all variables. -/
def Env.vals (env : Env) : List Ident → Option (List Val)
  | [] => some []
  | x :: xs => match env.val x, env.vals xs with
    | some v, some vs => some (v :: vs)
    | _, _ => none

/-- Reading the contents of a container: of a given length, or until the end of the input. -/
def readInto (T : Target) (e : Endian) (len : Option Nat) : Ty → Option (M Val)
  | .str k => some (readStr T e k len)
  | .seq k t => some (readSeq T e k (elemOf T t (decode T e t Cx.std)) len)
  | .set t => some (match len with
    | some n => M.map (fun vs => .list (setOf vs)) (readCollection T.toHost e (elemOf T t (decode T e t Cx.std)) n)
    | none => M.map (fun vs => .list (setOf vs)) (readUntilEof T.fuel (decode T e t Cx.std)))
  | .map k v => some (match len with
    | some n => M.map (fun vs => .list (mapOf vs))
        (readKV T.toHost e (elemOf T k (decode T e k Cx.std)) (elemOf T v (decode T e v Cx.std)) n)
    | none => M.map (fun vs => .list (mapOf vs)) (readUntilEof T.fuel
        (readPair (elemOf T k (decode T e k Cx.std)) (elemOf T v (decode T e v Cx.std)))))
  | _ => none

/-- The calls; `arg` is the argument besides `_reader_`. -/
def Call.run (T : Target) (e : Endian) : Call → (arg : Option Val) → Option (M Val)
  | .len lt, none => some (M.map .num (readLen T.toHost e lt))
  | .contents t, some (.num n) => readInto T e (some n) t
  | .rest t, none => readInto T e none t
  | .value t, none => some (decode T e t Cx.std)
  | .varint, none => some (M.map .num (readVarint T.toHost e))
  | .u8, none => some (M.map .num (readNum T.toHost e 1))
  | .constant bs, none => some (M.map (fun _ => .unit) (readConstant T.toHost e (u8Elem T e) bs))
  | .tag d, none => some (M.map .num (readTag T.toHost e d))
  | _, _ => none

/-- The argument of a call: a variable which has a value. -/
def Env.arg (env : Env) : Option Ident → Option (Option Val)
  | none => some none
  | some x => (env.val x).map some

/-- `e?` -/
def tryK : Flow → Prog Flow
  | .done (.res (.ok v)) => .ret (.done (.val v))
  | .done (.res (.error er)) => .ret (.ret (.error er))
  | .done _ => .ret .stuck
  | f => .ret f

/-- `default_on_eof_body` -/
def orDefaultK (d : Val) : Flow → Prog Flow
  | .done (.res (.ok v)) => .ret (.done (.val v))
  | .done (.res (.error er)) => if er.isEof then .ret (.done (.val d)) else .ret (.ret (.error er))
  | .done _ => .ret .stuck
  | f => .ret f

/-- The call of a closure: `return` ends the closure. -/
def closureK : Flow → Prog Flow
  | .ret r => .ret (.done (.res r))
  | f => .ret f

/-- An array expression: one element after another. -/
def repeatE : Nat → Prog Flow → (List Val → Prog Flow) → Prog Flow
  | 0, _, k => k []
  | n + 1, p, k => p.bind fun
    | .done (.val v) => repeatE n p fun vs => k (v :: vs)
    | .done _ => .ret .stuck
    | f => .ret f

/-- What an expression does. -/
def Exp.eval (T : Target) (e : Endian) : Exp → Env → Prog Flow
  | .default d, _ => .ret (.done (.val d))
  | .length u, env => match env.vals u.vars with
    | some vs => .ret (.done (.val (.num (u.value vs % (T.usizeMax + 1)))))
    | none => .ret .stuck
  | .call c x, env => match env readerId, env.arg x with
    | some .reader, some a => match c.run T e a with
      | some p => Prog.bind p fun r => .ret (.done (.res r))
      | none => .ret .stuck
    | _, _ => .ret .stuck
  | .block x a b, env => (a.eval T e env).bind fun
    | .done v => b.eval T e (env.set x v)
    | f => .ret f
  | .try a, env => (a.eval T e env).bind tryK
  | .orDefault d a, env => (a.eval T e env).bind (orDefaultK d)
  | .andThen a x b, env => (a.eval T e env).bind fun
    | .done (.res (.ok v)) =>
      (b.eval T e (match x with | some x => env.set x (.val v) | none => env)).bind closureK
    | .done (.res (.error er)) => .ret (.done (.res (.error er)))
    | .done _ => .ret .stuck
    | f => .ret f
  | .ifFlag x a b, env => match env.val x with
    | some (.num n) => if n ≠ 0 then a.eval T e env else b.eval T e env
    | _ => .ret .stuck
  | .okSome a, env => (a.eval T e env).bind fun
    | .done (.val v) => .ret (.done (.res (.ok (.some v))))
    | .done _ => .ret .stuck
    | f => .ret f
  | .okNone, _ => .ret (.done (.res (.ok .none)))
  | .native t a, env =>
    if sizeOf T t != 1 && e.conv T.toHost then .ret (.done (.res (.error .endiannessMismatch))) else a.eval T e env
  | .okArray n a, env => repeatE n (a.eval T e env) fun vs => .ret (.done (.res (.ok (.list vs))))
  | .closure a, env => (a.eval T e env).bind closureK

/-- A struct with these fields. -/
def chain (vs : List Val) (rest : Val) : Val := vs.foldr .pair rest

/-- The statements of a function, and the initializer at the end; `none` if the code does not compile. -/
def runBody (T : Target) (e : Endian) : List (Ident × Exp) → List Ident → Env → Prog (Option (Except Err Val))
  | [], names, env => .ret ((env.vals names).map fun vs => .ok (chain vs .unit))
  | (x, a) :: rest, names, env => (a.eval T e env).bind fun
    | .done (.val v) => runBody T e rest names (env.set x (.val v))
    | .done _ => .ret none
    | .ret r => .ret (some r)
    | .stuck => .ret none

/-- The variables at the beginning of `read_from`. -/
def readEnv : Env := fun x => if x = readerId then some .reader else none

/-- The generated `read_from` of a struct — speedy-derive/src/lib.rs:2155-2159, 2325. -/
def readStruct (T : Target) (e : Endian) (ds : List FieldD) : Prog (Option (Except Err Val)) :=
  runBody T e (readableBody ds).1 (readableBody ds).2 readEnv

/-- The arms of `match kind_` — speedy-derive/src/lib.rs:2254-2264, 2300-2303. -/
def runArms (T : Target) (e : Endian) (env : Env) (kind : Nat) : List (Nat × List FieldD) → Nat → Prog (Option (Except Err Val))
  | [], _ => .ret (some (.error .invalidEnumVariant))
  | (tag, ds) :: arms, i =>
    if kind = tag then (runBody T e (readableBody ds).1 (readableBody ds).2 env).bind fun r =>
      .ret (r.map fun r => match r with | .ok v => .ok (.variant i v) | .error er => .error er)
    else runArms T e env kind arms (i + 1)

/-- The generated `read_from` of an enum: `let kind_ = _reader_.#tag_reader()?; match kind_ { … }` —
speedy-derive/src/lib.rs:2298-2304, 2325. -/
def readEnum (T : Target) (e : Endian) (d : EnumDesc) (arms : List (Nat × List FieldD)) : Prog (Option (Except Err Val)) :=
  ((Exp.try (.call (.tag d) none)).eval T e readEnv).bind fun
    | .done (.val (.num kind)) => runArms T e (readEnv.set kindId (.val (.num kind))) kind arms 0
    | .done _ => .ret none
    | .ret r => .ret (some r)
    | .stuck => .ret none

/-! ## Which code compiles -/

/-- The types of variables, as far as they matter here: the reader or writer, or something else. -/
inductive Kind where
  | handle
  | value
  deriving DecidableEq

/-- The types of the variables in scope. -/
abbrev KEnv := Ident → Option Kind

/-- `let x` of a type. -/
def KEnv.set (k : KEnv) (x : Ident) (t : Kind) : KEnv := fun y => if y = x then some t else k y

/-- Every variable is in scope and of the right type: `_reader_` is the reader, the others are values.  (Conversely this does not mean that
`rustc` accepts the code: the types of values are not checked.) -/
def Exp.checks : Exp → KEnv → Bool
  | .default _, _ | .okNone, _ => true
  | .length u, k => u.vars.all fun x => k x == some .value
  | .call _ none, k => k readerId == some .handle
  | .call _ (some x), k => k readerId == some .handle && k x == some .value
  | .block x a b, k => a.checks k && b.checks (k.set x .value)
  | .try a, k | .orDefault _ a, k | .okSome a, k | .native _ a, k | .okArray _ a, k | .closure a, k => a.checks k
  | .andThen a (some x) b, k => a.checks k && b.checks (k.set x .value)
  | .andThen a none b, k => a.checks k && b.checks k
  | .ifFlag x a b, k => k x == some .value && a.checks k && b.checks k

/-- Statements one after another. -/
def checksBody : List (Ident × Exp) → KEnv → Bool
  | [], _ => true
  | (x, a) :: rest, k => a.checks k && checksBody rest (k.set x .value)

/-- The types at the beginning of `read_from`. -/
def readKinds : KEnv := fun x => if x = readerId then some .handle else none

/-- The generated `read_from` of a struct compiles, as far as names are concerned. -/
def readChecks (ds : List FieldD) : Bool := checksBody (readableBody ds).1 readKinds

/-- The same for an enum. -/
def readEnumChecks (arms : List (Nat × List FieldD)) : Bool :=
  arms.all fun (_, ds) => checksBody (readableBody ds).1 (readKinds.set kindId .value)

/-! ## Generated code: writing -/

/-- Generated statements.
* `writeLen lt x` — `speedy::private::write_length_…( x.len(), _writer_ )?;`
* `sameLen x u` — `if !speedy::private::are_lengths_the_same( x.len(), #length ) { return Err( … ) }`
* `contents t x` — `_writer_.write_slice( … )?;` or `_writer_.write_collection( … )?;` for a container or array
* `value t x` — `_writer_.write_value( x )?;`
* `varint x` — `_writer_.write_u64_varint( *x )?;`
* `constant bs` — `_writer_.write_slice( bs )?;`
* `ifSome x s` — `if let Some( ref x ) = x { _writer_.write_u8( 1 )?; s } else { _writer_.write_u8( 0 )?; }` -/
inductive Stmt where
  | nop
  | seq (a b : Stmt)
  | writeLen (lt : LenTy) (x : Ident)
  | sameLen (x : Ident) (u : UserExpr)
  | contents (t : Ty) (x : Ident)
  | value (t : Ty) (x : Ident)
  | varint (x : Ident)
  | constant (bs : Bytes)
  | ifSome (x : Ident) (s : Stmt)

/-- `write_length_body` — speedy-derive/src/lib.rs:1711-1733. -/
def writeLengthBody (d : FieldD) : Stmt :=
  match d.len with
  | some (.expr u) => .sameLen d.name u
  | some .untilEof => .nop
  | some (.typed lt) => .writeLen lt d.name
  | none => .writeLen .u32 d.name

/-- The match on `field.ty.inner()` — speedy-derive/src/lib.rs:1735-1761, 1774-1798. -/
def writeInner (d : FieldD) : Ty → Stmt
  | .array n t => .contents (.array n t) d.name
  | t => if d.varint then .varint d.name
    else if isContainer t then .seq (writeLengthBody d) (.contents t d.name) else .value t d.name

/-- `write_field_body` — speedy-derive/src/lib.rs:1709-1815. -/
def writeFieldBody (d : FieldD) : Stmt :=
  let body := if d.opaqueTy then (if d.varint then .varint d.name else .value d.ty d.name) else match d.ty with
    | .option t => .ifSome d.name (writeInner d t)
    | t => writeInner d t
  if d.pre.isEmpty then body else .seq (.constant d.pre) body

/-- `writable_body` — speedy-derive/src/lib.rs:1817-1841: skipped fields are left out. -/
def writableBody : List FieldD → Stmt
  | [] => .nop
  | d :: ds => if d.skip then writableBody ds else .seq (writeFieldBody d) (writableBody ds)

/-- Every variable is in scope and of the right type; see `Exp.checks`. -/
def Stmt.checks : Stmt → KEnv → Bool
  | .nop, _ => true
  | .seq a b, k => a.checks k && b.checks k
  | .writeLen _ x, k | .contents _ x, k | .value _ x, k | .varint x, k => k writerId == some .handle && k x == some .value
  | .sameLen x u, k => k x == some .value && u.vars.all fun y => k y == some .value
  | .constant _, k => k writerId == some .handle
  | .ifSome x s, k => k writerId == some .handle && k x == some .value && s.checks (k.set x .value)

/-- The types of the variables for the fields which are not skipped; see `assign`. -/
def assignKinds : List FieldD → KEnv → KEnv
  | [], k => k
  | d :: ds, k => assignKinds ds (if d.skip then k else k.set d.name .value)

/-- The types at the beginning of `write_to`. -/
def writeKinds : KEnv := fun x => if x = writerId then some .handle else none

/-- The generated `write_to` of a struct compiles, as far as names are concerned. -/
def writeChecks (ds : List FieldD) : Bool := (writableBody ds).checks (assignKinds ds writeKinds)

/-- The same for an enum; `_writer_` is also needed for the tag. -/
def writeEnumChecks (d : EnumDesc) (arms : List (Nat × List FieldD)) : Bool :=
  arms.all fun (_, ds) => writeChecks ds && (d.peek || assignKinds ds writeKinds writerId == some .handle)

/-- Variables when writing: the writer, or a reference to a value. -/
inductive Wv where
  | writer
  | val (v : Val)

/-- The variables in scope. -/
abbrev WEnv := Ident → Option Wv

/-- `let x = v`. -/
def WEnv.set (env : WEnv) (x : Ident) (v : Wv) : WEnv := fun y => if y = x then some v else env y

/-- A variable which has a value. -/
def WEnv.val (env : WEnv) (x : Ident) : Option Val :=
  match env x with
  | some (.val v) => some v
  | _ => none

/-- The values of all variables. -/
def WEnv.vals (env : WEnv) : List Ident → Option (List Val)
  | [] => some []
  | x :: xs => match env.val x, env.vals xs with
    | some v, some vs => some (v :: vs)
    | _, _ => none

/-- `x.len()`. -/
def valLen : Val → Option Nat
  | .bytes bs => some bs.length
  | .list vs => some vs.length
  | _ => none

/-- `write_slice` and `write_collection` of a container or array. -/
def writeContents (T : Target) (e : Endian) : Ty → Val → WProg
  | .str _, .bytes bs => .bytes bs .ok
  | .seq _ t, .list vs => writeSlice T e t (encode T e t Cx.std) vs
  | .set t, .list vs => writeEach (encode T e t Cx.std) vs
  | .map k v, .list vs => writeEach (fun kv => match kv with
      | .pair a (.pair b .unit) => (encode T e k Cx.std a).seq (encode T e v Cx.std b)
      | _ => .fail .illTyped) vs
  | .array n t, .list vs => if vs.length ≠ n then .fail .illTyped else writeSlice T e t (encode T e t Cx.std) vs
  | _, _ => .fail .illTyped

/-- `_writer_` is the writer. -/
def WEnv.hasWriter (env : WEnv) : Bool := env writerId matches some .writer

/-- What a statement does; `none` if it does not compile. -/
def Stmt.exec (T : Target) (e : Endian) : Stmt → WEnv → Option WProg
  | .nop, _ => some .ok
  | .seq a b, env => match a.exec T e env, b.exec T e env with
    | some p, some q => some (p.seq q)
    | _, _ => none
  | .writeLen lt x, env => if env.hasWriter then (env.val x).map fun v => match valLen v with
      | some n => Verif.writeLen T.toHost lt n
      | none => .fail .illTyped
    else none
  | .sameLen x u, env => match env.val x, env.vals u.vars with
    | some v, some vs => some (match valLen v with
      | some n => if n = u.value vs then .ok else .fail .lengthMismatch
      | none => .fail .illTyped)
    | _, _ => none
  | .contents t x, env => if env.hasWriter then (env.val x).map (writeContents T e t) else none
  | .value t x, env => if env.hasWriter then (env.val x).map (encode T e t Cx.std) else none
  | .varint x, env => if env.hasWriter then (env.val x).map fun v => match v with
      | .num n => writeVarint T.toHost n
      | _ => .fail .illTyped
    else none
  | .constant bs, env => if env.hasWriter then some (.bytes bs .ok) else none
  | .ifSome x s, env => if env.hasWriter then match env.val x with
      | some (.some v) => (s.exec T e (env.set x (.val v))).map (.num 1 1)
      | some .none => some (.num 1 0 .ok)
      | some _ => some (.fail .illTyped)
      | none => none
    else none

/-- `assign_to_variables` — speedy-derive/src/lib.rs:2336-2359: `let #var_name = &self.#name;` for each field which is not skipped; also the pattern of a variant
(1832-1838). -/
def assign : List FieldD → List Val → WEnv → WEnv
  | d :: ds, v :: vs, env => assign ds vs (if d.skip then env else env.set d.name (.val v))
  | _, _, env => env

/-- The variables at the beginning of `write_to`. -/
def writeEnv : WEnv := fun x => if x = writerId then some .writer else none

/-- The generated `write_to` of a struct whose fields have the values `vs` — speedy-derive/src/lib.rs:2372-2373, 2403-2406, 2467-2470. -/
def writeStruct (T : Target) (e : Endian) (ds : List FieldD) (vs : List Val) : Option WProg :=
  (writableBody ds).exec T e (assign ds vs writeEnv)

/-- The generated `write_to` of an enum for the `i`-th variant — speedy-derive/src/lib.rs:2410-2455.  The pattern comes before the tag is written. -/
def writeEnum (T : Target) (e : Endian) (d : EnumDesc) : List (Nat × List FieldD) → Nat → List Val → Option WProg
  | [], _, _ => none
  | (tag, ds) :: _, 0, vs =>
    let env := assign ds vs writeEnv
    match (if d.peek then some .ok else if env.hasWriter then some (writeLenRaw T.toHost d.tagTy tag) else none), (writableBody ds).exec T e env with
    | some p, some q => some (p.seq q)
    | _, _ => none
  | _ :: arms, i + 1, vs => writeEnum T e d arms i vs

end Verif.Gen
