import Verif.Decode
import Verif.Regular
import Verif.Strict

/-!
# Which types are read by programs which pass errors on

All types without `default_on_eof` and `length = ..` (`ends false true`).
Programs of types without `peek_tag` do not peek.
-/

namespace Verif

section
variable {pk : Bool}

theorem Strict.fail {α : Type} (e : Err) : Strict pk (M.fail e : M α) := .ret _

theorem Strict.pure {α : Type} (a : α) : Strict pk (M.pure a : M α) := .ret _

theorem Strict.ite {α : Type} {c : Prop} [Decidable c] {p q : M α} (hp : Strict pk p) (hq : Strict pk q) :
    Strict pk (if c then p else q) := by split <;> assumption

theorem strict_readNum (h : Host) (e : Endian) (n : Nat) : Strict pk (readNum h e n) :=
  .canRead _ _ (by
    rw [if_neg (by simp)]
    exact .read _ _ (fun _ => rfl) fun _ _ => .ret _)

theorem strict_peekNum (h : Host) (e : Endian) (n : Nat) (hp : pk = true) : Strict pk (peekNum h e n) :=
  .canRead _ _ (by
    rw [if_neg (by simp)]
    exact .peek _ _ hp (fun _ => rfl) fun _ _ => .ret _)

theorem strict_readBytes (n : Nat) : Strict pk (readBytes n) := .read _ _ (fun _ => rfl) fun _ _ => .ret _

theorem strict_peekBytes (n : Nat) (hp : pk = true) : Strict pk (peekBytes n) :=
  .peek _ _ hp (fun _ => rfl) fun _ _ => .ret _

theorem strict_readVarint (h : Host) (e : Endian) : Strict pk (readVarint h e) :=
  (strict_readNum h e 1).bind fun _ => (strict_readBytes _).bind fun _ => .ret _

theorem strict_peekVarint (h : Host) (e : Endian) (hp : pk = true) : Strict pk (peekVarint h e) :=
  (strict_peekNum h e 1 hp).bind fun _ => (strict_peekBytes _ hp).bind fun _ => .ret _

theorem strict_readLen (h : Host) (e : Endian) (lt : LenTy) : Strict pk (readLen h e lt) := by
  cases lt <;> unfold readLen
  · exact (strict_readNum h e _).bind fun _ => .ite (.fail _) (.pure _)
  · exact strict_readNum h e _
  · exact strict_readNum h e _
  · exact strict_readNum h e _
  · exact (strict_readNum h e _).bind fun _ => .ite (.fail _) (.pure _)
  · exact (strict_readVarint h e).bind fun _ => .ite (.fail _) (.pure _)

theorem strict_repeatM {α : Type} {p : M α} (hp : Strict pk p) : ∀ n, Strict pk (repeatM n p)
  | 0 => .pure _
  | n + 1 => hp.bind fun _ => (strict_repeatM hp n).bind fun _ => .pure _

theorem strict_liftVals (el : Elem) (r : Except Panic (List Bytes)) : Strict pk (liftVals el r) := by
  cases r <;> exact .ret _

theorem strict_readVec (h : Host) (e : Endian) {el : Elem} (hel : Strict pk el.read) (n : Nat) :
    Strict pk (readVec h e el n) := by
  unfold readVec
  refine .ite (.fail _) (.canRead _ _ ?_)
  rw [if_neg (by simp)]
  exact .ite (.fail _) (.alloc _ _ _ (.ite ((strict_readBytes _).bind fun _ => strict_liftVals _ _)
    (.ite (.pure _) (strict_repeatM hel _))))

theorem strict_readCow (h : Host) (e : Endian) {el : Elem} (hel : Strict pk el.read) (n : Nat) :
    Strict pk (readCow h e el n) := by
  unfold readCow
  exact .ite (.borrow _ _ (strict_readVec h e hel n).map) (strict_readVec h e hel n).map

theorem strict_readCollection (h : Host) (e : Endian) {el : Elem} (hel : Strict pk el.read) (n : Nat) :
    Strict pk (readCollection h e el n) := by
  unfold readCollection
  exact .ite (.ite (.fail _) (.borrowR _ _ (strict_repeatM hel n))) (strict_repeatM hel n)

theorem strict_readPair {ek ev : Elem} (hk : Strict pk ek.read) (hv : Strict pk ev.read) :
    Strict pk (readPair ek ev) :=
  hk.bind fun _ => hv.bind fun _ => .pure _

theorem strict_readKV (h : Host) (e : Endian) {ek ev : Elem} (hk : Strict pk ek.read) (hv : Strict pk ev.read)
    (n : Nat) : Strict pk (readKV h e ek ev n) := by
  unfold readKV
  exact .ite (.ite (.fail _) (.borrowR _ _ (strict_repeatM (strict_readPair hk hv) n)))
    (strict_repeatM (strict_readPair hk hv) n)

theorem strict_u8Elem (T : Target) (e : Endian) : Strict pk (u8Elem T e).read := (strict_readNum _ _ _).map

theorem strict_readConstant (T : Target) (e : Endian) (c : Bytes) :
    Strict pk (readConstant T.toHost e (u8Elem T e) c) :=
  .borrow _ _ ((strict_readVec _ _ (strict_u8Elem T e) _).bind fun _ => .ite (.pure _) (.fail _))

theorem strict_borrowBytes (n : Nat) : Strict pk (borrowBytes n) := .borrow _ _ (.fail _)

theorem strict_readRefSlice (h : Host) (el : Elem) (n : Nat) : Strict pk (readRefSlice h el n) :=
  .ite (.fail _) ((strict_borrowBytes _).bind fun _ => .pure _)

theorem strict_convert (c : Conv) (v : Val) : Strict pk (convert c v) := by
  unfold convert
  cases c.apply v with
  | ok w => exact .pure _
  | error er => exact .fail _

theorem strict_asStr (bs : Bytes) : Strict pk (asStr bs) := .ite (.pure _) (.fail _)

theorem strict_readStr (T : Target) (e : Endian) (k : StrKind) (n : Nat) : Strict pk (readStr T e k (some n)) := by
  cases k
  · exact (strict_readVec _ _ (strict_u8Elem T e) _).bind fun _ => strict_asStr _
  · exact (strict_readCow _ _ (strict_u8Elem T e) _).bind fun _ => strict_asStr _
  · exact (strict_borrowBytes _).bind fun _ => strict_asStr _

theorem strict_readSeq (T : Target) (e : Endian) (k : SeqKind) {el : Elem} (hel : Strict pk el.read) (n : Nat) :
    Strict pk (readSeq T e k el (some n)) := by
  cases k
  · exact (strict_readVec _ _ hel _).map
  · exact (strict_readCow _ _ hel _).map
  · exact (strict_readRefSlice _ _ _).map

theorem strict_readArray (T : Target) (e : Endian) (inl : Bool) {el : Elem} (hel : Strict pk el.read) (n : Nat) :
    Strict pk (readArray T e inl el n) :=
  .ite ((strict_readBytes _).bind fun _ => (strict_liftVals _ _).map) (strict_repeatM hel n).map

theorem strict_readBool (h : Host) (e : Endian) : Strict pk (readBool h e) := (strict_readNum _ _ _).map

theorem strict_readIpv6 (h : Host) (e : Endian) : Strict pk (readIpv6 h e) := (strict_readBytes _).map

theorem strict_readDuration (h : Host) (e : Endian) : Strict pk (readDuration h e) :=
  (strict_readNum _ _ _).bind fun _ => (strict_readNum _ _ _).bind fun _ => .ite (.pure _) (.fail _)

/-- The length does not depend on the end of the input. -/
def LenR.strict : LenR → Bool
  | .typed _ d => !d
  | .fixed _ => true
  | .untilEof => false

/-- Reading a length passes errors on and gives a number; `f` is what follows. -/
theorem strict_lenBind {α : Type} (h : Host) (e : Endian) {l : LenR} (hl : l.strict = true) {f : Option Nat → M α}
    (hf : ∀ n, Strict pk (f (some n))) : Strict pk (M.bind (readLenR h e l) f) := by
  cases l with
  | typed lt d =>
    cases d with
    | true => cases hl
    | false =>
      have : M.bind (readLenR h e (.typed lt false)) f = M.bind (readLen h e lt) fun n => f (some n) := by
        show M.bind (M.map some (readLen h e lt)) f = _
        unfold M.map M.bind
        generalize readLen h e lt = p
        induction p with
        | ret r => cases r <;> rfl
        | read n k ih => simp only [Prog.bind, ih]
        | peek n k ih => simp only [Prog.bind, ih]
        | skip n k ih => simp only [Prog.bind, ih]
        | canRead n k ih => simp only [Prog.bind, ih]
        | borrow n k ih => simp only [Prog.bind, ih]
        | borrowR n k ih => simp only [Prog.bind, ih]
        | borrowEof k ih => simp only [Prog.bind, ih]
        | alloc n m k ih => simp only [Prog.bind, ih]
      rw [this]
      exact (strict_readLen h e lt).bind hf
  | fixed n => exact hf n
  | untilEof => cases hl

end

mutual
/-- No enum with `peek_tag` in the type. -/
def noPeek : Ty → Bool
  | .seq _ t | .set t | .array _ t | .refArray _ t | .option t | .range t | .rangeInc t | .box t | .via _ t => noPeek t
  | .map a b | .result a b | .pair a b => noPeek a && noPeek b
  | .struct _ fs => noPeekFields fs
  | .enum d vs => !d.peek && noPeekVariants vs
  | _ => true
/-- Fields. -/
def noPeekFields : Fields → Bool
  | .nil => true
  | .cons _ t fs => noPeek t && noPeekFields fs
/-- Variants. -/
def noPeekVariants : Variants → Bool
  | .nil => true
  | .cons _ fs vs => noPeekFields fs && noPeekVariants vs
end

section
variable {pk : Bool}

theorem strict_readTag (h : Host) (e : Endian) (d : EnumDesc) (hp : pk = true ∨ d.peek = false) :
    Strict pk (readTag h e d) := by
  obtain ⟨lt, p⟩ := d
  cases p
  · cases lt
    case varint => exact strict_readVarint h e
    all_goals exact strict_readNum h e _
  · have hk : pk = true := by simpa using hp
    cases lt
    case varint => exact strict_peekVarint h e hk
    all_goals exact strict_peekNum h e _ hk

theorem Attrs.strict_len {a : Attrs} {t : Ty} (h : Host) (prev : List Val) (ha : a.ends false true t = true) :
    (a.cx h prev).len.strict = true := by
  simp only [Attrs.ends, Bool.true_and, Bool.false_and, Bool.and_eq_true, Bool.not_eq_true'] at ha
  obtain ⟨hd, hl⟩ := ha
  simp only [Attrs.cx, Attrs.wcx]
  split
  · rfl
  · cases hk : a.len with
    | none => simp [LenR.cast, LenR.strict, hd]
    | some k =>
      cases k with
      | typed lt => simp [LenR.cast, LenR.strict, hd]
      | expr f => rfl
      | untilEof => rw [hk] at hl; cases hl

theorem Cx.strict_opt {cx : Cx} (h : cx.len.strict = true) (t : Ty) : (cx.opt t).len.strict = true := by
  unfold Cx.opt
  split
  · rfl
  · exact h

variable {T : Target} {e : Endian}

mutual
/-- Types without `default_on_eof` and `length = ..` are read by programs which
pass all errors on, and which do not peek if there is no `peek_tag`. -/
theorem decode_strict : ∀ (t : Ty) (cx : Cx), ends false true t = true → cx.len.strict = true →
    (pk = true ∨ noPeek t = true) → Strict pk (decode T e t cx)
  | .prim p, _, _, _, _ => by unfold decode; exact (strict_readNum _ _ _).map
  | .usize, _, _, _, _ => by
    unfold decode; exact (strict_readNum _ _ _).bind fun _ => .ite (.fail _) (.pure _)
  | .bool, _, _, _, _ => by unfold decode; exact (strict_readBool _ _).map
  | .char, _, _, _, _ => by
    unfold decode; exact (strict_readNum _ _ _).bind fun _ => .ite (.pure _) (.fail _)
  | .nonZero p, _, _, _, _ => by
    unfold decode; exact (strict_readNum _ _ _).bind fun _ => .ite (.fail _) (.pure _)
  | .atomic p, _, _, _, _ => by unfold decode; exact (strict_readNum _ _ _).map
  | .ipv4, _, _, _, _ => by unfold decode; exact (strict_readNum _ _ _).map
  | .ipv6, _, _, _, _ => by unfold decode; exact strict_readIpv6 _ _
  | .ipAddr, _, _, _, _ => by
    unfold decode
    exact (strict_readNum _ _ _).bind fun _ => .ite (strict_readNum _ _ _).map
      (.ite (strict_readIpv6 _ _).map (.fail _))
  | .duration, _, _, _, _ => by unfold decode; exact (strict_readDuration _ _).map
  | .systemTime, _, _, _, _ => by
    unfold decode; exact (strict_readDuration _ _).bind fun _ => .ite (.pure _) (.fail _)
  | .endianness, _, _, _, _ => by
    unfold decode
    exact (strict_readNum _ _ _).bind fun _ => .ite (.pure _) (.ite (.pure _) (.fail _))
  | .varint64, _, _, _, _ => by unfold decode; exact (strict_readVarint _ _).map
  | .uuid, _, _, _, _ => by unfold decode; exact (strict_readBytes _).map
  | .str k, cx, _, hl, _ => by unfold decode; exact strict_lenBind _ _ hl fun n => strict_readStr _ _ _ _
  | .seq k t, cx, he, hl, hp => by
    simp only [ends] at he
    simp only [noPeek] at hp
    have := decode_strict t Cx.std he rfl hp
    unfold decode
    exact .ite (.fail _) (strict_lenBind _ _ hl fun n => strict_readSeq _ _ _ this _)
  | .set t, cx, he, hl, hp => by
    simp only [ends] at he
    simp only [noPeek] at hp
    have := decode_strict t Cx.std he rfl hp
    unfold decode
    exact strict_lenBind _ _ hl fun n => (strict_readCollection _ _ (el := elemOf T t _) this _).map
  | .map k v, cx, he, hl, hp => by
    simp only [ends, Bool.and_eq_true] at he
    simp only [noPeek, Bool.and_eq_true] at hp
    have hk := decode_strict k Cx.std he.1 rfl (hp.imp id (·.1))
    have hv := decode_strict v Cx.std he.2 rfl (hp.imp id (·.2))
    unfold decode
    exact strict_lenBind _ _ hl fun n =>
      (strict_readKV _ _ (ek := elemOf T k _) (ev := elemOf T v _) hk hv _).map
  | .array n t, cx, he, hl, hp => by
    simp only [ends] at he
    simp only [noPeek] at hp
    have := decode_strict t Cx.std he rfl hp
    unfold decode
    exact strict_readArray _ _ _ (el := elemOf T t _) this _
  | .refArray n t, _, _, _, _ => by
    unfold decode; exact .ite (.fail _) (strict_borrowBytes _).map
  | .option t, cx, he, hl, hp => by
    simp only [ends] at he
    simp only [noPeek] at hp
    have := decode_strict t (cx.opt t) he (Cx.strict_opt hl t) hp
    unfold decode
    exact (strict_readBool _ _).bind fun _ => .ite this.map (.pure _)
  | .result t er, _, he, _, hp => by
    simp only [ends, Bool.and_eq_true] at he
    simp only [noPeek, Bool.and_eq_true] at hp
    have h1 := decode_strict t Cx.std he.1 rfl (hp.imp id (·.1))
    have h2 := decode_strict er Cx.std he.2 rfl (hp.imp id (·.2))
    unfold decode
    exact (strict_readBool _ _).bind fun _ => .ite h1.map h2.map
  | .range t, _, he, _, hp => by
    simp only [ends] at he
    simp only [noPeek] at hp
    have := decode_strict t Cx.std he rfl hp
    unfold decode
    exact this.bind fun _ => this.bind fun _ => .pure _
  | .rangeInc t, _, he, _, hp => by
    simp only [ends] at he
    simp only [noPeek] at hp
    have := decode_strict t Cx.std he rfl hp
    unfold decode
    exact this.bind fun _ => this.bind fun _ => .pure _
  | .unit, _, _, _, _ => by unfold decode; exact .pure _
  | .pair a b, _, he, _, hp => by
    simp only [ends, Bool.false_and, Bool.and_eq_true] at he
    simp only [noPeek, Bool.and_eq_true] at hp
    have h1 := decode_strict a Cx.std he.1 rfl (hp.imp id (·.1))
    have h2 := decode_strict b Cx.std he.2 rfl (hp.imp id (·.2))
    unfold decode
    exact h1.bind fun _ => h2.bind fun _ => .pure _
  | .box t, _, he, _, hp => by
    simp only [ends] at he
    simp only [noPeek] at hp
    unfold decode
    exact decode_strict t Cx.std he rfl hp
  | .via c t, _, he, _, hp => by
    simp only [ends] at he
    simp only [noPeek] at hp
    unfold decode
    exact (decode_strict t Cx.std he rfl hp).bind fun _ => strict_convert _ _
  | .struct _ fs, _, he, _, hp => by
    simp only [ends] at he
    simp only [noPeek] at hp
    unfold decode
    exact decodeFields_strict fs [] he hp
  | .enum d vs, _, he, _, hp => by
    simp only [ends] at he
    simp only [noPeek, Bool.and_eq_true, Bool.not_eq_true'] at hp
    unfold decode
    exact (strict_readTag _ _ _ (hp.imp id (·.1))).bind fun _ => decodeVariants_strict vs _ _ he (hp.imp id (·.2))
/-- Fields. -/
theorem decodeFields_strict : ∀ (fs : Fields) (prev : List Val), endsFields false true fs = true →
    (pk = true ∨ noPeekFields fs = true) → Strict pk (decodeFields T e fs prev)
  | .nil, _, _, _ => by unfold decodeFields; exact .pure _
  | .cons a t fs, prev, he, hp => by
    simp only [endsFields, Bool.false_and, Bool.and_eq_true, Bool.or_eq_true] at he
    simp only [noPeekFields, Bool.and_eq_true] at hp
    have hfs : ∀ prev, Strict pk (decodeFields T e fs prev) := fun prev =>
      decodeFields_strict fs prev he.2 (hp.imp id (·.2))
    unfold decodeFields
    by_cases hs : a.skip = true
    · rw [if_pos hs]
      exact (hfs _).map
    · rw [if_neg hs]
      rcases he.1 with h | ⟨ha, ht⟩
      · exact absurd h hs
      · have hd : a.defaultOnEof = false := by
          simp only [Attrs.ends, Bool.true_and, Bool.and_eq_true, Bool.not_eq_true'] at ha
          exact ha.1
        have hb : Strict pk (decode T e t (a.cx T.toHost prev)) :=
          decode_strict t _ ht (Attrs.strict_len _ _ ha) (hp.imp id (·.1))
        simp only [hd, Bool.false_eq_true, if_false]
        refine Strict.bind ?_ fun v => (hfs _).map
        have hbody : Strict pk (if a.varint = true then M.map .num (readVarint T.toHost e)
            else decode T e t (a.cx T.toHost prev)) := .ite (strict_readVarint _ _).map hb
        exact .ite hbody ((strict_readConstant _ _ _).bind fun _ => hbody)
/-- Variants. -/
theorem decodeVariants_strict : ∀ (vs : Variants) (tag i : Nat), endsVariants false true vs = true →
    (pk = true ∨ noPeekVariants vs = true) → Strict pk (decodeVariants T e vs tag i)
  | .nil, _, _, _, _ => by unfold decodeVariants; exact .fail _
  | .cons tag' fs vs, tag, i, he, hp => by
    simp only [endsVariants, Bool.and_eq_true] at he
    simp only [noPeekVariants, Bool.and_eq_true] at hp
    unfold decodeVariants
    exact .ite (decodeFields_strict fs [] he.1 (hp.imp id (·.1))).map
      (decodeVariants_strict vs tag _ he.2 (hp.imp id (·.2)))
end

end

end Verif
