import Verif.DebugStream
import Verif.ReadersLawful

/-!
# Programs of debug builds and of release builds

`AgreeD h P Q p q`: the program `p` of a debug build makes the same calls as the program `q` of a release build and ends in the same way, or
it ends with the panic of an arithmetic overflow, which happens only if `P`.  Numbers which have been read are bounded (`Q`), so that the
products formed with them are.
-/

namespace Verif

/-- `p` does as `q` does, or panics if `P`; results have the property `Q`. -/
inductive AgreeD (h : Host) (P : Prop) {α : Type} (Q : α → Prop) : M α → M α → Prop where
  | ret (r : Except Err α) (hr : ∀ a, r = .ok a → Q a) : AgreeD h P Q (.ret r) (.ret r)
  | boom (q : M α) (hp : P) : AgreeD h P Q (.ret (.error (.panic .arithOverflow))) q
  | read (n : Nat) (k k' : Except Err Bytes → M α)
      (hk : ∀ r, (∀ bs, r = .ok bs → bs.length = n) → AgreeD h P Q (k r) (k' r)) : AgreeD h P Q (.read n k) (.read n k')
  | peek (n : Nat) (hn : n ≤ h.isizeMax) (k k' : Except Err Bytes → M α)
      (hk : ∀ r, (∀ bs, r = .ok bs → bs.length = n) → AgreeD h P Q (k r) (k' r)) : AgreeD h P Q (.peek n k) (.peek n k')
  | skip (n : Nat) (k k' : Except Err Unit → M α) (hk : ∀ r, AgreeD h P Q (k r) (k' r)) : AgreeD h P Q (.skip n k) (.skip n k')
  | canRead (n : Nat) (k k' : Option Bool → M α) (hk : ∀ r, AgreeD h P Q (k r) (k' r)) :
      AgreeD h P Q (.canRead n k) (.canRead n k')
  | borrow (n : Nat) (k k' : Option (Except Err (Nat × Bytes)) → M α) (hk : ∀ r, AgreeD h P Q (k r) (k' r)) :
      AgreeD h P Q (.borrow n k) (.borrow n k')
  | borrowR (n : Nat) (k k' : Option (Except Err (Nat × Bytes)) → M α) (hk : ∀ r, AgreeD h P Q (k r) (k' r)) :
      AgreeD h P Q (.borrowR n k) (.borrowR n k')
  | borrowEof (k k' : Option (Nat × Bytes) → M α) (hk : ∀ r, AgreeD h P Q (k r) (k' r)) :
      AgreeD h P Q (.borrowEof k) (.borrowEof k')
  | alloc (n m : Nat) (k k' : M α) (hk : AgreeD h P Q k k') : AgreeD h P Q (.alloc n m k) (.alloc n m k')

/-- Any result. -/
abbrev Any {α : Type} : α → Prop := fun _ => True

namespace AgreeD

variable {h : Host} {P : Prop} {α β : Type} {Q : α → Prop} {Q' : β → Prop}

theorem pbind {p q : M α} (hpq : AgreeD h P Q p q) {f g : Except Err α → M β}
    (hfg : ∀ r, (∀ a, r = .ok a → Q a) → AgreeD h P Q' (f r) (g r))
    (hf : f (.error (.panic .arithOverflow)) = M.fail (.panic .arithOverflow)) : AgreeD h P Q' (Prog.bind p f) (Prog.bind q g) := by
  induction hpq with
  | ret r hr => exact hfg r hr
  | boom q hp =>
    simp only [Prog.bind]
    rw [hf]
    exact .boom _ hp
  | read n k k' hk ih => exact .read _ _ _ ih
  | peek n hn k k' hk ih => exact .peek _ hn _ _ ih
  | skip n k k' hk ih => exact .skip _ _ _ ih
  | canRead n k k' hk ih => exact .canRead _ _ _ ih
  | borrow n k k' hk ih => exact .borrow _ _ _ ih
  | borrowR n k k' hk ih => exact .borrowR _ _ _ ih
  | borrowEof k k' hk ih => exact .borrowEof _ _ ih
  | alloc n m k k' hk ih => exact .alloc _ _ _ _ ih

theorem fail (er : Err) : AgreeD h P Q (M.fail er) (M.fail er) := .ret _ fun _ he => by cases he

theorem pure {a : α} (ha : Q a) : AgreeD h P Q (M.pure a) (M.pure a) := .ret _ fun _ he => by cases he; exact ha

theorem bind {p q : M α} (hpq : AgreeD h P Q p q) {f g : α → M β} (hfg : ∀ a, Q a → AgreeD h P Q' (f a) (g a)) :
    AgreeD h P Q' (M.bind p f) (M.bind q g) := by
  unfold M.bind
  refine pbind hpq (fun r hr => ?_) rfl
  cases r with
  | ok a => exact hfg a (hr a rfl)
  | error er => exact fail er

theorem map {p q : M α} (hpq : AgreeD h P Q p q) {f : α → β} (hf : ∀ a, Q a → Q' (f a)) :
    AgreeD h P Q' (M.map f p) (M.map f q) := bind hpq fun a ha => pure (hf a ha)

theorem weaken {p q : M α} (hpq : AgreeD h P Q p q) {Q' : α → Prop} (hq : ∀ a, Q a → Q' a) : AgreeD h P Q' p q := by
  induction hpq with
  | ret r hr => exact .ret _ fun a ha => hq a (hr a ha)
  | boom q hp => exact .boom _ hp
  | read n k k' hk ih => exact .read _ _ _ ih
  | peek n hn k k' hk ih => exact .peek _ hn _ _ ih
  | skip n k k' hk ih => exact .skip _ _ _ ih
  | canRead n k k' hk ih => exact .canRead _ _ _ ih
  | borrow n k k' hk ih => exact .borrow _ _ _ ih
  | borrowR n k k' hk ih => exact .borrowR _ _ _ ih
  | borrowEof k k' hk ih => exact .borrowEof _ _ ih
  | alloc n m k k' hk ih => exact .alloc _ _ _ _ ih

theorem imp {p q : M α} (hpq : AgreeD h P Q p q) {P' : Prop} (hP : P → P') : AgreeD h P' Q p q := by
  induction hpq with
  | ret r hr => exact .ret _ hr
  | boom q hp => exact .boom _ (hP hp)
  | read n k k' hk ih => exact .read _ _ _ ih
  | peek n hn k k' hk ih => exact .peek _ hn _ _ ih
  | skip n k k' hk ih => exact .skip _ _ _ ih
  | canRead n k k' hk ih => exact .canRead _ _ _ ih
  | borrow n k k' hk ih => exact .borrow _ _ _ ih
  | borrowR n k k' hk ih => exact .borrowR _ _ _ ih
  | borrowEof k k' hk ih => exact .borrowEof _ _ ih
  | alloc n m k k' hk ih => exact .alloc _ _ _ _ ih

theorem any {p q : M α} (hpq : AgreeD h P Q p q) : AgreeD h P Any p q := hpq.weaken fun _ _ => trivial

theorem ite {c : Prop} [Decidable c] {p p' q q' : M α} (hp : c → AgreeD h P Q p p') (hq : ¬ c → AgreeD h P Q q q') :
    AgreeD h P Q (if c then p else q) (if c then p' else q') := by
  by_cases hc : c
  · rw [if_pos hc, if_pos hc]; exact hp hc
  · rw [if_neg hc, if_neg hc]; exact hq hc

theorem onEof {p q : M α} (hpq : AgreeD h P Q p q) {d : α} (hd : Q d) : AgreeD h P Q (Verif.onEof p d) (Verif.onEof q d) := by
  unfold Verif.onEof
  refine pbind hpq (fun r hr => ?_) rfl
  cases r with
  | ok a => exact pure (hr a rfl)
  | error er => exact ite (fun _ => pure hd) fun _ => fail er

theorem repeatM {p q : M α} (hpq : AgreeD h P Q p q) : ∀ n, AgreeD h P Any (Verif.repeatM n p) (Verif.repeatM n q)
  | 0 => pure trivial
  | n + 1 => bind hpq fun _ _ => bind (repeatM hpq n) fun _ _ => pure trivial

theorem readUntilEof {Q : Val → Prop} {p q : M Val} (hpq : AgreeD h P Q p q) :
    ∀ n, AgreeD h P Any (Verif.readUntilEof n p) (Verif.readUntilEof n q)
  | 0 => fail _
  | n + 1 => by
    unfold Verif.readUntilEof
    refine pbind hpq (fun r hr => ?_) rfl
    cases r with
    | ok a => exact bind (readUntilEof hpq n) fun _ _ => pure trivial
    | error er => exact ite (fun _ => pure trivial) fun _ => fail er

/-! ## Numbers and bytes -/

theorem readBytes (n : Nat) : AgreeD h P Any (Verif.readBytes n) (Verif.readBytes n) := .read _ _ _ fun _ _ => .ret _ fun _ _ => trivial

theorem peekBytes {n : Nat} (hn : n ≤ h.isizeMax) : AgreeD h P Any (Verif.peekBytes n) (Verif.peekBytes n) :=
  .peek _ hn _ _ fun _ _ => .ret _ fun _ _ => trivial

theorem num_bound (h' : Host) (e : Endian) {n : Nat} {bs : Bytes} (hb : bs.length = n) :
    (if e.conv h' then swapBytes n (h'.native.num bs) else h'.native.num bs) < 256 ^ n := by
  split
  · exact swapBytes_lt _ _
  · rw [← hb]; exact Endian.num_lt _ _

theorem readNum (h' : Host) (e : Endian) (n : Nat) : AgreeD h P (· < 256 ^ n) (Verif.readNum h' e n) (Verif.readNum h' e n) := by
  refine .canRead _ _ _ fun r => ite (fun _ => fail _) fun _ => .read _ _ _ fun r hr => ?_
  cases r with
  | error er => exact fail er
  | ok bs => exact pure (num_bound h' e (hr bs rfl))

theorem peekNum (h' : Host) (e : Endian) {n : Nat} (hn : n ≤ h.isizeMax) :
    AgreeD h P (· < 256 ^ n) (Verif.peekNum h' e n) (Verif.peekNum h' e n) := by
  refine .canRead _ _ _ fun r => ite (fun _ => fail _) fun _ => .peek _ hn _ _ fun r hr => ?_
  cases r with
  | error er => exact fail er
  | ok bs => exact pure (num_bound h' e (hr bs rfl))

theorem readVarint (h' : Host) (e : Endian) : AgreeD h P Any (Verif.readVarint h' e) (Verif.readVarint h' e) :=
  bind (readNum _ _ _) fun _ _ => bind (readBytes _) fun _ _ => pure trivial

theorem viLength_le (b : UInt8) : viLength b ≤ 8 := by rw [viLength_eq]; exact leadingOnes_le _

theorem peekVarint (hh : h.Ok) (h' : Host) (e : Endian) : AgreeD h P Any (Verif.peekVarint h' e) (Verif.peekVarint h' e) := by
  have := hh.lower
  have := hh.isize
  refine bind (peekNum _ _ (by omega)) fun a _ => bind (peekBytes ?_) fun _ _ => pure trivial
  have := viLength_le (UInt8.ofNat a)
  omega

end AgreeD

/-- The largest length which a source of lengths gives. -/
def LenR.most (h : Host) : LenR → Nat
  | .typed lt _ => min lt.max h.usizeMax
  | .fixed n => n
  | .untilEof => 0

namespace AgreeD

variable {h : Host} {P : Prop}

theorem readLen (hh : h.Ok) (e : Endian) (lt : LenTy) :
    AgreeD h P (· ≤ min lt.max h.usizeMax) (Verif.readLen h e lt) (Verif.readLen h e lt) := by
  have := hh.lower
  have := hh.upper
  have checked : ∀ {Q : Nat → Prop} {p : M Nat} {m : Nat} (_ : ∀ n, Q n → n ≤ h.usizeMax → n ≤ m), AgreeD h P Q p p →
      AgreeD h P (· ≤ m) (M.bind p fun n => if n > h.usizeMax then M.fail .outOfRangeLength else M.pure n)
        (M.bind p fun n => if n > h.usizeMax then M.fail .outOfRangeLength else M.pure n) := fun {Q p m} hm hp =>
    bind hp fun n hn => ite (fun _ => fail _) fun hc => pure (hm n hn (by omega))
  cases lt <;> unfold Verif.readLen <;> simp only [LenTy.max]
  · refine bind (readNum _ _ _) fun n hn => ite (fun _ => fail _) fun hc => pure ?_
    have : n < 256 ^ 1 := hn
    omega
  · exact (readNum _ _ _).weaken fun n hn => by have : n < 256 ^ 1 := hn; omega
  · exact (readNum _ _ _).weaken fun n hn => by have : n < 256 ^ 2 := hn; omega
  · exact (readNum _ _ _).weaken fun n hn => by have : n < 256 ^ 4 := hn; omega
  · exact checked (fun n _ hn => by omega) (readNum h e 8)
  · exact checked (fun n _ hn => by omega) (readVarint h e)

theorem readLenR (hh : h.Ok) (e : Endian) (l : LenR) :
    AgreeD h P (fun o => ∀ n, o = some n → n ≤ l.most h) (Verif.readLenR h e l) (Verif.readLenR h e l) := by
  cases l with
  | typed lt d =>
    cases d with
    | false => exact map (readLen hh e lt) fun a ha n hn => by cases hn; exact ha
    | true => exact map (onEof (readLen hh e lt) (Nat.zero_le _)) fun a ha n hn => by cases hn; exact ha
  | fixed n => exact pure fun m hm => by cases hm; exact Nat.le_refl _
  | untilEof => exact pure fun m hm => by cases hm

end AgreeD

/-! ## Elements -/

namespace AgreeD

variable {h : Host} {P : Prop}

theorem liftVals (el : Elem) (r : Except Panic (List Bytes)) : AgreeD h P Any (Verif.liftVals el r) (Verif.liftVals el r) := by
  cases r with
  | error p => exact fail _
  | ok ms => exact pure trivial

theorem mulD_zero (h : Host) (a : Nat) : h.mulD a 0 = .ok 0 := by rw [mulD_ok] <;> simp

theorem readVec (hh : h.Ok) (e : Endian) {p q : M Val} {a : Elem} (hpq : AgreeD h P Any p q) (n : Nat) :
    AgreeD h P Any (readVecD h e { a with read := p } n) (Verif.readVec h e { a with read := q } n) := by
  unfold readVecD Verif.readVec
  have := hh.isize
  refine ite (fun _ => fail _) fun _ => .canRead _ _ _ fun r => ite (fun _ => fail _) fun _ =>
    ite (fun _ => fail _) fun hc => .alloc _ _ _ _ (ite (fun _ => ?_) fun _ => ite (fun _ => pure trivial) fun _ => repeatM hpq n)
  have hm : h.mulD (if a.size = 0 then h.usizeMax else n) a.size = .ok (n * a.size) := by
    split
    · rename_i h0
      rw [h0, mulD_zero, Nat.mul_zero]
    · exact mulD_ok (by simp only at hc; omega)
  simp only
  rw [hm]
  exact bind (readBytes _) fun _ _ => liftVals _ _

theorem readCow (hh : h.Ok) (e : Endian) {p q : M Val} {a : Elem} (hpq : AgreeD h P Any p q) {n : Nat}
    (hP : a.prim = true → n * a.size ≤ h.usizeMax ∨ P) :
    AgreeD h P Any (readCowD h e { a with read := p } n) (Verif.readCow h e { a with read := q } n) := by
  have hv : AgreeD h P Any (M.map CowVal.owned (readVecD h e { a with read := p } n))
      (M.map CowVal.owned (Verif.readVec h e { a with read := q } n)) := map (readVec hh e hpq n) fun _ _ => trivial
  unfold readCowD Verif.readCow
  refine ite (fun hc => ?_) fun _ => hv
  simp only
  by_cases hm : n * a.size ≤ h.usizeMax
  · have hw : wmul h n a.size = n * a.size := Nat.mod_eq_of_lt (by omega)
    rw [mulD_ok hm, hw]
    refine .borrow _ _ _ fun r => ?_
    rcases r with _ | er | ⟨ad, bs⟩
    · exact hv
    · exact fail _
    · exact ite (fun _ => fail _) fun _ => ite (fun _ => ite (fun _ => fail _) fun _ => pure trivial) fun _ =>
        ite (fun _ => fail _) fun _ => .alloc _ _ _ _ (pure trivial)
  · have : h.mulD n a.size = .error .arithOverflow := if_neg hm
    rw [this]
    refine .boom _ ((hP ?_).resolve_left hm)
    simp only [Bool.and_eq_true] at hc
    exact hc.1

theorem readCollection (e : Endian) {p q : M Val} {a : Elem} (hpq : AgreeD h P Any p q) (n : Nat) :
    AgreeD h P Any (Verif.readCollection h e { a with read := p } n) (Verif.readCollection h e { a with read := q } n) := by
  unfold Verif.readCollection
  refine ite (fun _ => ite (fun _ => fail _) fun _ => .borrowR _ _ _ fun r => ?_) fun _ => repeatM hpq n
  rcases r with _ | er | ⟨ad, bs⟩
  · exact repeatM hpq n
  · exact fail _
  · exact ite (fun _ => fail _) fun _ => pure trivial

theorem readPair {p q p' q' : M Val} {a b : Elem} (hpq : AgreeD h P Any p q) (hpq' : AgreeD h P Any p' q') :
    AgreeD h P Any (Verif.readPair { a with read := p } { b with read := p' })
      (Verif.readPair { a with read := q } { b with read := q' }) :=
  bind hpq fun _ _ => bind hpq' fun _ _ => pure trivial

theorem readKV (e : Endian) {p q p' q' : M Val} {a b : Elem} (hpq : AgreeD h P Any p q) (hpq' : AgreeD h P Any p' q') (n : Nat) :
    AgreeD h P Any (Verif.readKV h e { a with read := p } { b with read := p' } n)
      (Verif.readKV h e { a with read := q } { b with read := q' } n) := by
  have hp : AgreeD h P Any (Verif.repeatM n (Verif.readPair { a with read := p } { b with read := p' }))
    (Verif.repeatM n (Verif.readPair { a with read := q } { b with read := q' })) := repeatM (readPair hpq hpq') n
  unfold Verif.readKV
  refine ite (fun _ => ite (fun _ => fail _) fun _ => .borrowR _ _ _ fun r => ?_) fun _ => hp
  rcases r with _ | er | ⟨ad, bs⟩
  · exact hp
  · exact fail _
  · exact ite (fun _ => fail _) fun _ => pure trivial

theorem u8 (T : Target) (e : Endian) : AgreeD h P Any (u8Elem T e).read (u8Elem T e).read := map (readNum _ _ _) fun _ _ => trivial

theorem readConstant (hh : h.Ok) (T : Target) (e : Endian) (c : Bytes) :
    AgreeD h P Any (readConstantD h e (u8Elem T e) c) (Verif.readConstant h e (u8Elem T e) c) := by
  refine .borrow _ _ _ fun r => ?_
  rcases r with _ | er | ⟨ad, bs⟩
  · exact bind (readVec hh e (a := u8Elem T e) (u8 T e) _) fun _ _ => ite (fun _ => pure trivial) fun _ => fail _
  · exact fail _
  · exact ite (fun _ => pure trivial) fun _ => fail _

theorem borrowBytes (n : Nat) : AgreeD h P Any (Verif.borrowBytes n) (Verif.borrowBytes n) := by
  refine .borrow _ _ _ fun r => ?_
  rcases r with _ | er | ⟨ad, bs⟩
  · exact fail _
  · exact fail _
  · exact pure trivial

theorem borrowRest : AgreeD h P Any Verif.borrowRest Verif.borrowRest := by
  refine .borrowEof _ _ fun r => ?_
  rcases r with _ | ⟨ad, bs⟩
  · exact fail _
  · exact pure trivial

theorem asStr (bs : Bytes) : AgreeD h P Any (Verif.asStr bs) (Verif.asStr bs) := ite (fun _ => pure trivial) fun _ => fail _

theorem readStr {T : Target} (hT : T.Ok) (e : Endian) (k : StrKind) {len : Option Nat}
    (hl : ∀ n, len = some n → n ≤ T.usizeMax) : AgreeD T.toHost P Any (readStrD T e k len) (Verif.readStr T e k len) := by
  cases k <;> cases len <;> unfold readStrD Verif.readStr
  · exact bind (readUntilEof (u8 T e) _) fun _ _ => asStr _
  · exact bind (readVec hT.toOk e (a := u8Elem T e) (u8 T e) _) fun _ _ => asStr _
  · exact bind (readUntilEof (u8 T e) _) fun _ _ => asStr _
  · refine bind (readCow hT.toOk e (a := u8Elem T e) (u8 T e) fun _ => .inl ?_) fun _ _ => asStr _
    have := hl _ rfl
    show _ * 1 ≤ _
    omega
  · exact bind borrowRest fun _ _ => asStr _
  · exact bind (borrowBytes _) fun _ _ => asStr _

theorem readSeq {T : Target} (hT : T.Ok) (e : Endian) (k : SeqKind) {t : Ty} {p q : M Val} (hpq : AgreeD T.toHost P Any p q)
    {len : Option Nat} (hl : k = .cow → isPrimitive T t = true → ∀ n, len = some n → n * sizeOf T t ≤ T.usizeMax ∨ P) :
    AgreeD T.toHost P Any (readSeqD T e k (elemOf T t p) len) (Verif.readSeq T e k (elemOf T t q) len) := by
  cases k <;> cases len <;> unfold readSeqD Verif.readSeq
  · exact map (readUntilEof hpq _) fun _ _ => trivial
  · exact map (readVec hT.toOk e (a := elemOf T t p) hpq _) fun _ _ => trivial
  · exact map (readUntilEof hpq _) fun _ _ => trivial
  · exact map (readCow hT.toOk e (a := elemOf T t p) hpq fun hp => hl rfl hp _ rfl) fun _ _ => trivial
  · refine map (Q := Any) ?_ fun _ _ => trivial
    exact bind borrowRest fun _ _ => ite (fun _ => fail _) fun _ => pure trivial
  · refine map (Q := Any) ?_ fun _ _ => trivial
    exact ite (fun _ => fail _) fun _ => bind (borrowBytes _) fun _ _ => pure trivial

theorem readArray (T : Target) (e : Endian) (inl : Bool) {p q : M Val} {t : Ty} (hpq : AgreeD h P Any p q) (n : Nat) :
    AgreeD h P Any (Verif.readArray T e inl (elemOf T t p) n) (Verif.readArray T e inl (elemOf T t q) n) :=
  ite (fun _ => bind (readBytes _) fun _ _ => map (liftVals _ _) fun _ _ => trivial) fun _ =>
    map (repeatM hpq _) fun _ _ => trivial

theorem readTag (hh : h.Ok) (h' : Host) (e : Endian) (d : EnumDesc) : AgreeD h P Any (Verif.readTag h' e d) (Verif.readTag h' e d) := by
  have := hh.lower
  have := hh.isize
  obtain ⟨lt, pk⟩ := d
  cases pk <;> cases lt
  case false.varint => exact readVarint _ _
  case true.varint => exact peekVarint hh _ _
  case false.u7 | false.u8 | false.u16 | false.u32 | false.u64 => exact (readNum _ _ _).any
  all_goals exact (peekNum _ _ (by simp only [LenTy.minSize]; omega)).any

theorem durationNew (a b : Nat) : AgreeD h P Any (Verif.durationNew a b) (Verif.durationNew a b) :=
  ite (fun _ => pure trivial) fun _ => fail _

theorem readDuration (h' : Host) (e : Endian) : AgreeD h P Any (Verif.readDuration h' e) (Verif.readDuration h' e) :=
  bind (readNum _ _ _) fun _ _ => bind (readNum _ _ _) fun _ _ => durationNew _ _

theorem readIpv6 (h' : Host) (e : Endian) : AgreeD h P Any (Verif.readIpv6 h' e) (Verif.readIpv6 h' e) :=
  map (readBytes _) fun _ _ => trivial

theorem readBool (h' : Host) (e : Endian) : AgreeD h P Any (Verif.readBool h' e) (Verif.readBool h' e) :=
  map (readNum _ _ _) fun _ _ => trivial

theorem convert (c : Conv) (v : Val) : AgreeD h P Any (Verif.convert c v) (Verif.convert c v) := by
  unfold Verif.convert
  cases c.apply v with
  | ok w => exact pure trivial
  | error er => exact fail _

end AgreeD

/-! ## Types -/

/-- The largest length which can be read for a field with the attribute `length` — src/private.rs:130-231. -/
def Attrs.most (h : Host) (a : Attrs) : Nat :=
  if a.opaqueTy then 4294967295
  else match a.len with
    | some (.typed lt) => min lt.max h.usizeMax
    | some (.expr _) => h.usizeMax
    | some .untilEof => 0
    | none => 4294967295

/-- The same below an `Option`: see `Cx.opt`. -/
def optMost (m : Nat) : Ty → Nat
  | .option _ => 4294967295
  | _ => m

mutual
/-- The size of every `Cow<[T]>` of primitive values which can be read fits in `usize`; the length is at most `m`. -/
def cowFits (T : Target) (m : Nat) : Ty → Bool
  | .seq k t => (k != .cow || !isPrimitive T t || decide (m * sizeOf T t ≤ T.usizeMax)) && cowFits T 4294967295 t
  | .option t => cowFits T (optMost m t) t
  | .set t | .array _ t | .range t | .rangeInc t | .box t | .via _ t => cowFits T 4294967295 t
  | .map k v | .result k v | .pair k v => cowFits T 4294967295 k && cowFits T 4294967295 v
  | .struct _ fs => cowFitsFields T fs
  | .enum _ vs => cowFitsVariants T vs
  | _ => true
/-- The fields which are read. -/
def cowFitsFields (T : Target) : Fields → Bool
  | .nil => true
  | .cons a t fs => (a.skip || a.varint || cowFits T (a.most T.toHost) t) && cowFitsFields T fs
/-- All variants. -/
def cowFitsVariants (T : Target) : Variants → Bool
  | .nil => true
  | .cons _ fs vs => cowFitsFields T fs && cowFitsVariants T vs
end

theorem Attrs.cx_most {T : Target} (hT : T.Ok) (a : Attrs) (prev : List Val) : (a.cx T.toHost prev).len.most T.toHost ≤ a.most T.toHost := by
  have := hT.lower
  unfold Attrs.cx Attrs.wcx Attrs.most
  by_cases ho : a.opaqueTy
  · simp only [ho, if_true, Cx.std, LenR.cast, LenR.most, LenTy.max]
    omega
  · simp only [ho, Bool.false_eq_true, if_false]
    cases a.len with
    | none =>
      simp only [LenR.cast, LenR.most, LenTy.max]
      omega
    | some l =>
      cases l with
      | typed lt => exact Nat.le_refl _
      | untilEof => exact Nat.le_refl _
      | expr f =>
        simp only [LenR.cast, LenR.most]
        have : f prev % (T.usizeMax + 1) < T.usizeMax + 1 := Nat.mod_lt _ (Nat.succ_pos T.usizeMax)
        omega

theorem Attrs.most_le {T : Target} (hT : T.Ok) (a : Attrs) : a.most T.toHost ≤ T.usizeMax := by
  have := hT.lower
  unfold Attrs.most
  split
  · omega
  · split <;> omega

theorem Cx.std_most {h : Host} : Cx.std.len.most h ≤ 4294967295 := by
  simp only [Cx.std, LenR.most, LenTy.max]
  omega

theorem Cx.opt_most {h : Host} {cx : Cx} {m : Nat} (hm : cx.len.most h ≤ m) (t : Ty) : (cx.opt t).len.most h ≤ optMost m t := by
  cases t
  case option => exact Cx.std_most
  all_goals exact hm

theorem optMost_le {T : Target} (hT : T.Ok) {m : Nat} (hm : m ≤ T.usizeMax) (t : Ty) : optMost m t ≤ T.usizeMax := by
  unfold optMost
  split
  · exact hT.lower
  · exact hm

mutual
/-- A debug build reads a type as a release build does, or panics if the size of a `Cow` overflows. -/
theorem decode_agree {T : Target} (hT : T.Ok) (e : Endian) {P : Prop} : ∀ (t : Ty) {cx : Cx} {m : Nat}, cx.len.most T.toHost ≤ m →
    m ≤ T.usizeMax → (cowFits T m t = true ∨ P) → AgreeD T.toHost P Any (decodeD T e t cx) (decode T e t cx)
  | .prim p, _, _, _, _, _ => .map (.readNum _ _ _) fun _ _ => trivial
  | .usize, _, _, _, _, _ => .bind (.readNum _ _ _) fun _ _ => .ite (fun _ => .fail _) fun _ => .pure trivial
  | .bool, _, _, _, _, _ => .map (.readBool _ _) fun _ _ => trivial
  | .char, _, _, _, _, _ => .bind (.readNum _ _ _) fun _ _ => .ite (fun _ => .pure trivial) fun _ => .fail _
  | .nonZero p, _, _, _, _, _ => .bind (.readNum _ _ _) fun _ _ => .ite (fun _ => .fail _) fun _ => .pure trivial
  | .atomic p, _, _, _, _, _ => .map (.readNum _ _ _) fun _ _ => trivial
  | .ipv4, _, _, _, _, _ => .map (.readNum _ _ _) fun _ _ => trivial
  | .ipv6, _, _, _, _, _ => .readIpv6 _ _
  | .ipAddr, _, _, _, _, _ => .bind (.readNum _ _ _) fun _ _ => .ite (fun _ => .map (.readNum _ _ _) fun _ _ => trivial) fun _ =>
      .ite (fun _ => .map (.readIpv6 _ _) fun _ _ => trivial) fun _ => .fail _
  | .duration, _, _, _, _, _ => .map (.readDuration _ _) fun _ _ => trivial
  | .systemTime, _, _, _, _, _ => .bind (.readDuration _ _) fun _ _ => .ite (fun _ => .pure trivial) fun _ => .fail _
  | .endianness, _, _, _, _, _ => .bind (.readNum _ _ _) fun _ _ => .ite (fun _ => .pure trivial) fun _ =>
      .ite (fun _ => .pure trivial) fun _ => .fail _
  | .varint64, _, _, _, _, _ => .map (.readVarint _ _) fun _ _ => trivial
  | .uuid, _, _, _, _, _ => .map (.readBytes _) fun _ _ => trivial
  | .str k, _, _, hm, hu, _ => .bind (.readLenR hT.toOk e _) fun _ hl =>
      .readStr hT e k fun n hn => Nat.le_trans (hl n hn) (Nat.le_trans hm hu)
  | .seq k t, cx, m, hm, hu, hc => by
    have ih := decode_agree hT e (P := P) t Cx.std_most hT.lower
      (hc.imp_left fun h => by simp only [cowFits, Bool.and_eq_true] at h; exact h.2)
    simp only [decodeD, decode]
    refine .ite (fun _ => .fail _) fun _ => .bind (.readLenR hT.toOk e _) fun len hl => .readSeq hT e k ih fun hk hp n hn => ?_
    refine hc.imp_left fun h => ?_
    simp only [cowFits, hk, hp, Bool.and_eq_true, Bool.or_eq_true, bne_self_eq_false, Bool.false_eq_true, Bool.not_true, false_or,
      decide_eq_true_eq] at h
    exact Nat.le_trans (Nat.mul_le_mul_right _ (Nat.le_trans (hl n hn) hm)) h.1
  | .set t, cx, m, hm, hu, hc => by
    have ih := decode_agree hT e (P := P) t Cx.std_most hT.lower (hc.imp_left fun h => by simpa only [cowFits] using h)
    simp only [decodeD, decode]
    refine .bind (.readLenR hT.toOk e _) fun len _ => ?_
    cases len with
    | none => exact .map (.readUntilEof ih _) fun _ _ => trivial
    | some n => exact .map (.readCollection e (a := elemOf T t (decodeD T e t Cx.std)) ih n) fun _ _ => trivial
  | .map k v, cx, m, hm, hu, hc => by
    have hk := decode_agree hT e (P := P) k Cx.std_most hT.lower
      (hc.imp_left fun h => by simp only [cowFits, Bool.and_eq_true] at h; exact h.1)
    have hv := decode_agree hT e (P := P) v Cx.std_most hT.lower
      (hc.imp_left fun h => by simp only [cowFits, Bool.and_eq_true] at h; exact h.2)
    simp only [decodeD, decode]
    refine .bind (.readLenR hT.toOk e _) fun len _ => ?_
    cases len with
    | none =>
      exact .map (Q := Any) (.readUntilEof
        (.readPair (a := elemOf T k (decodeD T e k Cx.std)) (b := elemOf T v (decodeD T e v Cx.std)) hk hv) _) fun _ _ => trivial
    | some n =>
      exact .map (Q := Any) (.readKV e (a := elemOf T k (decodeD T e k Cx.std)) (b := elemOf T v (decodeD T e v Cx.std)) hk hv n)
        fun _ _ => trivial
  | .array n t, cx, m, hm, hu, hc => by
    have ih := decode_agree hT e (P := P) t Cx.std_most hT.lower (hc.imp_left fun h => by simpa only [cowFits] using h)
    simp only [decodeD, decode]
    exact .readArray T e _ ih n
  | .refArray n t, _, _, _, _, _ => .ite (fun _ => .fail _) fun _ => .map (.borrowBytes _) fun _ _ => trivial
  | .option t, cx, m, hm, hu, hc => by
    have ih := decode_agree hT e (P := P) t (cx := cx.opt t) (Cx.opt_most hm t) (optMost_le hT hu t)
      (hc.imp_left fun h => by simpa only [cowFits] using h)
    simp only [decodeD, decode]
    exact .bind (.readBool _ _) fun _ _ => .ite (fun _ => .map ih fun _ _ => trivial) fun _ => .pure trivial
  | .result t er, cx, m, hm, hu, hc => by
    have ht := decode_agree hT e (P := P) t Cx.std_most hT.lower
      (hc.imp_left fun h => by simp only [cowFits, Bool.and_eq_true] at h; exact h.1)
    have he := decode_agree hT e (P := P) er Cx.std_most hT.lower
      (hc.imp_left fun h => by simp only [cowFits, Bool.and_eq_true] at h; exact h.2)
    simp only [decodeD, decode]
    exact .bind (.readBool _ _) fun _ _ => .ite (fun _ => .map ht fun _ _ => trivial) fun _ => .map he fun _ _ => trivial
  | .range t, cx, m, hm, hu, hc => by
    have ih := decode_agree hT e (P := P) t Cx.std_most hT.lower (hc.imp_left fun h => by simpa only [cowFits] using h)
    simp only [decodeD, decode]
    exact .bind ih fun _ _ => .bind ih fun _ _ => .pure trivial
  | .rangeInc t, cx, m, hm, hu, hc => by
    have ih := decode_agree hT e (P := P) t Cx.std_most hT.lower (hc.imp_left fun h => by simpa only [cowFits] using h)
    simp only [decodeD, decode]
    exact .bind ih fun _ _ => .bind ih fun _ _ => .pure trivial
  | .unit, _, _, _, _, _ => .pure trivial
  | .pair a b, cx, m, hm, hu, hc => by
    have ha := decode_agree hT e (P := P) a Cx.std_most hT.lower
      (hc.imp_left fun h => by simp only [cowFits, Bool.and_eq_true] at h; exact h.1)
    have hb := decode_agree hT e (P := P) b Cx.std_most hT.lower
      (hc.imp_left fun h => by simp only [cowFits, Bool.and_eq_true] at h; exact h.2)
    simp only [decodeD, decode]
    exact .bind ha fun _ _ => .bind hb fun _ _ => .pure trivial
  | .box t, cx, m, hm, hu, hc => by
    simp only [decodeD, decode]
    exact decode_agree hT e t Cx.std_most hT.lower (hc.imp_left fun h => by simpa only [cowFits] using h)
  | .via c t, cx, m, hm, hu, hc => by
    simp only [decodeD, decode]
    exact .bind (decode_agree hT e t Cx.std_most hT.lower (hc.imp_left fun h => by simpa only [cowFits] using h)) fun _ _ => .convert _ _
  | .struct d fs, cx, m, hm, hu, hc => by
    simp only [decodeD, decode]
    exact decodeFields_agree hT e fs [] (hc.imp_left fun h => by simpa only [cowFits] using h)
  | .enum d vs, cx, m, hm, hu, hc => by
    simp only [decodeD, decode]
    exact .bind (.readTag hT.toOk _ e d) fun tag _ =>
      decodeVariants_agree hT e vs tag 0 (hc.imp_left fun h => by simpa only [cowFits] using h)
theorem decodeFields_agree {T : Target} (hT : T.Ok) (e : Endian) {P : Prop} : ∀ (fs : Fields) (prev : List Val),
    (cowFitsFields T fs = true ∨ P) → AgreeD T.toHost P Any (decodeFieldsD T e fs prev) (decodeFields T e fs prev)
  | .nil, _, _ => .pure trivial
  | .cons a t fs, prev, hc => by
    have ih := fun prev => decodeFields_agree hT e (P := P) fs prev
      (hc.imp_left fun h => by simp only [cowFitsFields, Bool.and_eq_true] at h; exact h.2)
    simp only [decodeFieldsD, decodeFields]
    by_cases hs : a.skip = true
    · rw [if_pos hs, if_pos hs]
      exact .map (ih prev) fun _ _ => trivial
    rw [if_neg hs, if_neg hs]
    have h1 : AgreeD T.toHost P Any (if a.varint then M.map .num (readVarint T.toHost e) else decodeD T e t (a.cx T.toHost prev))
        (if a.varint then M.map .num (readVarint T.toHost e) else decode T e t (a.cx T.toHost prev)) := by
      refine .ite (fun _ => .map (.readVarint _ _) fun _ _ => trivial) fun hv =>
        decode_agree hT e t (a.cx_most hT prev) (a.most_le hT) (hc.imp_left fun h => ?_)
      simp only [cowFitsFields, hs, hv, Bool.and_eq_true, Bool.or_eq_true, Bool.false_eq_true, false_or] at h
      exact h.1
    have h2 : AgreeD T.toHost P Any
        (if a.pre.isEmpty then (if a.varint then M.map .num (readVarint T.toHost e) else decodeD T e t (a.cx T.toHost prev))
          else M.bind (readConstantD T.toHost e (u8Elem T e) a.pre) fun _ =>
            (if a.varint then M.map .num (readVarint T.toHost e) else decodeD T e t (a.cx T.toHost prev)))
        (if a.pre.isEmpty then (if a.varint then M.map .num (readVarint T.toHost e) else decode T e t (a.cx T.toHost prev))
          else M.bind (readConstant T.toHost e (u8Elem T e) a.pre) fun _ =>
            (if a.varint then M.map .num (readVarint T.toHost e) else decode T e t (a.cx T.toHost prev))) :=
      .ite (fun _ => h1) fun _ => .bind (.readConstant hT.toOk T e _) fun _ _ => h1
    refine .bind (Q := Any) (.ite (fun _ => .onEof h2 trivial) fun _ => h2) fun v _ => .map (ih _) fun _ _ => trivial
theorem decodeVariants_agree {T : Target} (hT : T.Ok) (e : Endian) {P : Prop} : ∀ (vs : Variants) (tag i : Nat),
    (cowFitsVariants T vs = true ∨ P) → AgreeD T.toHost P Any (decodeVariantsD T e vs tag i) (decodeVariants T e vs tag i)
  | .nil, _, _, _ => .fail _
  | .cons tag' fs vs, tag, i, hc => by
    simp only [decodeVariantsD, decodeVariants]
    exact .ite (fun _ => .map (decodeFields_agree hT e fs []
        (hc.imp_left fun h => by simp only [cowFitsVariants, Bool.and_eq_true] at h; exact h.1)) fun _ _ => trivial) fun _ =>
      decodeVariants_agree hT e vs tag (i + 1)
        (hc.imp_left fun h => by simp only [cowFitsVariants, Bool.and_eq_true] at h; exact h.2)
end

/-! ## Readers -/

/-- While `I` holds of the state, the reader of a debug build does as that of a release build, and `I` continues to hold. -/
structure Matches {σ : Type} (h : Host) (RD R : ReaderOps σ) (I : σ → Prop) : Prop where
  read : ∀ n s, I s → RD.read n s = R.read n s ∧ I (R.read n s).2 ∧ ∀ bs, (R.read n s).1 = .ok bs → bs.length = n
  peek : ∀ n s, n ≤ h.isizeMax → I s → RD.peek n s = R.peek n s ∧ I (R.peek n s).2 ∧ ∀ bs, (R.peek n s).1 = .ok bs → bs.length = n
  skip : ∀ n s, I s → RD.skip n s = R.skip n s ∧ I (R.skip n s).2
  canRead : ∀ n s, I s → RD.canRead n s = R.canRead n s
  borrow : ∀ n s, I s → RD.borrow n s = R.borrow n s ∧ I (R.borrow n s).2
  borrowR : ∀ n s, I s → RD.borrowR n s = R.borrowR n s ∧ I (R.borrowR n s).2
  borrowEof : ∀ s, I s → RD.borrowEof s = R.borrowEof s ∧ I (R.borrowEof s).2

/-- The result and the state are the same, or the debug build panics and `P`. -/
theorem AgreeD.run {σ α : Type} {h : Host} {P : Prop} {Q : α → Prop} {p q : M α} (hpq : AgreeD h P Q p q) {RD R : ReaderOps σ}
    {I : σ → Prop} (hM : Matches h RD R I) : ∀ {s : σ}, I s →
    (p.run RD s = q.run R s ∨ P ∧ (p.run RD s).1 = .error (.panic .arithOverflow)) ∧ I (p.run RD s).2 := by
  induction hpq with
  | ret r hr => exact fun hs => ⟨.inl rfl, hs⟩
  | boom q hp => exact fun hs => ⟨.inr ⟨hp, rfl⟩, hs⟩
  | read n k k' hk ih =>
    intro s hs
    obtain ⟨h1, h2, h3⟩ := hM.read n s hs
    simp only [Prog.run, h1]
    exact ih _ h3 h2
  | peek n hn k k' hk ih =>
    intro s hs
    obtain ⟨h1, h2, h3⟩ := hM.peek n s hn hs
    simp only [Prog.run, h1]
    exact ih _ h3 h2
  | skip n k k' hk ih =>
    intro s hs
    obtain ⟨h1, h2⟩ := hM.skip n s hs
    simp only [Prog.run, h1]
    exact ih _ h2
  | canRead n k k' hk ih =>
    intro s hs
    simp only [Prog.run, hM.canRead n s hs]
    exact ih _ hs
  | borrow n k k' hk ih =>
    intro s hs
    obtain ⟨h1, h2⟩ := hM.borrow n s hs
    simp only [Prog.run, h1]
    exact ih _ h2
  | borrowR n k k' hk ih =>
    intro s hs
    obtain ⟨h1, h2⟩ := hM.borrowR n s hs
    simp only [Prog.run, h1]
    exact ih _ h2
  | borrowEof k k' hk ih =>
    intro s hs
    obtain ⟨h1, h2⟩ := hM.borrowEof s hs
    simp only [Prog.run, h1]
    exact ih _ h2
  | alloc n m k k' hk ih => exact fun hs => ih hs

theorem devReaderD_matches {σ : Type} {h : Host} (hh : h.Ok) {D : Device σ} (hD : D.Honest) {grow : Nat → Nat} (hg : ∀ n, n ≤ grow n)
    (hi : ∀ n, n ≤ h.isizeMax → grow n ≤ h.isizeMax) (junk : Nat → UInt8) :
    Matches h (devReaderD h D junk grow) (devReader D junk grow) fun s => s.buf.Sane h where
  read n _ hs := devReadD_ok hh hD hg hi n hs
  peek _ _ hn hs := devPeekD_ok hh hD hg hi hn hs
  skip n _ hs := devSkipD_ok hh hD hg hi (n + 1) n hs
  canRead _ _ _ := rfl
  borrow _ _ hs := ⟨rfl, hs⟩
  borrowR _ _ hs := ⟨rfl, hs⟩
  borrowEof _ hs := ⟨rfl, hs⟩

/-- The state of a reader of the given buffer. -/
structure BufSt.At (h : Host) (base : Nat) (buf : Bytes) (s : BufSt) : Prop extends s.Inv h where
  base_eq : s.base = base
  buf_eq : s.buf = buf

section
variable {h : Host} {base : Nat} {buf : Bytes}

theorem BufSt.At.init (hb : base + buf.length ≤ h.usizeMax) : (BufSt.init base buf).At h base buf := ⟨BufSt.init_inv hb, rfl, rfl⟩

theorem BufSt.At.advance {s : BufSt} (hs : s.At h base buf) {n : Nat} (hn : n ≤ s.pend.length) {tr : List (Nat × Nat)}
    (htr : tr = s.trace ∨ tr = (s.ptr, n) :: s.trace) : ({ s with ptr := s.ptr + n, trace := tr } : BufSt).At h base buf :=
  ⟨(BufSt.advance_inv hs.toInv hn htr).1, hs.base_eq, hs.buf_eq⟩

theorem BufSt.At.looked {s : BufSt} (hs : s.At h base buf) {n : Nat} (hn : n ≤ s.pend.length) :
    ({ s with trace := (s.ptr, n) :: s.trace } : BufSt).At h base buf := by
  refine ⟨⟨hs.lo, hs.hi, hs.stop_eq, hs.fits, ?_⟩, hs.base_eq, hs.buf_eq⟩
  exact (BufSt.advance_inv hs.toInv hn (.inr rfl)).1.trace_ok

theorem inOrder_ok {α : Type} {s : BufSt} (hs : s.Inv h) (op : BufSt → Except Err α × BufSt) : inOrder op s = op s := by
  unfold inOrder
  rw [subD_ok hs.hi]

theorem inOrderOpt_ok {α : Type} {s : BufSt} (hs : s.Inv h) (op : BufSt → Option (Except Err α) × BufSt) : inOrderOpt op s = op s := by
  unfold inOrderOpt
  rw [subD_ok hs.hi]

theorem bufCanRead_cases {s : BufSt} (hs : s.Inv h) (n : Nat) :
    bufCanRead h n s = some false ∨ bufCanRead h n s = some true ∧ n ≤ s.pend.length := by
  rw [bufCanRead_eq hs]
  by_cases hn : n ≤ s.pend.length
  · exact .inr ⟨by simp [hn], hn⟩
  · exact .inl (by simp [hn])

theorem bufRead_at {s : BufSt} (hs : s.At h base buf) (n : Nat) :
    (bufRead h n s).2.At h base buf ∧ ∀ bs, (bufRead h n s).1 = .ok bs → bs.length = n := by
  unfold bufRead
  rcases bufCanRead_cases hs.toInv n with hc | ⟨hc, hn⟩ <;> rw [hc]
  · exact ⟨hs, fun bs hb => by cases hb⟩
  · refine ⟨hs.advance hn (.inr rfl), fun bs hb => ?_⟩
    cases hb
    rw [BufSt.load_eq, List.length_take]
    omega

theorem bufPeek_at {s : BufSt} (hs : s.At h base buf) (n : Nat) :
    (bufPeek h n s).2.At h base buf ∧ ∀ bs, (bufPeek h n s).1 = .ok bs → bs.length = n := by
  unfold bufPeek
  rcases bufCanRead_cases hs.toInv n with hc | ⟨hc, hn⟩ <;> rw [hc]
  · exact ⟨hs, fun bs hb => by cases hb⟩
  · refine ⟨hs.looked hn, fun bs hb => ?_⟩
    cases hb
    rw [BufSt.load_eq, List.length_take]
    omega

theorem bufSkip_at {s : BufSt} (hs : s.At h base buf) (n : Nat) : (bufSkip h n s).2.At h base buf := by
  unfold bufSkip
  rcases bufCanRead_cases hs.toInv n with hc | ⟨hc, hn⟩ <;> rw [hc]
  · exact hs
  · exact hs.advance hn (.inl rfl)

theorem bufBorrow_at {s : BufSt} (hs : s.At h base buf) (n : Nat) : (bufBorrow h n s).2.At h base buf := by
  unfold bufBorrow
  rcases bufCanRead_cases hs.toInv n with hc | ⟨hc, hn⟩ <;> rw [hc]
  · exact hs
  · exact hs.advance hn (.inr rfl)

theorem bufBorrowEof_at {s : BufSt} (hs : s.At h base buf) : (bufBorrowEof h s).2.At h base buf := by
  unfold bufBorrowEof
  simp only [hs.toInv.wsub]
  exact hs.advance (Nat.le_refl _) (.inr rfl)

theorem bufferReaderD_matches : Matches h (bufferReaderD h) (bufferReader h) (BufSt.At h base buf) where
  read n _ hs := ⟨inOrder_ok hs.toInv _, bufRead_at hs n⟩
  peek n _ _ hs := ⟨inOrder_ok hs.toInv _, bufPeek_at hs n⟩
  skip n _ hs := ⟨inOrder_ok hs.toInv _, bufSkip_at hs n⟩
  canRead _ _ _ := rfl
  borrow n _ hs := ⟨inOrderOpt_ok hs.toInv _, bufBorrow_at hs n⟩
  borrowR n _ hs := ⟨inOrderOpt_ok hs.toInv _, bufBorrow_at hs n⟩
  borrowEof _ hs := ⟨rfl, bufBorrowEof_at hs⟩

theorem copyingReaderD_matches : Matches h (copyingReaderD h) (copyingReader h) (BufSt.At h base buf) where
  read n _ hs := ⟨inOrder_ok hs.toInv _, bufRead_at hs n⟩
  peek n _ _ hs := ⟨inOrder_ok hs.toInv _, bufPeek_at hs n⟩
  skip n _ hs := ⟨inOrder_ok hs.toInv _, bufSkip_at hs n⟩
  canRead _ _ _ := rfl
  borrow _ _ hs := ⟨rfl, hs⟩
  borrowR n _ hs := ⟨inOrderOpt_ok hs.toInv _, bufBorrow_at hs n⟩
  borrowEof _ hs := ⟨rfl, hs⟩

end

end Verif
