import Verif.StrictTy
import Verif.ReadersLawful

/-!
# More input

Two runs of a program are compared: one on some bytes, one on the same bytes with more of them behind. `Waits p`: the first run ends
with an end-of-input error, or the second one gives the same.
-/

namespace Verif

set_option linter.unusedSectionVars false

/-- An end-of-input error. -/
def Short {α : Type} (r : Except Err α) : Prop := ∃ er, r = .error er ∧ er.isEof = true

/-- The second reader has what the first one has and possibly more behind: as long as the first one does not run out of bytes, both
give the same. The bytes lent to `RawCopyIter` may have different addresses. -/
structure Ahead {σ σ' : Type} (R : ReaderOps σ) (R' : ReaderOps σ') (Rel : σ → σ' → Prop) : Prop where
  read : ∀ n s s', Rel s s' → Short (R.read n s).1 ∨
    ∃ bs t t', R.read n s = (.ok bs, t) ∧ R'.read n s' = (.ok bs, t') ∧ Rel t t'
  peek : ∀ n s s', Rel s s' → Short (R.peek n s).1 ∨
    ∃ bs t t', R.peek n s = (.ok bs, t) ∧ R'.peek n s' = (.ok bs, t') ∧ Rel t t'
  skip : ∀ n s s', Rel s s' → Short (R.skip n s).1 ∨
    ∃ t t', R.skip n s = (.ok (), t) ∧ R'.skip n s' = (.ok (), t') ∧ Rel t t'
  canRead : ∀ n s s', Rel s s' → R.canRead n s = some false ∨ R.canRead n s = R'.canRead n s'
  borrow : ∀ n s s', Rel s s' → (∃ er t, R.borrow n s = (some (.error er), t) ∧ er.isEof = true) ∨
    (∃ t t', R.borrow n s = (none, t) ∧ R'.borrow n s' = (none, t') ∧ Rel t t') ∨
    ∃ r t t', R.borrow n s = (some (.ok r), t) ∧ R'.borrow n s' = (some (.ok r), t') ∧ Rel t t'
  borrowR : ∀ n s s', Rel s s' → (∃ er t, R.borrowR n s = (some (.error er), t) ∧ er.isEof = true) ∨
    (∃ t t', R.borrowR n s = (none, t) ∧ R'.borrowR n s' = (none, t') ∧ Rel t t') ∨
    ∃ a a' bs t t', R.borrowR n s = (some (.ok (a, bs)), t) ∧ R'.borrowR n s' = (some (.ok (a', bs)), t') ∧ Rel t t'

/-- With the first reader the program runs out of bytes, or it gives the same with both. -/
def Waits {σ σ' α : Type} (R : ReaderOps σ) (R' : ReaderOps σ') (Rel : σ → σ' → Prop) (p : M α) : Prop :=
  ∀ s s', Rel s s' → Short (p.run R s).1 ∨ ((p.run R s).1 = (p.run R' s').1 ∧ Rel (p.run R s).2 (p.run R' s').2)

section
variable {σ σ' α β : Type} {R : ReaderOps σ} {R' : ReaderOps σ'} {Rel : σ → σ' → Prop}

theorem waits_ret (r : Except Err α) : Waits R R' Rel (.ret r) := fun _ _ hs => .inr ⟨rfl, hs⟩

theorem waits_pure (a : α) : Waits R R' Rel (M.pure a) := waits_ret _

theorem waits_fail (er : Err) : Waits R R' Rel (M.fail er : M α) := waits_ret _

theorem waits_bind {p : M α} {f : α → M β} (hp : Waits R R' Rel p) (hf : ∀ a, Waits R R' Rel (f a)) : Waits R R' Rel (M.bind p f) := by
  intro s s' hs
  unfold M.bind
  rw [Prog.run_bind, Prog.run_bind]
  rcases hp s s' hs with ⟨er, h1, h2⟩ | ⟨h1, h2⟩
  · rw [h1]
    exact .inl ⟨er, rfl, h2⟩
  · rw [← h1]
    rcases (p.run R s).1 with er | a
    · exact .inr ⟨rfl, h2⟩
    · exact hf a _ _ h2

theorem waits_map {p : M α} (f : α → β) (hp : Waits R R' Rel p) : Waits R R' Rel (M.map f p) :=
  waits_bind hp fun _ => waits_pure _

theorem waits_ite {c : Prop} [Decidable c] {p q : M α} (hp : Waits R R' Rel p) (hq : Waits R R' Rel q) :
    Waits R R' Rel (if c then p else q) := by split <;> assumption

theorem waits_alloc {n m : Nat} {k : M α} (hk : Waits R R' Rel k) : Waits R R' Rel (.alloc n m k) := hk

theorem waits_repeatM {p : M α} (hp : Waits R R' Rel p) : ∀ n, Waits R R' Rel (repeatM n p)
  | 0 => waits_pure _
  | n + 1 => waits_bind hp fun _ => waits_bind (waits_repeatM hp n) fun _ => waits_pure _

variable (A : Ahead R R' Rel)
include A

theorem waits_read {n : Nat} {k : Except Err Bytes → M α} (he : ∀ er, k (.error er) = M.fail er)
    (hk : ∀ bs, Waits R R' Rel (k (.ok bs))) : Waits R R' Rel (.read n k) := by
  intro s s' hs
  rcases A.read n s s' hs with ⟨er, h1, h2⟩ | ⟨bs, t, t', h1, h2, h3⟩
  · simp only [Prog.run, h1, he]
    exact .inl ⟨er, rfl, h2⟩
  · simp only [Prog.run, h1, h2]
    exact hk bs _ _ h3

theorem waits_peek {n : Nat} {k : Except Err Bytes → M α} (he : ∀ er, k (.error er) = M.fail er)
    (hk : ∀ bs, Waits R R' Rel (k (.ok bs))) : Waits R R' Rel (.peek n k) := by
  intro s s' hs
  rcases A.peek n s s' hs with ⟨er, h1, h2⟩ | ⟨bs, t, t', h1, h2, h3⟩
  · simp only [Prog.run, h1, he]
    exact .inl ⟨er, rfl, h2⟩
  · simp only [Prog.run, h1, h2]
    exact hk bs _ _ h3

/-- The check before reading. -/
theorem waits_canRead {n : Nat} {p : M α} (hp : Waits R R' Rel p) :
    Waits R R' Rel (.canRead n fun r => if r = some false then M.fail .unexpectedEndOfInput else p) := by
  intro s s' hs
  simp only [Prog.run]
  rcases A.canRead n s s' hs with h1 | h1
  · rw [if_pos h1]
    exact .inl ⟨_, rfl, rfl⟩
  · rw [← h1]
    exact waits_ite (waits_fail _) hp s s' hs

theorem waits_borrow {n : Nat} {k : Option (Except Err (Nat × Bytes)) → M α} (he : ∀ er, k (some (.error er)) = M.fail er)
    (h0 : Waits R R' Rel (k none)) (hk : ∀ r, Waits R R' Rel (k (some (.ok r)))) : Waits R R' Rel (.borrow n k) := by
  intro s s' hs
  rcases A.borrow n s s' hs with ⟨er, t, h1, h2⟩ | ⟨t, t', h1, h2, h3⟩ | ⟨r, t, t', h1, h2, h3⟩
  · simp only [Prog.run, h1, he]
    exact .inl ⟨er, rfl, h2⟩
  · simp only [Prog.run, h1, h2]
    exact h0 _ _ h3
  · simp only [Prog.run, h1, h2]
    exact hk r _ _ h3

theorem waits_borrowR {n : Nat} {k : Option (Except Err (Nat × Bytes)) → M α} (he : ∀ er, k (some (.error er)) = M.fail er)
    (h0 : Waits R R' Rel (k none)) (hk : ∀ r, Waits R R' Rel (k (some (.ok r))))
    (ha : ∀ a a' bs, k (some (.ok (a, bs))) = k (some (.ok (a', bs)))) : Waits R R' Rel (.borrowR n k) := by
  intro s s' hs
  rcases A.borrowR n s s' hs with ⟨er, t, h1, h2⟩ | ⟨t, t', h1, h2, h3⟩ | ⟨a, a', bs, t, t', h1, h2, h3⟩
  · simp only [Prog.run, h1, he]
    exact .inl ⟨er, rfl, h2⟩
  · simp only [Prog.run, h1, h2]
    exact h0 _ _ h3
  · simp only [Prog.run, h1, h2]
    rw [ha a a']
    exact hk _ _ _ h3

theorem waits_readNum (h : Host) (e : Endian) (n : Nat) : Waits R R' Rel (readNum h e n) :=
  waits_canRead A (waits_read A (fun _ => rfl) fun _ => waits_ret _)

theorem waits_peekNum (h : Host) (e : Endian) (n : Nat) : Waits R R' Rel (peekNum h e n) :=
  waits_canRead A (waits_peek A (fun _ => rfl) fun _ => waits_ret _)

theorem waits_readBytes (n : Nat) : Waits R R' Rel (readBytes n) := waits_read A (fun _ => rfl) fun _ => waits_ret _

theorem waits_peekBytes (n : Nat) : Waits R R' Rel (peekBytes n) := waits_peek A (fun _ => rfl) fun _ => waits_ret _

theorem waits_readVarint (h : Host) (e : Endian) : Waits R R' Rel (readVarint h e) :=
  waits_bind (waits_readNum A h e 1) fun _ => waits_bind (waits_readBytes A _) fun _ => waits_ret _

theorem waits_peekVarint (h : Host) (e : Endian) : Waits R R' Rel (peekVarint h e) :=
  waits_bind (waits_peekNum A h e 1) fun _ => waits_bind (waits_peekBytes A _) fun _ => waits_ret _

theorem waits_readLen (h : Host) (e : Endian) (lt : LenTy) : Waits R R' Rel (readLen h e lt) := by
  cases lt <;> unfold readLen
  · exact waits_bind (waits_readNum A h e _) fun _ => waits_ite (waits_fail _) (waits_pure _)
  · exact waits_readNum A h e _
  · exact waits_readNum A h e _
  · exact waits_readNum A h e _
  · exact waits_bind (waits_readNum A h e _) fun _ => waits_ite (waits_fail _) (waits_pure _)
  · exact waits_bind (waits_readVarint A h e) fun _ => waits_ite (waits_fail _) (waits_pure _)

omit A in
theorem waits_liftVals (el : Elem) (r : Except Panic (List Bytes)) : Waits R R' Rel (liftVals el r) := by
  cases r <;> exact waits_ret _

theorem waits_readVec (h : Host) (e : Endian) {el : Elem} (hel : Waits R R' Rel el.read) (n : Nat) :
    Waits R R' Rel (readVec h e el n) := by
  unfold readVec
  exact waits_ite (waits_fail _) (waits_canRead A (waits_ite (waits_fail _) (waits_alloc (waits_ite
    (waits_bind (waits_readBytes A _) fun _ => waits_liftVals _ _) (waits_ite (waits_pure _) (waits_repeatM hel _))))))

theorem waits_readCow (h : Host) (e : Endian) {el : Elem} (hel : Waits R R' Rel el.read) (n : Nat) :
    Waits R R' Rel (readCow h e el n) := by
  have hv := waits_map CowVal.owned (waits_readVec A h e hel n)
  unfold readCow
  exact waits_ite (waits_borrow A (fun _ => rfl) hv fun _ => waits_ite (waits_fail _) (waits_ite
    (waits_ite (waits_fail _) (waits_pure _)) (waits_ite (waits_fail _) (waits_alloc (waits_pure _))))) hv

theorem waits_readCollection (h : Host) (e : Endian) {el : Elem} (hel : Waits R R' Rel el.read) (n : Nat) :
    Waits R R' Rel (readCollection h e el n) := by
  unfold readCollection
  exact waits_ite (waits_ite (waits_fail _) (waits_borrowR A (fun _ => rfl) (waits_repeatM hel n)
    (fun _ => waits_ite (waits_fail _) (waits_pure _)) fun _ _ _ => rfl)) (waits_repeatM hel n)

omit A in
theorem waits_readPair {ek ev : Elem} (hk : Waits R R' Rel ek.read) (hv : Waits R R' Rel ev.read) :
    Waits R R' Rel (readPair ek ev) := waits_bind hk fun _ => waits_bind hv fun _ => waits_pure _

theorem waits_readKV (h : Host) (e : Endian) {ek ev : Elem} (hk : Waits R R' Rel ek.read) (hv : Waits R R' Rel ev.read)
    (n : Nat) : Waits R R' Rel (readKV h e ek ev n) := by
  have hp := waits_repeatM (waits_readPair hk hv) n
  unfold readKV
  exact waits_ite (waits_ite (waits_fail _) (waits_borrowR A (fun _ => rfl) hp
    (fun _ => waits_ite (waits_fail _) (waits_pure _)) fun _ _ _ => rfl)) hp

theorem waits_u8Elem (T : Target) (e : Endian) : Waits R R' Rel (u8Elem T e).read := waits_map _ (waits_readNum A _ _ _)

theorem waits_readConstant (T : Target) (e : Endian) (c : Bytes) : Waits R R' Rel (readConstant T.toHost e (u8Elem T e) c) :=
  waits_borrow A (fun _ => rfl) (waits_bind (waits_readVec A _ _ (waits_u8Elem A T e) _) fun _ => waits_ite (waits_pure _) (waits_fail _))
    fun _ => waits_ite (waits_pure _) (waits_fail _)

theorem waits_borrowBytes (n : Nat) : Waits R R' Rel (borrowBytes n) :=
  waits_borrow A (fun _ => rfl) (waits_fail _) fun _ => waits_pure _

theorem waits_readRefSlice (h : Host) (el : Elem) (n : Nat) : Waits R R' Rel (readRefSlice h el n) :=
  waits_ite (waits_fail _) (waits_bind (waits_borrowBytes A _) fun _ => waits_pure _)

omit A in
theorem waits_convert (c : Conv) (v : Val) : Waits R R' Rel (convert c v) := by
  unfold convert
  cases c.apply v with
  | ok w => exact waits_pure _
  | error er => exact waits_fail _

omit A in
theorem waits_asStr (bs : Bytes) : Waits R R' Rel (asStr bs) := waits_ite (waits_pure _) (waits_fail _)

theorem waits_readStr (T : Target) (e : Endian) (k : StrKind) (n : Nat) : Waits R R' Rel (readStr T e k (some n)) := by
  cases k
  · exact waits_bind (waits_readVec A _ _ (waits_u8Elem A T e) _) fun _ => waits_asStr _
  · exact waits_bind (waits_readCow A _ _ (waits_u8Elem A T e) _) fun _ => waits_asStr _
  · exact waits_bind (waits_borrowBytes A _) fun _ => waits_asStr _

theorem waits_readSeq (T : Target) (e : Endian) (k : SeqKind) {el : Elem} (hel : Waits R R' Rel el.read) (n : Nat) :
    Waits R R' Rel (readSeq T e k el (some n)) := by
  cases k
  · exact waits_map _ (waits_readVec A _ _ hel _)
  · exact waits_map _ (waits_readCow A _ _ hel _)
  · exact waits_map _ (waits_readRefSlice A _ _ _)

theorem waits_readArray (T : Target) (e : Endian) (inl : Bool) {el : Elem} (hel : Waits R R' Rel el.read) (n : Nat) :
    Waits R R' Rel (readArray T e inl el n) :=
  waits_ite (waits_bind (waits_readBytes A _) fun _ => waits_map _ (waits_liftVals _ _)) (waits_map _ (waits_repeatM hel n))

theorem waits_readBool (h : Host) (e : Endian) : Waits R R' Rel (readBool h e) := waits_map _ (waits_readNum A _ _ _)

theorem waits_readIpv6 (h : Host) (e : Endian) : Waits R R' Rel (readIpv6 h e) := waits_map _ (waits_readBytes A _)

theorem waits_readDuration (h : Host) (e : Endian) : Waits R R' Rel (readDuration h e) :=
  waits_bind (waits_readNum A _ _ _) fun _ => waits_bind (waits_readNum A _ _ _) fun _ => waits_ite (waits_pure _) (waits_fail _)

/-- A length and what follows. -/
theorem waits_lenBind (h : Host) (e : Endian) {l : LenR} (hl : l.strict = true) {f : Option Nat → M α}
    (hf : ∀ n, Waits R R' Rel (f (some n))) : Waits R R' Rel (M.bind (readLenR h e l) f) := by
  cases l with
  | typed lt d =>
    cases d with
    | true => cases hl
    | false =>
      intro s s' hs
      have key : ∀ {τ : Type} (Q : ReaderOps τ) (u : τ), (M.bind (readLenR h e (.typed lt false)) f).run Q u =
          (M.bind (readLen h e lt) fun n => f (some n)).run Q u := by
        intro τ Q u
        show (M.bind (M.map some (readLen h e lt)) f).run Q u = _
        unfold M.map M.bind
        rw [Prog.run_bind, Prog.run_bind, Prog.run_bind]
        rcases ((readLen h e lt).run Q u).1 with er | n <;> rfl
      rw [key, key]
      exact waits_bind (waits_readLen A h e lt) hf s s' hs
  | fixed n => exact hf n
  | untilEof => cases hl

theorem waits_readTag (h : Host) (e : Endian) (d : EnumDesc) : Waits R R' Rel (readTag h e d) := by
  obtain ⟨lt, p⟩ := d
  cases p <;> cases lt
  case false.varint => exact waits_readVarint A h e
  case true.varint => exact waits_peekVarint A h e
  case false.u7 | false.u8 | false.u16 | false.u32 | false.u64 => exact waits_readNum A h e _
  all_goals exact waits_peekNum A h e _

variable {T : Target} {e : Endian}

mutual
/-- Types without `default_on_eof` and `length = ..` are read by programs which wait. -/
theorem decode_waits : ∀ (t : Ty) (cx : Cx), ends false true t = true → cx.len.strict = true →
    Waits R R' Rel (decode T e t cx)
  | .prim p, _, _, _ => by unfold decode; exact waits_map _ (waits_readNum A _ _ _)
  | .usize, _, _, _ => by unfold decode; exact waits_bind (waits_readNum A _ _ _) fun _ => waits_ite (waits_fail _) (waits_pure _)
  | .bool, _, _, _ => by unfold decode; exact waits_map _ (waits_readBool A _ _)
  | .char, _, _, _ => by unfold decode; exact waits_bind (waits_readNum A _ _ _) fun _ => waits_ite (waits_pure _) (waits_fail _)
  | .nonZero p, _, _, _ => by
    unfold decode; exact waits_bind (waits_readNum A _ _ _) fun _ => waits_ite (waits_fail _) (waits_pure _)
  | .atomic p, _, _, _ => by unfold decode; exact waits_map _ (waits_readNum A _ _ _)
  | .ipv4, _, _, _ => by unfold decode; exact waits_map _ (waits_readNum A _ _ _)
  | .ipv6, _, _, _ => by unfold decode; exact waits_readIpv6 A _ _
  | .ipAddr, _, _, _ => by
    unfold decode
    exact waits_bind (waits_readNum A _ _ _) fun _ => waits_ite (waits_map _ (waits_readNum A _ _ _))
      (waits_ite (waits_map _ (waits_readIpv6 A _ _)) (waits_fail _))
  | .duration, _, _, _ => by unfold decode; exact waits_map _ (waits_readDuration A _ _)
  | .systemTime, _, _, _ => by
    unfold decode; exact waits_bind (waits_readDuration A _ _) fun _ => waits_ite (waits_pure _) (waits_fail _)
  | .endianness, _, _, _ => by
    unfold decode
    exact waits_bind (waits_readNum A _ _ _) fun _ => waits_ite (waits_pure _) (waits_ite (waits_pure _) (waits_fail _))
  | .varint64, _, _, _ => by unfold decode; exact waits_map _ (waits_readVarint A _ _)
  | .uuid, _, _, _ => by unfold decode; exact waits_map _ (waits_readBytes A _)
  | .str k, cx, _, hl => by unfold decode; exact waits_lenBind A _ _ hl fun n => waits_readStr A _ _ _ _
  | .seq k t, cx, he, hl => by
    simp only [ends] at he
    have := decode_waits t Cx.std he rfl
    unfold decode
    exact waits_ite (waits_fail _) (waits_lenBind A _ _ hl fun n => waits_readSeq A _ _ _ this _)
  | .set t, cx, he, hl => by
    simp only [ends] at he
    have := decode_waits t Cx.std he rfl
    unfold decode
    exact waits_lenBind A _ _ hl fun n => waits_map _ (waits_readCollection A _ _ (el := elemOf T t _) this _)
  | .map k v, cx, he, hl => by
    simp only [ends, Bool.and_eq_true] at he
    have hk := decode_waits k Cx.std he.1 rfl
    have hv := decode_waits v Cx.std he.2 rfl
    unfold decode
    exact waits_lenBind A _ _ hl fun n => waits_map _ (waits_readKV A _ _ (ek := elemOf T k _) (ev := elemOf T v _) hk hv _)
  | .array n t, cx, he, _ => by
    simp only [ends] at he
    have := decode_waits t Cx.std he rfl
    unfold decode
    exact waits_readArray A _ _ _ (el := elemOf T t _) this _
  | .refArray n t, _, _, _ => by unfold decode; exact waits_ite (waits_fail _) (waits_map _ (waits_borrowBytes A _))
  | .option t, cx, he, hl => by
    simp only [ends] at he
    have := decode_waits t (cx.opt t) he (Cx.strict_opt hl t)
    unfold decode
    exact waits_bind (waits_readBool A _ _) fun _ => waits_ite (waits_map _ this) (waits_pure _)
  | .result t er, _, he, _ => by
    simp only [ends, Bool.and_eq_true] at he
    have h1 := decode_waits t Cx.std he.1 rfl
    have h2 := decode_waits er Cx.std he.2 rfl
    unfold decode
    exact waits_bind (waits_readBool A _ _) fun _ => waits_ite (waits_map _ h1) (waits_map _ h2)
  | .range t, _, he, _ => by
    simp only [ends] at he
    have := decode_waits t Cx.std he rfl
    unfold decode
    exact waits_bind this fun _ => waits_bind this fun _ => waits_pure _
  | .rangeInc t, _, he, _ => by
    simp only [ends] at he
    have := decode_waits t Cx.std he rfl
    unfold decode
    exact waits_bind this fun _ => waits_bind this fun _ => waits_pure _
  | .unit, _, _, _ => by unfold decode; exact waits_pure _
  | .pair a b, _, he, _ => by
    simp only [ends, Bool.false_and, Bool.and_eq_true] at he
    have h1 := decode_waits a Cx.std he.1 rfl
    have h2 := decode_waits b Cx.std he.2 rfl
    unfold decode
    exact waits_bind h1 fun _ => waits_bind h2 fun _ => waits_pure _
  | .box t, _, he, _ => by
    simp only [ends] at he
    unfold decode
    exact decode_waits t Cx.std he rfl
  | .via c t, _, he, _ => by
    simp only [ends] at he
    unfold decode
    exact waits_bind (decode_waits t Cx.std he rfl) fun _ => waits_convert _ _
  | .struct _ fs, _, he, _ => by
    simp only [ends] at he
    unfold decode
    exact decodeFields_waits fs [] he
  | .enum d vs, _, he, _ => by
    simp only [ends] at he
    unfold decode
    exact waits_bind (waits_readTag A _ _ _) fun _ => decodeVariants_waits vs _ _ he
/-- Fields. -/
theorem decodeFields_waits : ∀ (fs : Fields) (prev : List Val), endsFields false true fs = true →
    Waits R R' Rel (decodeFields T e fs prev)
  | .nil, _, _ => by unfold decodeFields; exact waits_pure _
  | .cons a t fs, prev, he => by
    simp only [endsFields, Bool.false_and, Bool.and_eq_true, Bool.or_eq_true] at he
    have hfs : ∀ prev, Waits R R' Rel (decodeFields T e fs prev) := fun prev => decodeFields_waits fs prev he.2
    unfold decodeFields
    by_cases hs : a.skip = true
    · rw [if_pos hs]
      exact waits_map _ (hfs _)
    · rw [if_neg hs]
      rcases he.1 with h | ⟨ha, ht⟩
      · exact absurd h hs
      · have hd : a.defaultOnEof = false := by
          simp only [Attrs.ends, Bool.true_and, Bool.and_eq_true, Bool.not_eq_true'] at ha
          exact ha.1
        have hb : Waits R R' Rel (decode T e t (a.cx T.toHost prev)) := decode_waits t _ ht (Attrs.strict_len _ _ ha)
        simp only [hd, Bool.false_eq_true, if_false]
        refine waits_bind ?_ fun v => waits_map _ (hfs _)
        have hbody : Waits R R' Rel (if a.varint = true then M.map .num (readVarint T.toHost e)
            else decode T e t (a.cx T.toHost prev)) := waits_ite (waits_map _ (waits_readVarint A _ _)) hb
        exact waits_ite hbody (waits_bind (waits_readConstant A _ _ _) fun _ => hbody)
/-- Variants. -/
theorem decodeVariants_waits : ∀ (vs : Variants) (tag i : Nat), endsVariants false true vs = true →
    Waits R R' Rel (decodeVariants T e vs tag i)
  | .nil, _, _, _ => by unfold decodeVariants; exact waits_fail _
  | .cons tag' fs vs, tag, i, he => by
    simp only [endsVariants, Bool.and_eq_true] at he
    unfold decodeVariants
    exact waits_ite (waits_map _ (decodeFields_waits fs [] he.1)) (decodeVariants_waits vs tag _ he.2)
end

end

/-! ## The readers -/

/-- Two buffers at any addresses, the second one longer. -/
structure LongerAt (h : Host) (y : Bytes) (b b' : Nat) (s s' : BufSt) : Prop where
  left : s.Inv h
  right : s'.Inv h
  base : s.base = b
  base' : s'.base = b'
  ptr : s.ptr - b = s'.ptr - b'
  more : s'.pend = s.pend ++ y

theorem take_more {n : Nat} {a y : Bytes} (h : n ≤ a.length) : (a ++ y).take n = a.take n := by
  rw [List.take_append_of_le_length h]

theorem drop_more {n : Nat} {a y : Bytes} (h : n ≤ a.length) : (a ++ y).drop n = a.drop n ++ y := by
  rw [List.drop_append_of_le_length h]

section
variable {h : Host} {y : Bytes}

theorem bufRead_to {s : BufSt} (hs : s.Inv h) {n : Nat} (hn : n ≤ s.pend.length) :
    ∃ t, bufRead h n s = (.ok (s.pend.take n), t) ∧ t.Inv h ∧ t.pend = s.pend.drop n ∧ t.base = s.base ∧ t.ptr = s.ptr + n := by
  unfold bufRead
  rw [bufCanRead_eq hs]
  simp only [hn, decide_true, reduceCtorEq, if_false, Option.some.injEq]
  have := BufSt.advance_inv hs hn (Or.inr rfl)
  exact ⟨_, rfl, this.1, this.2, rfl, rfl⟩

theorem bufBorrow_to {s : BufSt} (hs : s.Inv h) {n : Nat} (hn : n ≤ s.pend.length) :
    ∃ t, bufBorrow h n s = (some (.ok (s.ptr, s.pend.take n)), t) ∧ t.Inv h ∧ t.pend = s.pend.drop n ∧ t.base = s.base ∧
      t.ptr = s.ptr + n := by
  unfold bufBorrow
  rw [bufCanRead_eq hs]
  simp only [hn, decide_true, reduceCtorEq, if_false, Option.some.injEq]
  have := BufSt.advance_inv hs hn (Or.inr rfl)
  exact ⟨_, rfl, this.1, this.2, rfl, rfl⟩

theorem bufSkip_to {s : BufSt} (hs : s.Inv h) {n : Nat} (hn : n ≤ s.pend.length) :
    ∃ t, bufSkip h n s = (.ok (), t) ∧ t.Inv h ∧ t.pend = s.pend.drop n ∧ t.base = s.base ∧ t.ptr = s.ptr + n := by
  unfold bufSkip
  rw [bufCanRead_eq hs]
  simp only [hn, decide_true, reduceCtorEq, if_false, Option.some.injEq]
  have := BufSt.advance_inv hs hn (Or.inl rfl)
  exact ⟨_, rfl, this.1, this.2, rfl, rfl⟩

theorem bufPeek_to {s : BufSt} (hs : s.Inv h) {n : Nat} (hn : n ≤ s.pend.length) :
    ∃ t, bufPeek h n s = (.ok (s.pend.take n), t) ∧ t.Inv h ∧ t.pend = s.pend ∧ t.base = s.base ∧ t.ptr = s.ptr := by
  unfold bufPeek
  rw [bufCanRead_eq hs]
  simp only [hn, decide_true, reduceCtorEq, if_false, Option.some.injEq]
  exact ⟨_, rfl, BufSt.touch_inv hs hn, rfl, rfl, rfl⟩

theorem bufPeek_err {s : BufSt} (hs : s.Inv h) {n : Nat} (hn : ¬ n ≤ s.pend.length) :
    bufPeek h n s = (.error .unexpectedEndOfInput, s) := by
  unfold bufPeek
  rw [bufCanRead_eq hs]
  simp [hn]

theorem bufSkip_err {s : BufSt} (hs : s.Inv h) {n : Nat} (hn : ¬ n ≤ s.pend.length) :
    bufSkip h n s = (.error .unexpectedEndOfInput, s) := by
  unfold bufSkip
  rw [bufCanRead_eq hs]
  simp [hn]

theorem bufBorrow_err {s : BufSt} (hs : s.Inv h) {n : Nat} (hn : ¬ n ≤ s.pend.length) :
    bufBorrow h n s = (some (.error .unexpectedEndOfInput), s) := by
  unfold bufBorrow
  rw [bufCanRead_eq hs]
  simp [hn]

variable {b b' : Nat}

theorem LongerAt.step {s s' t t' : BufSt} {n : Nat} (hs : LongerAt h y b b' s s') (hn : n ≤ s.pend.length) (h1 : t.Inv h)
    (h2 : t.pend = s.pend.drop n) (h3 : t.base = s.base) (h4 : t.ptr = s.ptr + n) (h1' : t'.Inv h) (h2' : t'.pend = s'.pend.drop n)
    (h3' : t'.base = s'.base) (h4' : t'.ptr = s'.ptr + n) : LongerAt h y b b' t t' := by
  refine ⟨h1, h1', h3.trans hs.base, h3'.trans hs.base', ?_, by rw [h2', hs.more, drop_more hn, h2]⟩
  have := hs.ptr
  have := hs.left.lo
  have := hs.right.lo
  have := hs.base
  have := hs.base'
  omega

theorem LongerAt.le {s s' : BufSt} {n : Nat} (hs : LongerAt h y b b' s s') (hn : n ≤ s.pend.length) : n ≤ s'.pend.length := by
  rw [hs.more, List.length_append]
  omega

theorem LongerAt.take {s s' : BufSt} {n : Nat} (hs : LongerAt h y b b' s s') (hn : n ≤ s.pend.length) :
    s'.pend.take n = s.pend.take n := by rw [hs.more, take_more hn]

theorem LongerAt.init {x : Bytes} (h1 : b + (x ++ y).length ≤ h.usizeMax) (h2 : b' + (x ++ y).length ≤ h.usizeMax) :
    LongerAt h y b b' (BufSt.init b x) (BufSt.init b' (x ++ y)) :=
  ⟨BufSt.init_inv (by rw [List.length_append] at h1; omega), BufSt.init_inv h2, rfl, rfl, by simp [BufSt.init], by
    rw [BufSt.init_pend, BufSt.init_pend]⟩

theorem longer_read (n : Nat) (s s' : BufSt) (hs : LongerAt h y b b' s s') : Short (bufRead h n s).1 ∨
    ∃ bs t t', bufRead h n s = (.ok bs, t) ∧ bufRead h n s' = (.ok bs, t') ∧ LongerAt h y b b' t t' := by
  by_cases hn : n ≤ s.pend.length
  · obtain ⟨t, h1, h2, h3, h4, h5⟩ := bufRead_to hs.left hn
    obtain ⟨t', h1', h2', h3', h4', h5'⟩ := bufRead_to hs.right (hs.le hn)
    exact .inr ⟨_, t, t', h1, by rw [h1', hs.take hn], hs.step hn h2 h3 h4 h5 h2' h3' h4' h5'⟩
  · rw [bufRead_err hs.left (by omega)]
    exact .inl ⟨_, rfl, rfl⟩

theorem longer_peek (n : Nat) (s s' : BufSt) (hs : LongerAt h y b b' s s') : Short (bufPeek h n s).1 ∨
    ∃ bs t t', bufPeek h n s = (.ok bs, t) ∧ bufPeek h n s' = (.ok bs, t') ∧ LongerAt h y b b' t t' := by
  by_cases hn : n ≤ s.pend.length
  · obtain ⟨t, h1, h2, h3, h4, h5⟩ := bufPeek_to hs.left hn
    obtain ⟨t', h1', h2', h3', h4', h5'⟩ := bufPeek_to hs.right (hs.le hn)
    exact .inr ⟨_, t, t', h1, by rw [h1', hs.take hn], h2, h2', h4.trans hs.base, h4'.trans hs.base', by rw [h5, h5']; exact hs.ptr,
      by rw [h3, h3']; exact hs.more⟩
  · rw [bufPeek_err hs.left hn]
    exact .inl ⟨_, rfl, rfl⟩

theorem longer_skip (n : Nat) (s s' : BufSt) (hs : LongerAt h y b b' s s') : Short (bufSkip h n s).1 ∨
    ∃ t t', bufSkip h n s = (.ok (), t) ∧ bufSkip h n s' = (.ok (), t') ∧ LongerAt h y b b' t t' := by
  by_cases hn : n ≤ s.pend.length
  · obtain ⟨t, h1, h2, h3, h4, h5⟩ := bufSkip_to hs.left hn
    obtain ⟨t', h1', h2', h3', h4', h5'⟩ := bufSkip_to hs.right (hs.le hn)
    exact .inr ⟨t, t', h1, h1', hs.step hn h2 h3 h4 h5 h2' h3' h4' h5'⟩
  · rw [bufSkip_err hs.left hn]
    exact .inl ⟨_, rfl, rfl⟩

theorem longer_canRead (n : Nat) (s s' : BufSt) (hs : LongerAt h y b b' s s') :
    bufCanRead h n s = some false ∨ bufCanRead h n s = bufCanRead h n s' := by
  rw [bufCanRead_eq hs.left, bufCanRead_eq hs.right]
  by_cases hn : n ≤ s.pend.length
  · exact .inr (by simp [hn, hs.le hn])
  · exact .inl (by simp [hn])

theorem longer_borrow (n : Nat) (s s' : BufSt) (hs : LongerAt h y b b' s s') :
    (∃ er t, bufBorrow h n s = (some (.error er), t) ∧ er.isEof = true) ∨
    ∃ bs t t', bufBorrow h n s = (some (.ok (s.ptr, bs)), t) ∧ bufBorrow h n s' = (some (.ok (s'.ptr, bs)), t') ∧
      LongerAt h y b b' t t' := by
  by_cases hn : n ≤ s.pend.length
  · obtain ⟨t, h1, h2, h3, h4, h5⟩ := bufBorrow_to hs.left hn
    obtain ⟨t', h1', h2', h3', h4', h5'⟩ := bufBorrow_to hs.right (hs.le hn)
    exact .inr ⟨_, t, t', h1, by rw [h1', hs.take hn], hs.step hn h2 h3 h4 h5 h2' h3' h4' h5'⟩
  · exact .inl ⟨_, _, bufBorrow_err hs.left hn, rfl⟩

/-- `BufferReader` on a longer buffer at the same address. -/
theorem buffer_ahead : Ahead (bufferReader h) (bufferReader h) (LongerAt h y b b) where
  read := longer_read
  peek := longer_peek
  skip := longer_skip
  canRead := longer_canRead
  borrow n s s' hs := by
    have hp : s.ptr = s'.ptr := by
      have := hs.ptr
      have := hs.left.lo
      have := hs.right.lo
      have := hs.base
      have := hs.base'
      omega
    rcases longer_borrow n s s' hs with h1 | ⟨bs, t, t', h1, h2, h3⟩
    · exact .inl h1
    · exact .inr (.inr ⟨_, t, t', h1, by rw [hp]; exact h2, h3⟩)
  borrowR n s s' hs := by
    rcases longer_borrow n s s' hs with h1 | ⟨bs, t, t', h1, h2, h3⟩
    · exact .inl h1
    · exact .inr (.inr ⟨_, _, bs, t, t', h1, h2, h3⟩)

/-- `CopyingBufferReader` on a longer buffer at any address. -/
theorem copying_ahead : Ahead (copyingReader h) (copyingReader h) (LongerAt h y b b') where
  read := longer_read
  peek := longer_peek
  skip := longer_skip
  canRead := longer_canRead
  borrow n s s' hs := .inr (.inl ⟨s, s', rfl, rfl, hs⟩)
  borrowR n s s' hs := by
    rcases longer_borrow n s s' hs with h1 | ⟨bs, t, t', h1, h2, h3⟩
    · exact .inl h1
    · exact .inr (.inr ⟨_, _, bs, t, t', h1, h2, h3⟩)

/-- Readers which deliver bytes in order, lend nothing and do not know how many bytes are left: streams. -/
theorem lawful_ahead {σ σ' : Type} {R : ReaderOps σ} {R' : ReaderOps σ'} {Inv : σ → Prop} {Inv' : σ' → Prop} {pend : σ → Bytes}
    {pend' : σ' → Bytes} (L : Lawful R Inv pend) (L' : Lawful R' Inv' pend') (hR : Plain R) (hR' : Plain R') :
    Ahead R R' fun s s' => Inv s ∧ Inv' s' ∧ pend' s' = pend s ++ y where
  read n s s' hs := by
    by_cases hn : n ≤ (pend s).length
    · obtain ⟨t, h1, h2, h3⟩ := L.read_ok n s hs.1 hn
      obtain ⟨t', h1', h2', h3'⟩ := L'.read_ok n s' hs.2.1 (by rw [hs.2.2, List.length_append]; omega)
      exact .inr ⟨_, t, t', h1, by rw [h1', hs.2.2, take_more hn], h2, h2', by rw [h3', hs.2.2, drop_more hn, h3]⟩
    · obtain ⟨er, t, h1, h2, _⟩ := L.read_err n s hs.1 (by omega)
      exact .inl ⟨er, by rw [h1], h2⟩
  peek n s s' hs := by
    by_cases hn : n ≤ (pend s).length
    · obtain ⟨t, h1, h2, h3⟩ := L.peek_ok n s hs.1 hn
      obtain ⟨t', h1', h2', h3'⟩ := L'.peek_ok n s' hs.2.1 (by rw [hs.2.2, List.length_append]; omega)
      exact .inr ⟨_, t, t', h1, by rw [h1', hs.2.2, take_more hn], h2, h2', by rw [h3', hs.2.2, h3]⟩
    · obtain ⟨er, t, h1, h2, _⟩ := L.peek_err n s hs.1 (by omega)
      exact .inl ⟨er, by rw [h1], h2⟩
  skip n s s' hs := by
    by_cases hn : n ≤ (pend s).length
    · obtain ⟨t, h1, h2, h3⟩ := L.skip_ok n s hs.1 hn
      obtain ⟨t', h1', h2', h3'⟩ := L'.skip_ok n s' hs.2.1 (by rw [hs.2.2, List.length_append]; omega)
      exact .inr ⟨t, t', h1, h1', h2, h2', by rw [h3', hs.2.2, drop_more hn, h3]⟩
    · obtain ⟨er, t, h1, h2, _⟩ := L.skip_err n s hs.1 (by omega)
      exact .inl ⟨er, by rw [h1], h2⟩
  canRead n s s' _ := .inr (by rw [hR.canRead, hR'.canRead])
  borrow n s s' hs := .inr (.inl ⟨s, s', hR.borrow n s, hR'.borrow n s', hs⟩)
  borrowR n s s' hs := .inr (.inl ⟨s, s', hR.borrowR n s, hR'.borrowR n s', hs⟩)

end

end Verif
