import Verif.Twin
import Verif.PropsAgree

/-!
# Where the input is in memory: C83

The result of reading from a buffer does not depend on the address of the buffer: two runs of `BufferReader` on the same bytes at
different addresses are compared (as `Twin.lean` compares the two kinds of readers). Addresses matter to `read_cow` only, which
borrows or copies according to their alignment.
-/

namespace Verif

open Samples

set_option linter.unusedSectionVars false

/-- Two programs have the same result at two addresses, and leave the same bytes. -/
def Place2 {α : Type} (h : Host) (B : Nat) (p q : Prog α) : Prop :=
  ∀ s s', Beside h B s s' → (p.run (bufferReader h) s).1 = (q.run (bufferReader h) s').1 ∧
    Beside h B (p.run (bufferReader h) s).2 (q.run (bufferReader h) s').2

/-- A program has the same result at two addresses, and leaves the same bytes. -/
abbrev Place {α : Type} (h : Host) (B : Nat) (p : Prog α) : Prop := Place2 h B p p

section
variable {α β : Type} {h : Host} {B : Nat}

theorem place_ret (a : α) : Place h B (.ret a) := fun _ _ hs => ⟨rfl, hs⟩

theorem place_pure (a : α) : Place h B (M.pure a) := place_ret _

theorem place_fail (er : Err) : Place h B (M.fail er : M α) := place_ret _

theorem place_pbind {p : Prog α} {f : α → Prog β} (hp : Place h B p) (hf : ∀ a, Place h B (f a)) :
    Place h B (p.bind f) := by
  intro s s' hs
  obtain ⟨h1, h2⟩ := hp s s' hs
  rw [Prog.run_bind, Prog.run_bind, h1]
  exact hf _ _ _ h2

/-- With a claim on the result of the first part. -/
theorem place_bindV {μ : Mode} {m : Nat} {V : α → Prop} {p : M α} {f : α → M β} (hp : Place h B p) (hμ : μ.exact = true)
    (hB : B ≤ μ.B) (hv : Good μ m V p) (hf : ∀ a, V a → Place h B (f a)) : Place h B (M.bind p f) := by
  intro s s' hs
  obtain ⟨h1, h2⟩ := hp s s' hs
  have h3 := (bufferReader_orderly h).run hs.left (hμ ▸ hv s.pend.length (Nat.le_trans hs.le hB))
  unfold M.bind
  rw [Prog.run_bind, Prog.run_bind, ← h1]
  rcases hr : (p.run (bufferReader h) s).1 with er | a
  · exact ⟨rfl, h2⟩
  · have h4 := h3.2.2.1
    rw [hr] at h4
    exact hf a h4.2.2 _ _ h2

theorem place_bind {p : M α} {f : α → M β} (hp : Place h B p) (hf : ∀ a, Place h B (f a)) : Place h B (M.bind p f) := by
  unfold M.bind
  refine place_pbind hp fun r => ?_
  cases r with
  | error er => exact place_ret _
  | ok a => exact hf a

theorem place_map {p : M α} (f : α → β) (hp : Place h B p) : Place h B (M.map f p) :=
  place_bind hp fun _ => place_pure _

theorem place_ite {c : Prop} [Decidable c] {p q : Prog α} (hp : c → Place h B p) (hq : ¬ c → Place h B q) :
    Place h B (if c then p else q) := by
  split
  · exact hp ‹_›
  · exact hq ‹_›

theorem place_onEof {p : M α} (hp : Place h B p) (d : α) : Place h B (onEof p d) := by
  unfold onEof
  refine place_pbind hp fun r => ?_
  cases r with
  | error er => exact place_ite (fun _ => place_pure _) fun _ => place_fail _
  | ok a => exact place_pure _

theorem place_read {n : Nat} {k : Except Err Bytes → Prog α} (hk : ∀ r, Place h B (k r)) : Place h B (.read n k) := by
  intro s s' hs
  show (((k (bufRead h n s).1).run _ (bufRead h n s).2).1 = ((k (bufRead h n s').1).run _ (bufRead h n s').2).1) ∧ 
    Beside h B ((k (bufRead h n s).1).run _ (bufRead h n s).2).2 ((k (bufRead h n s').1).run _ (bufRead h n s').2).2
  by_cases hn : n ≤ s.pend.length
  · obtain ⟨t, h1, h2, h3⟩ := bufRead_ok hs.left hn
    obtain ⟨t', h1', h2', h3'⟩ := bufRead_ok hs.right (hs.same ▸ hn)
    rw [h1, h1', ← hs.same]
    exact hk _ _ _ ⟨h2, h2', by rw [h3, h3', hs.same], by rw [h3, List.length_drop]; have := hs.le; omega⟩
  · rw [bufRead_err hs.left (Nat.lt_of_not_le hn), bufRead_err hs.right (hs.same ▸ Nat.lt_of_not_le hn)]
    exact hk _ _ _ hs

theorem place_peek {n : Nat} {k : Except Err Bytes → Prog α} (hk : ∀ r, Place h B (k r)) : Place h B (.peek n k) := by
  intro s s' hs
  show (((k (bufPeek h n s).1).run _ (bufPeek h n s).2).1 = ((k (bufPeek h n s').1).run _ (bufPeek h n s').2).1) ∧ 
    Beside h B ((k (bufPeek h n s).1).run _ (bufPeek h n s).2).2 ((k (bufPeek h n s').1).run _ (bufPeek h n s').2).2
  by_cases hn : n ≤ s.pend.length
  · obtain ⟨t, h1, h2, h3⟩ := (bufferReader_lawful h).peek_ok n s hs.left hn
    obtain ⟨t', h1', h2', h3'⟩ := (bufferReader_lawful h).peek_ok n s' hs.right (hs.same ▸ hn)
    rw [show bufPeek h n s = _ from h1, show bufPeek h n s' = _ from h1', ← hs.same]
    exact hk _ _ _ ⟨h2, h2', by rw [h3, h3', hs.same], by rw [h3]; exact hs.le⟩
  · have he : ∀ t : BufSt, t.Inv h → ¬ n ≤ t.pend.length → bufPeek h n t = (.error .unexpectedEndOfInput, t) := by
      intro t ht hn
      unfold bufPeek
      rw [bufCanRead_eq ht]
      simp [hn]
    rw [he s hs.left hn, he s' hs.right (hs.same ▸ hn)]
    exact hk _ _ _ hs

theorem place_canRead {n : Nat} {k : Option Bool → Prog α} (hk : ∀ r, Place h B (k r)) : Place h B (.canRead n k) := by
  intro s s' hs
  show (((k (bufCanRead h n s)).run _ s).1 = ((k (bufCanRead h n s')).run _ s').1) ∧ 
    Beside h B ((k (bufCanRead h n s)).run _ s).2 ((k (bufCanRead h n s')).run _ s').2
  rw [bufCanRead_eq hs.left, bufCanRead_eq hs.right, ← hs.same]
  exact hk _ _ _ hs

theorem place_alloc {n m : Nat} {k : Prog α} (hk : Place h B k) : Place h B (.alloc n m k) := hk

/-- Both readers lend their bytes to `RawCopyIter`; its values do not depend on the address. -/
theorem place_borrowR {n : Nat} {k : Option (Except Err (Nat × Bytes)) → Prog α} (hk : ∀ r, Place h B (k r))
    (ha : ∀ a a' bs, k (some (.ok (a, bs))) = k (some (.ok (a', bs)))) : Place h B (.borrowR n k) := by
  intro s s' hs
  show (((k (bufBorrow h n s).1).run _ (bufBorrow h n s).2).1 =
      ((k (bufBorrow h n s').1).run _ (bufBorrow h n s').2).1) ∧ 
    Beside h B ((k (bufBorrow h n s).1).run _ (bufBorrow h n s).2).2
      ((k (bufBorrow h n s').1).run _ (bufBorrow h n s').2).2
  rcases bufBorrow_cases hs.left n with ⟨hn, t, h1, h2, h3⟩ | ⟨hn, h1⟩
  · rcases bufBorrow_cases hs.right n with ⟨hn', t', h1', h2', h3'⟩ | ⟨hn', h1'⟩
    · rw [h1, h1', ← hs.same]
      simp only
      rw [ha s.ptr s'.ptr]
      exact hk _ _ _ ⟨h2, h2', by rw [h3, h3', hs.same], by rw [h3, List.length_drop]; have := hs.le; omega⟩
    · rw [hs.same] at hn; omega
  · rcases bufBorrow_cases hs.right n with ⟨hn', t', h1', h2', h3'⟩ | ⟨hn', h1'⟩
    · rw [hs.same] at hn; omega
    · rw [h1, h1']
      exact hk _ _ _ hs

theorem place_repeatM {p : M α} (hp : Place h B p) : ∀ n, Place h B (repeatM n p)
  | 0 => place_pure _
  | n + 1 => place_bind hp fun _ => place_bind (place_repeatM hp n) fun _ => place_pure _

theorem place_readUntilEof {p : M Val} (hp : Place h B p) : ∀ fuel, Place h B (readUntilEof fuel p)
  | 0 => place_fail _
  | n + 1 => by
    unfold readUntilEof
    refine place_pbind hp fun r => ?_
    cases r with
    | ok v => exact place_bind (place_readUntilEof hp n) fun _ => place_pure _
    | error er => exact place_ite (fun _ => place_pure _) fun _ => place_fail _

theorem place_readBytes (n : Nat) : Place h B (readBytes n) := place_read fun _ => place_ret _

theorem place_peekBytes (n : Nat) : Place h B (peekBytes n) := place_peek fun _ => place_ret _

theorem place_readNum (h' : Host) (e : Endian) (n : Nat) : Place h B (readNum h' e n) := by
  refine place_canRead fun r => place_ite (fun _ => place_fail _) fun _ => place_read fun r => ?_
  cases r with
  | error er => exact place_fail _
  | ok bs => exact place_pure _

theorem place_peekNum (h' : Host) (e : Endian) (n : Nat) : Place h B (peekNum h' e n) := by
  refine place_canRead fun r => place_ite (fun _ => place_fail _) fun _ => place_peek fun r => ?_
  cases r with
  | error er => exact place_fail _
  | ok bs => exact place_pure _

theorem place_readVarint (h' : Host) (e : Endian) : Place h B (readVarint h' e) :=
  place_bind (place_readNum _ _ _) fun _ => place_bind (place_readBytes _) fun _ => place_pure _

theorem place_peekVarint (h' : Host) (e : Endian) : Place h B (peekVarint h' e) :=
  place_bind (place_peekNum _ _ _) fun _ => place_bind (place_peekBytes _) fun _ => place_pure _

theorem place_readLen (h' : Host) (e : Endian) (lt : LenTy) : Place h B (readLen h' e lt) := by
  cases lt <;> unfold readLen
  · exact place_bind (place_readNum _ _ _) fun _ => place_ite (fun _ => place_fail _) fun _ => place_pure _
  · exact place_readNum _ _ _
  · exact place_readNum _ _ _
  · exact place_readNum _ _ _
  · exact place_bind (place_readNum _ _ _) fun _ => place_ite (fun _ => place_fail _) fun _ => place_pure _
  · exact place_bind (place_readVarint _ _) fun _ => place_ite (fun _ => place_fail _) fun _ => place_pure _

/-- A length and what follows. -/
theorem place_lenBind {e : Endian} (hh : h.Ok) {l : Lim} {lr : LenR} (hl : l.admits h lr) {f : Option Nat → M α}
    (hs : ∀ n, n ≤ l.bound → Place h B (f (some n))) (hn : Place h B (f none)) :
    Place h B (M.bind (readLenR h e lr) f) := by
  have key : ∀ (lt : LenTy) {p : M Nat}, Place h B p → Good ⟨B, true, false, false⟩ 0 (fun n => n ≤ lt.cap h) p →
      lt.cap h ≤ l.bound → Place h B (M.bind (M.map some p) f) := by
    intro lt p hp hg hle
    refine place_bindV (V := fun x => ∃ n, x = some n ∧ n ≤ l.bound) (place_map _ hp) rfl (Nat.le_refl _)
      (good_map hg fun n hn => ⟨n, rfl, Nat.le_trans hn hle⟩) ?_
    rintro x ⟨n, rfl, hx⟩
    exact hs n hx
  cases lr with
  | typed lt d =>
    cases d with
    | false => exact key lt (place_readLen _ _ _) ((good_readLen hh e lt).low (Nat.zero_le _)) hl
    | true => exact key lt (place_onEof (place_readLen _ _ _) 0) (good_onEof (good_readLen hh e lt) (Nat.zero_le _)) hl
  | fixed n => exact hs n hl
  | untilEof => exact hn

theorem place_liftVals (el : Elem) (r : Except Panic (List Bytes)) : Place h B (liftVals el r) := by
  cases r with
  | error p => exact place_fail _
  | ok ms => exact place_pure _

theorem place_readVec (h' : Host) (e : Endian) {el : Elem} (hel : Place h B el.read) (n : Nat) :
    Place h B (readVec h' e el n) :=
  place_ite (fun _ => place_fail _) fun _ => place_canRead fun _ => place_ite (fun _ => place_fail _) fun _ =>
    place_ite (fun _ => place_fail _) fun _ => place_alloc (place_ite
      (fun _ => place_bind (place_readBytes _) fun _ => place_liftVals _ _) fun _ =>
        place_ite (fun _ => place_pure _) fun _ => place_repeatM hel _)

theorem place_readCollection (h' : Host) (e : Endian) {el : Elem} (hel : Place h B el.read) (n : Nat) :
    Place h B (readCollection h' e el n) := by
  refine place_ite (fun _ => place_ite (fun _ => place_fail _) fun _ => place_borrowR (fun r => ?_) fun _ _ _ => rfl)
    fun _ => place_repeatM hel _
  rcases r with _ | er | ⟨a, bs⟩
  · exact place_repeatM hel _
  · exact place_fail _
  · exact place_ite (fun _ => place_fail _) fun _ => place_pure _

theorem place_readPair {ek ev : Elem} (hk : Place h B ek.read) (hv : Place h B ev.read) : Place h B (readPair ek ev) :=
  place_bind hk fun _ => place_bind hv fun _ => place_pure _

theorem place_readKV (h' : Host) (e : Endian) {ek ev : Elem} (hk : Place h B ek.read) (hv : Place h B ev.read) (n : Nat) :
    Place h B (readKV h' e ek ev n) := by
  have hp := place_repeatM (place_readPair hk hv) n
  refine place_ite (fun _ => place_ite (fun _ => place_fail _) fun _ => place_borrowR (fun r => ?_) fun _ _ _ => rfl)
    fun _ => hp
  rcases r with _ | er | ⟨a, bs⟩
  · exact hp
  · exact place_fail _
  · exact place_ite (fun _ => place_fail _) fun _ => place_pure _

theorem place_durationNew (a b : Nat) : Place h B (durationNew a b) :=
  place_ite (fun _ => place_pure _) fun _ => place_fail _

theorem place_readDuration (h' : Host) (e : Endian) : Place h B (readDuration h' e) :=
  place_bind (place_readNum _ _ _) fun _ => place_bind (place_readNum _ _ _) fun _ => place_durationNew _ _

theorem place_readIpv6 (h' : Host) (e : Endian) : Place h B (readIpv6 h' e) := place_map _ (place_readBytes _)

theorem place_readBool (h' : Host) (e : Endian) : Place h B (readBool h' e) := place_map _ (place_readNum _ _ _)

theorem place_convert (c : Conv) (v : Val) : Place h B (convert c v) := by
  unfold convert
  cases c.apply v with
  | ok w => exact place_pure _
  | error er => exact place_fail _

theorem place_asStr (bs : Bytes) : Place h B (asStr bs) := place_ite (fun _ => place_pure _) fun _ => place_fail _

theorem place_readTag (h' : Host) (e : Endian) (d : EnumDesc) : Place h B (readTag h' e d) := by
  obtain ⟨lt, pk⟩ := d
  cases pk <;> cases lt
  case false.varint => exact place_readVarint _ _
  case true.varint => exact place_peekVarint _ _
  case false.u7 | false.u8 | false.u16 | false.u32 | false.u64 => exact place_readNum _ _ _
  all_goals exact place_peekNum _ _ _


/-! ## Bytes which only the first reader lends -/
/-- Bytes which are lent: the address is different. -/
theorem place_borrow {n : Nat} {k : Option (Except Err (Nat × Bytes)) → Prog α}
    (hk : ∀ a a' (bs : Bytes), bs.length = n → n ≤ B → Place2 h B (k (some (.ok (a, bs)))) (k (some (.ok (a', bs)))))
    (he : ∀ er, Place h B (k (some (.error er)))) : Place h B (.borrow n k) := by
  intro s s' hs
  show (((k (bufBorrow h n s).1).run _ (bufBorrow h n s).2).1 =
      ((k (bufBorrow h n s').1).run _ (bufBorrow h n s').2).1) ∧
    Beside h B ((k (bufBorrow h n s).1).run _ (bufBorrow h n s).2).2
      ((k (bufBorrow h n s').1).run _ (bufBorrow h n s').2).2
  rcases bufBorrow_cases hs.left n with ⟨hn, t, h1, h2, h3⟩ | ⟨hn, h1⟩
  · rcases bufBorrow_cases hs.right n with ⟨hn', t', h1', h2', h3'⟩ | ⟨hn', h1'⟩
    · rw [h1, h1', ← hs.same]
      refine hk _ _ _ ?_ (Nat.le_trans hn hs.le) _ _ ⟨h2, h2', by rw [h3, h3', hs.same], by
        rw [h3, List.length_drop]; have := hs.le; omega⟩
      rw [List.length_take]; omega
    · rw [hs.same] at hn; omega
  · rcases bufBorrow_cases hs.right n with ⟨hn', t', h1', h2', h3'⟩ | ⟨hn', h1'⟩
    · rw [hs.same] at hn; omega
    · rw [h1, h1']
      exact he _ _ _ hs

theorem place_borrowEof {k : Option (Nat × Bytes) → Prog α}
    (hk : ∀ a a' (bs : Bytes), bs.length ≤ B → Place2 h B (k (some (a, bs))) (k (some (a', bs)))) : Place h B (.borrowEof k) := by
  intro s s' hs
  obtain ⟨t, h1, h2, h3⟩ := bufBorrowEof_ok hs.left
  obtain ⟨t', h1', h2', h3'⟩ := bufBorrowEof_ok hs.right
  show (((k (bufBorrowEof h s).1).run _ (bufBorrowEof h s).2).1 =
      ((k (bufBorrowEof h s').1).run _ (bufBorrowEof h s').2).1) ∧
    Beside h B ((k (bufBorrowEof h s).1).run _ (bufBorrowEof h s).2).2
      ((k (bufBorrowEof h s').1).run _ (bufBorrowEof h s').2).2
  rw [h1, h1', ← hs.same]
  exact hk _ _ _ hs.le _ _ ⟨h2, h2', by rw [h3, h3'], by rw [h3]; exact Nat.zero_le _⟩

theorem place_borrowBytes {n : Nat} {f : Bytes → M α} (hf : ∀ bs, Place h B (f bs)) :
    Place h B (M.bind (borrowBytes n) fun r => f r.2) :=
  place_borrow (fun _ _ bs _ _ => hf bs) fun _ => place_fail _

theorem place_borrowRest {f : Bytes → M α} (hf : ∀ bs, Place h B (f bs)) : Place h B (M.bind borrowRest fun r => f r.2) :=
  place_borrowEof fun _ _ bs _ => hf bs

/-- `read_cow`, if addresses need no alignment, or elements have a size and the product does not wrap around, or there are not as
many bytes. -/
theorem place_readCow (hB : B ≤ h.isizeMax) {e : Endian} {el : Elem} (hel : Place h B el.read) {n : Nat}
    (hc : el.prim = true → (el.size = 1 ∨ e.conv h = false) →
      el.align = 1 ∨ (el.size ≠ 0 ∧ n * el.size ≤ h.usizeMax) ∨ wmul h n el.size > h.isizeMax) :
    Place h B (M.map CowVal.vals (readCow h e el n)) := by
  unfold readCow
  by_cases hp : (el.prim && (el.size == 1 || !e.conv h)) = true
  · rw [if_pos hp]
    simp only [Bool.and_eq_true, Bool.or_eq_true, beq_iff_eq, Bool.not_eq_true'] at hp
    refine place_borrow (fun a a' bs hb hnB => ?_) fun _ => place_fail _
    rcases hc hp.1 hp.2 with h0 | ⟨h0, h2⟩ | h0
    · simp only [hb, ne_eq, not_true, if_false, h0, beq_self_eq_true, Bool.true_or, if_true]
      by_cases hz : el.size = 0
      · intro s s' hs
        simp only [M.pure, Prog.bind, Prog.run, if_pos hz, M.fail]
        exact ⟨trivial, hs⟩
      · intro s s' hs
        simp only [M.pure, Prog.bind, Prog.run, if_neg hz]
        exact ⟨rfl, hs⟩
    · rw [wmul_fits h2] at hb hnB ⊢
      have hle : ¬ n * el.size > h.isizeMax := by omega
      simp only [hb, ne_eq, not_true, if_false, hle, if_neg h0, Nat.mul_div_cancel _ (Nat.pos_of_ne_zero h0)]
      have key : ∀ a : Nat, ∀ s : BufSt, ((M.bind (if (el.align == 1 || a % el.align == 0) = true then
            M.pure (CowVal.borrowed a bs ((chunks el.size n bs).map el.ofMem))
          else .alloc n el.min (M.pure (.owned ((chunks el.size n bs).map el.ofMem)))) fun c => M.pure c.vals).run (bufferReader h) s) =
          (M.pure ((chunks el.size n bs).map el.ofMem) : M (List Val)).run (bufferReader h) s := by
        intro a s
        split <;> rfl
      intro s s' hs
      have := place_pure ((chunks el.size n bs).map el.ofMem) s s' hs
      rw [← key a, ← key a'] at this
      exact this
    · omega
  · rw [if_neg hp]
    exact place_map _ (place_map _ (place_readVec _ _ hel _))

/-- Uses of a `Cow` which only look at the elements. -/
theorem place_cowBind {α : Type} {p : M CowVal} (hp : Place h B (M.map CowVal.vals p)) {f : List Val → M α}
    (hf : ∀ vs, Place h B (f vs)) : Place h B (M.bind p fun c => f c.vals) := by
  intro s s' hs
  have := place_bind hp hf s s' hs
  rwa [run_bind_map, run_bind_map] at this

theorem place_u8 {T : Target} {e : Endian} : Place h B (u8Elem T e).read := place_map _ (place_readNum _ _ _)
theorem place_readConstant {T : Target} {e : Endian} (c : Bytes) : Place h B (readConstant T.toHost e (u8Elem T e) c) :=
  place_borrow (fun _ _ _ _ _ => place_ite (fun _ => place_pure _) fun _ => place_fail _) fun _ => place_fail _

end

section
variable {T : Target} {e : Endian} {B : Nat}

theorem place_readStr (hB : B ≤ T.isizeMax) {k : StrKind} {n : Nat} (hn : n ≤ T.usizeMax) :
    Place T.toHost B (readStr T e k (some n)) := by
  cases k with
  | owned => exact place_bind (place_readVec _ _ place_u8 _) fun _ => place_asStr _
  | cow =>
    refine place_cowBind (place_readCow hB place_u8 fun _ _ => .inr (.inl ⟨?_, ?_⟩)) fun vs => place_asStr (toBytes vs)
    · show (1 : Nat) ≠ 0; decide
    · show n * 1 ≤ T.usizeMax; omega
  | ref => exact place_borrowBytes fun bs => place_asStr bs

theorem place_readStr_rest {k : StrKind} : Place T.toHost B (readStr T e k none) := by
  cases k with
  | owned => exact place_bind (place_readUntilEof place_u8 _) fun _ => place_asStr _
  | cow => exact place_bind (place_readUntilEof place_u8 _) fun _ => place_asStr _
  | ref => exact place_borrowRest fun bs => place_asStr bs

theorem place_readArray {inl : Bool} {el : Elem} (hel : Place T.toHost B el.read) (n : Nat) :
    Place T.toHost B (readArray T e inl el n) :=
  place_ite (fun _ => place_bind (place_readBytes _) fun _ => place_map _ (place_liftVals _ _)) fun _ =>
    place_map _ (place_repeatM hel _)

theorem place_readRefSlice {el : Elem} {n : Nat} :
    Place T.toHost B (M.map (fun r => Val.list r.2) (readRefSlice T.toHost el n)) := by
  unfold readRefSlice
  by_cases hn : n * el.size > T.usizeMax
  · rw [if_pos hn]; exact place_fail _
  · rw [if_neg hn]
    exact place_borrow (fun _ _ _ _ _ => place_pure _) fun _ => place_fail _

theorem place_readRefSliceRest {el : Elem} : Place T.toHost B (M.map (fun r => Val.list r.2) (readRefSliceRest el)) := by
  refine place_borrowEof fun _ _ bs _ => ?_
  by_cases hz : el.size = 0
  · intro s s' hs
    simp only [M.pure, Prog.bind, Prog.run, if_pos hz, M.fail]
    exact ⟨trivial, hs⟩
  · intro s s' hs
    simp only [M.pure, Prog.bind, Prog.run, if_neg hz]
    exact ⟨trivial, hs⟩

end

/-! ## All types -/

mutual
/-- The elements of a `Cow<[T]>` need no alignment, or have a size and the length is such that `length * size_of` does not wrap
around. -/
def placed (T : Target) (e : Endian) : Lim → Ty → Bool
  | l, .seq k t => (!(k == .cow && isPrimitive T t && (sizeOf T t == 1 || !e.conv T.toHost)) ||
        (alignOf T t == 1 || (sizeOf T t != 0 && decide (l.bound * sizeOf T t ≤ T.usizeMax)))) &&
      placed T e (Lim.std T.toHost) t
  | _, .set t | _, .array _ t | _, .refArray _ t | _, .range t | _, .rangeInc t | _, .box t | _, .via _ t =>
      placed T e (Lim.std T.toHost) t
  | _, .map k v | _, .result k v | _, .pair k v =>
      placed T e (Lim.std T.toHost) k && placed T e (Lim.std T.toHost) v
  | l, .option t => placed T e (l.opt T.toHost t) t
  | _, .struct _ fs => placedFields T e fs
  | _, .enum _ vs => placedVariants T e vs
  | _, _ => true
/-- Fields. -/
def placedFields (T : Target) (e : Endian) : Fields → Bool
  | .nil => true
  | .cons a t fs => placed T e (a.lim T.toHost) t && placedFields T e fs
/-- Variants. -/
def placedVariants (T : Target) (e : Endian) : Variants → Bool
  | .nil => true
  | .cons _ fs vs => placedFields T e fs && placedVariants T e vs
end


section
variable {T : Target} (hT : T.Ok) {e : Endian} {B : Nat} (hB : B ≤ T.isizeMax)
include hT hB

mutual
/-- Reading any type. -/
theorem decode_place : ∀ (t : Ty) (cx : Cx) (l : Lim), l.admits T.toHost cx.len → l.bound ≤ T.usizeMax → placed T e l t = true → Place T.toHost B (decode T e t cx)
  | .prim p, _, _, _, _, _ => by unfold decode; exact place_map _ (place_readNum _ _ _)
  | .usize, _, _, _, _, _ => by
    unfold decode; exact place_bind (place_readNum _ _ _) fun _ => place_ite (fun _ => place_fail _) fun _ => place_pure _
  | .bool, _, _, _, _, _ => by unfold decode; exact place_map _ (place_readBool _ _)
  | .char, _, _, _, _, _ => by
    unfold decode; exact place_bind (place_readNum _ _ _) fun _ => place_ite (fun _ => place_pure _) fun _ => place_fail _
  | .nonZero p, _, _, _, _, _ => by
    unfold decode; exact place_bind (place_readNum _ _ _) fun _ => place_ite (fun _ => place_fail _) fun _ => place_pure _
  | .atomic p, _, _, _, _, _ => by unfold decode; exact place_map _ (place_readNum _ _ _)
  | .ipv4, _, _, _, _, _ => by unfold decode; exact place_map _ (place_readNum _ _ _)
  | .ipv6, _, _, _, _, _ => by unfold decode; exact place_readIpv6 _ _
  | .ipAddr, _, _, _, _, _ => by
    unfold decode
    exact place_bind (place_readNum _ _ _) fun _ => place_ite (fun _ => place_map _ (place_readNum _ _ _)) fun _ =>
      place_ite (fun _ => place_map _ (place_readIpv6 _ _)) fun _ => place_fail _
  | .duration, _, _, _, _, _ => by unfold decode; exact place_map _ (place_readDuration _ _)
  | .systemTime, _, _, _, _, _ => by
    unfold decode
    exact place_bind (place_readDuration _ _) fun _ => place_ite (fun _ => place_pure _) fun _ => place_fail _
  | .endianness, _, _, _, _, _ => by
    unfold decode
    exact place_bind (place_readNum _ _ _) fun _ => place_ite (fun _ => place_pure _) fun _ =>
      place_ite (fun _ => place_pure _) fun _ => place_fail _
  | .varint64, _, _, _, _, _ => by unfold decode; exact place_map _ (place_readVarint _ _)
  | .uuid, _, _, _, _, _ => by unfold decode; exact place_map _ (place_readBytes _)
  | .unit, _, _, _, _, _ => by unfold decode; exact place_pure _
  | .str k, cx, l, ha, hb, _ => by
    unfold decode
    exact place_lenBind hT.toOk ha (fun n hn => place_readStr hB (Nat.le_trans hn hb)) place_readStr_rest
  | .seq k t, cx, l, ha, hb, hc => by
    unfold decode
    simp only [placed, Bool.and_eq_true] at hc
    have ih : Place T.toHost B (elemOf T t (decode T e t Cx.std)).read :=
      decode_place t Cx.std (Lim.std T.toHost) (std_admits _) (LenTy.cap_le _ _) hc.2
    refine place_ite (fun _ => place_fail _) fun _ => place_lenBind hT.toOk ha (fun n hle => ?_) ?_
    · cases k with
      | vec => exact place_map _ (place_readVec _ _ ih _)
      | cow =>
        refine place_cowBind (place_readCow hB ih fun hp he => ?_) fun vs => place_pure (Val.list vs)
        have h1 := hc.1
        have hp' : isPrimitive T t = true := hp
        have he' : (sizeOf T t == 1 || !e.conv T.toHost) = true := by
          rcases he with he | he
          · have : sizeOf T t = 1 := he
            simp [this]
          · simp [he]
        simp only [hp', he', beq_self_eq_true, Bool.and_self, Bool.not_true, Bool.false_or, Bool.and_eq_true, Bool.or_eq_true,
          bne_iff_ne, beq_iff_eq, decide_eq_true_eq] at h1
        exact h1.imp id fun h1 => .inl ⟨h1.1, Nat.le_trans (Nat.mul_le_mul_right _ hle) h1.2⟩
      | ref => exact place_readRefSlice
    · cases k with
      | vec => exact place_map _ (place_readUntilEof ih _)
      | cow => exact place_map _ (place_readUntilEof ih _)
      | ref => exact place_readRefSliceRest
  | .set t, cx, l, ha, hb, hc => by
    unfold decode
    simp only [placed] at hc
    have ih : Place T.toHost B (elemOf T t (decode T e t Cx.std)).read :=
      decode_place t Cx.std (Lim.std T.toHost) (std_admits _) (LenTy.cap_le _ _) hc
    exact place_lenBind hT.toOk ha (fun n hle => place_map _ (place_readCollection _ _ ih _))
      (place_map _ (place_readUntilEof ih _))
  | .map k v, cx, l, ha, hb, hc => by
    unfold decode
    simp only [placed, Bool.and_eq_true] at hc
    have ih1 : Place T.toHost B (elemOf T k (decode T e k Cx.std)).read :=
      decode_place k Cx.std (Lim.std T.toHost) (std_admits _) (LenTy.cap_le _ _) hc.1
    have ih2 : Place T.toHost B (elemOf T v (decode T e v Cx.std)).read :=
      decode_place v Cx.std (Lim.std T.toHost) (std_admits _) (LenTy.cap_le _ _) hc.2
    exact place_lenBind hT.toOk ha (fun n hle => place_map _ (place_readKV _ _ ih1 ih2 _))
      (place_map _ (place_readUntilEof (place_readPair ih1 ih2) _))
  | .array n t, cx, l, ha, hb, hc => by
    unfold decode
    simp only [placed] at hc
    exact place_readArray (decode_place t Cx.std (Lim.std T.toHost) (std_admits _) (LenTy.cap_le _ _) hc) n
  | .refArray n t, _, _, _, _, _ => by
    unfold decode
    exact place_ite (fun _ => place_fail _) fun _ => place_borrow (fun _ _ _ _ _ => place_pure _) fun _ => place_fail _
  | .option t, cx, l, ha, hb, hc => by
    unfold decode
    simp only [placed] at hc
    exact place_bind (place_readBool _ _) fun _ => place_ite (fun _ => place_map _
      (decode_place t _ _ (Lim.admits_opt ha t) (Lim.opt_le hb t) hc)) fun _ => place_pure _
  | .result t er, cx, l, ha, hb, hc => by
    unfold decode
    simp only [placed, Bool.and_eq_true] at hc
    exact place_bind (place_readBool _ _) fun _ => place_ite
      (fun _ => place_map _ (decode_place t Cx.std (Lim.std T.toHost) (std_admits _) (LenTy.cap_le _ _) hc.1))
      fun _ => place_map _ (decode_place er Cx.std (Lim.std T.toHost) (std_admits _) (LenTy.cap_le _ _) hc.2)
  | .range t, cx, l, ha, hb, hc => by
    unfold decode
    simp only [placed] at hc
    have ih := decode_place t Cx.std (Lim.std T.toHost) (std_admits _) (LenTy.cap_le _ _) hc
    exact place_bind ih fun _ => place_bind ih fun _ => place_pure _
  | .rangeInc t, cx, l, ha, hb, hc => by
    unfold decode
    simp only [placed] at hc
    have ih := decode_place t Cx.std (Lim.std T.toHost) (std_admits _) (LenTy.cap_le _ _) hc
    exact place_bind ih fun _ => place_bind ih fun _ => place_pure _
  | .pair a b, cx, l, ha, hb, hc => by
    unfold decode
    simp only [placed, Bool.and_eq_true] at hc
    exact place_bind (decode_place a Cx.std (Lim.std T.toHost) (std_admits _) (LenTy.cap_le _ _) hc.1) fun _ =>
      place_bind (decode_place b Cx.std (Lim.std T.toHost) (std_admits _) (LenTy.cap_le _ _) hc.2) fun _ =>
        place_pure _
  | .box t, cx, l, ha, hb, hc => by
    unfold decode
    simp only [placed] at hc
    exact decode_place t Cx.std (Lim.std T.toHost) (std_admits _) (LenTy.cap_le _ _) hc
  | .via c t, cx, l, ha, hb, hc => by
    unfold decode
    simp only [placed] at hc
    exact place_bind (decode_place t Cx.std (Lim.std T.toHost) (std_admits _) (LenTy.cap_le _ _) hc) fun _ => place_convert _ _
  | .struct d fs, cx, l, ha, hb, hc => by
    unfold decode
    simp only [placed] at hc
    exact decodeFields_place fs [] hc
  | .enum d vs, cx, l, ha, hb, hc => by
    unfold decode
    simp only [placed] at hc
    exact place_bind (place_readTag _ _ _) fun tag => decodeVariants_place vs tag 0 hc
theorem decodeFields_place : ∀ (fs : Fields) (prev : List Val), placedFields T e fs = true → Place T.toHost B (decodeFields T e fs prev)
  | .nil, _, _ => by unfold decodeFields; exact place_pure _
  | .cons a t fs, prev, hc => by
    unfold decodeFields
    simp only [placedFields, Bool.and_eq_true] at hc
    have h1 : Place T.toHost B
        (if a.varint then M.map .num (readVarint T.toHost e) else decode T e t (a.cx T.toHost prev)) :=
      place_ite (fun _ => place_map _ (place_readVarint _ _)) fun _ =>
        decode_place t _ (a.lim T.toHost) (Attrs.lim_admits _ _) (Attrs.lim_le _ _) hc.1
    have h2 : Place T.toHost B (if a.pre.isEmpty then
        (if a.varint then M.map .num (readVarint T.toHost e) else decode T e t (a.cx T.toHost prev))
        else M.bind (readConstant T.toHost e (u8Elem T e) a.pre) fun _ =>
          (if a.varint then M.map .num (readVarint T.toHost e) else decode T e t (a.cx T.toHost prev))) :=
      place_ite (fun _ => h1) fun _ => place_bind (place_readConstant _) fun _ => h1
    refine place_ite (fun _ => place_map _ (decodeFields_place fs prev hc.2)) fun _ => ?_
    exact place_bind (place_ite (fun _ => place_onEof h2 _) fun _ => h2) fun v =>
      place_map _ (decodeFields_place fs _ hc.2)
theorem decodeVariants_place : ∀ (vs : Variants) (tag i : Nat), placedVariants T e vs = true → Place T.toHost B (decodeVariants T e vs tag i)
  | .nil, _, _, _ => by unfold decodeVariants; exact place_fail _
  | .cons tag' fs vs, tag, i, hc => by
    unfold decodeVariants
    simp only [placedVariants, Bool.and_eq_true] at hc
    exact place_ite (fun _ => place_map _ (decodeFields_place fs [] hc.1)) fun _ =>
      decodeVariants_place vs tag (i + 1) hc.2
end
end

/-- **C83 (partial).** Where a buffer is in memory does not matter: `read_with_length_from_buffer` returns the same at any two
addresses — the value or the error, and the number of bytes.  This includes types with references.

Full claim: for all types.  Missing: `Cow<[T]>` of aligned elements with a length for which `length * size_of::<T>()` wraps around, or
which have no size; for these it is false (`C83_false`, `C83_false_empty`), see also `C83_cow`. -/
theorem C83_place_partial {T : Target} (hT : T.Ok) {e : Endian} {t : Ty} (hc : placed T e (Lim.std T.toHost) t = true)
    {base base' : Nat} {buf : Bytes} (hm : InMem T base buf) (hm' : InMem T base' buf) :
    readWithLengthFromBuffer T e t base buf = readWithLengthFromBuffer T e t base' buf := by
  unfold readWithLengthFromBuffer
  split
  · rfl
  · have h := decode_place hT (e := e) (B := buf.length) hm.fits.mem t Cx.std (Lim.std T.toHost) (std_admits _)
      (LenTy.cap_le _ _) hc (BufSt.init base buf) (BufSt.init base' buf)
      ⟨BufSt.init_inv hm.top, BufSt.init_inv hm'.top, by rw [BufSt.init_pend, BufSt.init_pend], by
        rw [BufSt.init_pend]; exact Nat.le_refl _⟩
    have h1 := ((bufferReader_at T.toHost base buf).run_inv (decode T e t Cx.std) _ (BufAt.init hm.top)).consumed.1
    have h2 := ((bufferReader_at T.toHost base' buf).run_inv (decode T e t Cx.std) _ (BufAt.init hm'.top)).consumed.1
    refine Prod.ext h.1 ?_
    simp only
    rw [h1, h2, h.2.same]

/-- The same for the value alone. -/
theorem C83_value_partial {T : Target} (hT : T.Ok) {e : Endian} {t : Ty} (hc : placed T e (Lim.std T.toHost) t = true)
    {base base' : Nat} {buf : Bytes} (hm : InMem T base buf) (hm' : InMem T base' buf) :
    readFromBuffer T e t base buf = readFromBuffer T e t base' buf :=
  congrArg Prod.fst (C83_place_partial hT hc hm hm')

/-- With the standard lengths on a 64 bit machine, all `Cow<[T]>` of elements smaller than 4 GiB are included. -/
example : placed x64 .little (Lim.std x64.toHost) (.pair (.seq .cow (.prim .f64)) (.pair (.str .ref) (.seq .ref (.prim .u32)))) = true := by
  decide

/-- An entry of a table which refers to the input. -/
example (base base' : Nat) (buf : Bytes) (hm : InMem x64 base buf) (hm' : InMem x64 base' buf) :
    readWithLengthFromBuffer x64 .little (.pair (.seq .cow (.prim .u32)) (.str .ref)) base buf =
      readWithLengthFromBuffer x64 .little (.pair (.seq .cow (.prim .u32)) (.str .ref)) base' buf :=
  C83_place_partial x64_ok (by decide) hm hm'

example : readWithLengthFromBuffer x64 .little (.pair (.seq .cow (.prim .u32)) (.str .ref)) 4096
      [1, 0, 0, 0, 7, 0, 0, 0, 1, 0, 0, 0, 0x61] = (.ok (.pair (.list [.num 7]) (.bytes [0x61])), 13) ∧
    readWithLengthFromBuffer x64 .little (.pair (.seq .cow (.prim .u32)) (.str .ref)) 4097
      [1, 0, 0, 0, 7, 0, 0, 0, 1, 0, 0, 0, 0x61] = (.ok (.pair (.list [.num 7]) (.bytes [0x61])), 13) := by
  decide

/-- **C83 is false** if `length * size_of::<T>()` wraps around in `read_cow`: with a length of 2^62 from the input, an aligned
buffer gives an empty slice, a buffer which is not aligned a panic. -/
theorem C83_false :
    readFromBuffer x64 .little wideCow 4096 [0, 0, 0, 0, 0, 0, 0, 0x40] = .ok (.pair (.list []) .unit) ∧
      readFromBuffer x64 .little wideCow 4097 [0, 0, 0, 0, 0, 0, 0, 0x40] = .error (.panic .capacityOverflow) := by
  decide

theorem run_borrow_ok {α : Type} {h : Host} {n : Nat} {k : Option (Except Err (Nat × Bytes)) → Prog α} {s t : BufSt} {r : Nat × Bytes}
    (hb : bufBorrow h n s = (some (.ok r), t)) :
    (Prog.borrow n k).run (bufferReader h) s = (k (some (.ok r))).run (bufferReader h) t := by
  show (k (bufBorrow h n s).1).run _ (bufBorrow h n s).2 = _
  rw [hb]

/-- **C83**, exactly when `read_cow` with a given length returns the same elements at all addresses, for elements which are copied
in bulk (`size_of::<T>() == 1` or the byte order of the machine): their alignment is 1, or they have a size and `length * size_of` does
not wrap around, or no input has as many bytes as it wraps around to. -/
theorem C83_cow {h : Host} (hh : h.Ok) {e : Endian} {el : Elem} (hel : Place h h.isizeMax el.read) (hp : el.prim = true)
    (he : el.size = 1 ∨ e.conv h = false) (ha : 0 < el.align ∧ el.align ≤ h.isizeMax) (n : Nat) :
    (∀ base base' buf, base + buf.length ≤ h.usizeMax → base' + buf.length ≤ h.usizeMax → buf.length ≤ h.isizeMax →
        ((M.map CowVal.vals (readCow h e el n)).run (bufferReader h) (BufSt.init base buf)).1 =
          ((M.map CowVal.vals (readCow h e el n)).run (bufferReader h) (BufSt.init base' buf)).1) ↔
      el.align = 1 ∨ (el.size ≠ 0 ∧ n * el.size ≤ h.usizeMax) ∨ wmul h n el.size > h.isizeMax := by
  constructor
  · intro hall
    by_cases h1 : el.align = 1
    · exact .inl h1
    by_cases h3 : wmul h n el.size > h.isizeMax
    · exact .inr (.inr h3)
    refine .inr (.inl (Classical.byContradiction fun hc => ?_))
    have hi := hh.isize
    have key : ∀ a, a + wmul h n el.size ≤ h.usizeMax → ∃ bs : Bytes,
        ((M.map CowVal.vals (readCow h e el n)).run (bufferReader h) (BufSt.init a (List.replicate (wmul h n el.size) 0))).1 =
        (if a % el.align = 0 then if el.size = 0 then .error (.panic .divByZero)
          else .ok ((chunks el.size (wmul h n el.size / el.size) bs).map el.ofMem)
        else if n * el.size > h.isizeMax then .error (.panic .capacityOverflow) else .ok ((chunks el.size n bs).map el.ofMem)) := by
      intro a hsum
      have hlen : (List.replicate (wmul h n el.size) (0 : UInt8)).length = wmul h n el.size := List.length_replicate
      have hinv : (BufSt.init a (List.replicate (wmul h n el.size) (0 : UInt8))).Inv h := BufSt.init_inv (by rw [hlen]; exact hsum)
      rcases bufBorrow_cases hinv (wmul h n el.size) with ⟨_, t, hb, _⟩ | ⟨hlt, _⟩
      · refine ⟨(BufSt.init a (List.replicate (wmul h n el.size) (0 : UInt8))).pend.take (wmul h n el.size), ?_⟩
        have hbl : ((BufSt.init a (List.replicate (wmul h n el.size) (0 : UInt8))).pend.take (wmul h n el.size)).length =
            wmul h n el.size := by rw [BufSt.init_pend, List.length_take, hlen]; omega
        have hcond : (el.prim && (el.size == 1 || !e.conv h)) = true := by
          rcases he with he | he <;> simp [hp, he]
        unfold readCow
        rw [if_pos hcond]
        refine (congrArg Prod.fst (run_borrow_ok hb)).trans ?_
        have hat : (BufSt.init a (List.replicate (wmul h n el.size) (0 : UInt8))).ptr = a := rfl
        simp only [hat, hbl, ne_eq, not_true, if_false, Bool.or_eq_true, beq_iff_eq, h1, false_or]
        by_cases hm : a % el.align = 0
        · by_cases hz : el.size = 0
          · simp only [if_pos hm, if_pos hz]; rfl
          · simp only [if_pos hm, if_neg hz]; rfl
        · by_cases hz : n * el.size > h.isizeMax
          · simp only [if_neg hm, if_pos hz]; rfl
          · simp only [if_neg hm, if_neg hz]; rfl
      · rw [BufSt.init_pend, hlen] at hlt; omega
    have hA := hall el.align (el.align + 1) (List.replicate (wmul h n el.size) 0) (by simp; omega) (by simp; omega) (by simp; omega)
    obtain ⟨b1, k1⟩ := key el.align (by omega)
    obtain ⟨b2, k2⟩ := key (el.align + 1) (by omega)
    rw [if_pos (Nat.mod_self _)] at k1
    rw [if_neg (by rw [Nat.add_mod_left, Nat.mod_eq_of_lt (by omega)]; decide)] at k2
    rw [k1, k2] at hA
    by_cases hz : el.size = 0
    · rw [if_pos hz, hz, Nat.mul_zero, if_neg (by omega)] at hA
      cases hA
    · have : n * el.size > h.isizeMax := by
        have : ¬ n * el.size ≤ h.usizeMax := fun hle => hc ⟨hz, hle⟩
        omega
      rw [if_neg hz, if_pos this] at hA
      cases hA
  · intro hc base base' buf h1 h2 h3
    refine (place_readCow (Nat.le_refl _) hel (fun _ _ => hc) (BufSt.init base buf) (BufSt.init base' buf)
      ⟨BufSt.init_inv h1, BufSt.init_inv h2, by rw [BufSt.init_pend, BufSt.init_pend], by rw [BufSt.init_pend]; exact h3⟩).1

/-- Elements of type `u32`: a length of 5 is fine, one of 2^62 is not. -/
example :
    (∀ base base' buf, base + buf.length ≤ x64.usizeMax → base' + buf.length ≤ x64.usizeMax → buf.length ≤ x64.isizeMax →
      ((M.map CowVal.vals (readCow x64.toHost .little (elemOf x64 (.prim .u32) (decode x64 .little (.prim .u32) Cx.std)) 5)).run
          (bufferReader x64.toHost) (BufSt.init base buf)).1 =
        ((M.map CowVal.vals (readCow x64.toHost .little (elemOf x64 (.prim .u32) (decode x64 .little (.prim .u32) Cx.std)) 5)).run
          (bufferReader x64.toHost) (BufSt.init base' buf)).1) ∧
    ¬ ∀ base base' buf, base + buf.length ≤ x64.usizeMax → base' + buf.length ≤ x64.usizeMax → buf.length ≤ x64.isizeMax →
      ((M.map CowVal.vals (readCow x64.toHost .little (elemOf x64 (.prim .u32) (decode x64 .little (.prim .u32) Cx.std)) (2 ^ 62))).run
          (bufferReader x64.toHost) (BufSt.init base buf)).1 =
        ((M.map CowVal.vals (readCow x64.toHost .little (elemOf x64 (.prim .u32) (decode x64 .little (.prim .u32) Cx.std)) (2 ^ 62))).run
          (bufferReader x64.toHost) (BufSt.init base' buf)).1 := by
  have hel : Place x64.toHost x64.isizeMax (elemOf x64 (.prim .u32) (decode x64 .little (.prim .u32) Cx.std)).read :=
    place_map _ (place_readNum _ _ _)
  refine ⟨(C83_cow x64_ok.toOk hel rfl (.inr rfl) (by decide) 5).2 (.inr (.inl (by decide))), fun h => ?_⟩
  exact absurd ((C83_cow x64_ok.toOk hel rfl (.inr rfl) (by decide) (2 ^ 62)).1 h) (by decide)

/-- `#[derive(Readable)] #[repr(align(8))] #[repr(C)] struct Empty {}`: primitive, aligned, of size zero. -/
def emptyA : Ty := .struct ⟨.c, 0, 8, [], true⟩ .nil

/-- **C83 is false** for `Cow<[T]>` of elements with an alignment and without a size: aligned elements give a panic, division by zero, others
are read. -/
theorem C83_false_empty :
    readFromBuffer x64 .little (.seq .cow emptyA) 4100 [1, 0, 0, 0] = .error (.panic .divByZero) ∧
      readFromBuffer x64 .little (.seq .cow emptyA) 4097 [1, 0, 0, 0] = .ok (.list [.unit]) := by
  decide

/-! ## Cases -/

section Cases
open Samples

example (base base' : Nat) (buf : Bytes) (hm : InMem x64 base buf) (hm' : InMem x64 base' buf) :
    readFromBuffer x64 .little (.pair (.seq .cow (.prim .u32)) (.str .ref)) base buf =
      readFromBuffer x64 .little (.pair (.seq .cow (.prim .u32)) (.str .ref)) base' buf :=
  C83_value_partial x64_ok (by decide) hm hm'

end Cases

end Verif
