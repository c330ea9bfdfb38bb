import Verif.GoodTy
import Verif.PropsAgree

/-!
# The two buffer readers side by side

`BufferReader` and `CopyingBufferReader` differ in one thing only: the first lends the bytes of its input.  Here
their runs are compared directly, without the detour through the grammar of Parse.lean, so that errors and
positions are compared too and types for which other readers disagree are covered.
-/

namespace Verif

/-- Two states of buffer readers with the same pending bytes, possibly at different addresses. -/
structure Beside (h : Host) (B : Nat) (s s' : BufSt) : Prop where
  left : s.Inv h
  right : s'.Inv h
  same : s.pend = s'.pend
  le : s.pend.length ≤ B

/-- A program has the same result with both readers and leaves the same bytes. -/
def Twin {α : Type} (h : Host) (B : Nat) (p : Prog α) : Prop :=
  ∀ s s', Beside h B s s' → (p.run (bufferReader h) s).1 = (p.run (copyingReader h) s').1 ∧
    Beside h B (p.run (bufferReader h) s).2 (p.run (copyingReader h) s').2

section
variable {α β : Type} {h : Host} {B : Nat}

theorem twin_ret (a : α) : Twin h B (.ret a) := fun _ _ hs => ⟨rfl, hs⟩

theorem twin_pure (a : α) : Twin h B (M.pure a) := twin_ret _

theorem twin_fail (er : Err) : Twin h B (M.fail er : M α) := twin_ret _

theorem twin_pbind {p : Prog α} {f : α → Prog β} (hp : Twin h B p) (hf : ∀ a, Twin h B (f a)) :
    Twin h B (p.bind f) := by
  intro s s' hs
  obtain ⟨h1, h2⟩ := hp s s' hs
  rw [Prog.run_bind, Prog.run_bind, h1]
  exact hf _ _ _ h2

/-- With a claim on the result of the first part. -/
theorem twin_bindV {μ : Mode} {m : Nat} {V : α → Prop} {p : M α} {f : α → M β} (hp : Twin h B p) (hμ : μ.exact = true)
    (hB : B ≤ μ.B) (hv : Good μ m V p) (hf : ∀ a, V a → Twin h B (f a)) : Twin h B (M.bind p f) := by
  intro s s' hs
  obtain ⟨h1, h2⟩ := hp s s' hs
  have h3 := (bufferReader_orderly h).run hs.left (hμ ▸ hv s.pend.length (Nat.le_trans hs.le hB))
  unfold M.bind
  rw [Prog.run_bind, Prog.run_bind, ← h1]
  rcases hr : (p.run (bufferReader h) s).1 with er | a
  · exact ⟨rfl, h2⟩
  · have h4 := h3.2.2.1
    rw [hr] at h4
    exact hf a h4.2.2 _ _ h2

theorem twin_bind {p : M α} {f : α → M β} (hp : Twin h B p) (hf : ∀ a, Twin h B (f a)) : Twin h B (M.bind p f) := by
  unfold M.bind
  refine twin_pbind hp fun r => ?_
  cases r with
  | error er => exact twin_ret _
  | ok a => exact hf a

theorem twin_map {p : M α} (f : α → β) (hp : Twin h B p) : Twin h B (M.map f p) :=
  twin_bind hp fun _ => twin_pure _

theorem twin_ite {c : Prop} [Decidable c] {p q : Prog α} (hp : c → Twin h B p) (hq : ¬ c → Twin h B q) :
    Twin h B (if c then p else q) := by
  split
  · exact hp ‹_›
  · exact hq ‹_›

theorem twin_onEof {p : M α} (hp : Twin h B p) (d : α) : Twin h B (onEof p d) := by
  unfold onEof
  refine twin_pbind hp fun r => ?_
  cases r with
  | error er => exact twin_ite (fun _ => twin_pure _) fun _ => twin_fail _
  | ok a => exact twin_pure _

theorem twin_read {n : Nat} {k : Except Err Bytes → Prog α} (hk : ∀ r, Twin h B (k r)) : Twin h B (.read n k) := by
  intro s s' hs
  show (((k (bufRead h n s).1).run _ (bufRead h n s).2).1 = ((k (bufRead h n s').1).run _ (bufRead h n s').2).1) ∧ 
    Beside h B ((k (bufRead h n s).1).run _ (bufRead h n s).2).2 ((k (bufRead h n s').1).run _ (bufRead h n s').2).2
  by_cases hn : n ≤ s.pend.length
  · obtain ⟨t, h1, h2, h3⟩ := bufRead_ok hs.left hn
    obtain ⟨t', h1', h2', h3'⟩ := bufRead_ok hs.right (hs.same ▸ hn)
    rw [h1, h1', ← hs.same]
    exact hk _ _ _ ⟨h2, h2', by rw [h3, h3', hs.same], by rw [h3, List.length_drop]; have := hs.le; omega⟩
  · rw [bufRead_err hs.left (Nat.lt_of_not_le hn), bufRead_err hs.right (hs.same ▸ Nat.lt_of_not_le hn)]
    exact hk _ _ _ hs

theorem twin_peek {n : Nat} {k : Except Err Bytes → Prog α} (hk : ∀ r, Twin h B (k r)) : Twin h B (.peek n k) := by
  intro s s' hs
  show (((k (bufPeek h n s).1).run _ (bufPeek h n s).2).1 = ((k (bufPeek h n s').1).run _ (bufPeek h n s').2).1) ∧ 
    Beside h B ((k (bufPeek h n s).1).run _ (bufPeek h n s).2).2 ((k (bufPeek h n s').1).run _ (bufPeek h n s').2).2
  by_cases hn : n ≤ s.pend.length
  · obtain ⟨t, h1, h2, h3⟩ := (bufferReader_lawful h).peek_ok n s hs.left hn
    obtain ⟨t', h1', h2', h3'⟩ := (bufferReader_lawful h).peek_ok n s' hs.right (hs.same ▸ hn)
    rw [show bufPeek h n s = _ from h1, show bufPeek h n s' = _ from h1', ← hs.same]
    exact hk _ _ _ ⟨h2, h2', by rw [h3, h3', hs.same], by rw [h3]; exact hs.le⟩
  · have he : ∀ t : BufSt, t.Inv h → ¬ n ≤ t.pend.length → bufPeek h n t = (.error .unexpectedEndOfInput, t) := by
      intro t ht hn
      unfold bufPeek
      rw [bufCanRead_eq ht]
      simp [hn]
    rw [he s hs.left hn, he s' hs.right (hs.same ▸ hn)]
    exact hk _ _ _ hs

theorem twin_canRead {n : Nat} {k : Option Bool → Prog α} (hk : ∀ r, Twin h B (k r)) : Twin h B (.canRead n k) := by
  intro s s' hs
  show (((k (bufCanRead h n s)).run _ s).1 = ((k (bufCanRead h n s')).run _ s').1) ∧ 
    Beside h B ((k (bufCanRead h n s)).run _ s).2 ((k (bufCanRead h n s')).run _ s').2
  rw [bufCanRead_eq hs.left, bufCanRead_eq hs.right, ← hs.same]
  exact hk _ _ _ hs

theorem twin_alloc {n m : Nat} {k : Prog α} (hk : Twin h B k) : Twin h B (.alloc n m k) := hk

/-- Both readers lend their bytes to `RawCopyIter`; its values do not depend on the address. -/
theorem twin_borrowR {n : Nat} {k : Option (Except Err (Nat × Bytes)) → Prog α} (hk : ∀ r, Twin h B (k r))
    (ha : ∀ a a' bs, k (some (.ok (a, bs))) = k (some (.ok (a', bs)))) : Twin h B (.borrowR n k) := by
  intro s s' hs
  show (((k (bufBorrow h n s).1).run _ (bufBorrow h n s).2).1 =
      ((k (bufBorrow h n s').1).run _ (bufBorrow h n s').2).1) ∧ 
    Beside h B ((k (bufBorrow h n s).1).run _ (bufBorrow h n s).2).2
      ((k (bufBorrow h n s').1).run _ (bufBorrow h n s').2).2
  rcases bufBorrow_cases hs.left n with ⟨hn, t, h1, h2, h3⟩ | ⟨hn, h1⟩
  · rcases bufBorrow_cases hs.right n with ⟨hn', t', h1', h2', h3'⟩ | ⟨hn', h1'⟩
    · rw [h1, h1', ← hs.same]
      simp only
      rw [ha s.ptr s'.ptr]
      exact hk _ _ _ ⟨h2, h2', by rw [h3, h3', hs.same], by rw [h3, List.length_drop]; have := hs.le; omega⟩
    · rw [hs.same] at hn; omega
  · rcases bufBorrow_cases hs.right n with ⟨hn', t', h1', h2', h3'⟩ | ⟨hn', h1'⟩
    · rw [hs.same] at hn; omega
    · rw [h1, h1']
      exact hk _ _ _ hs

theorem twin_repeatM {p : M α} (hp : Twin h B p) : ∀ n, Twin h B (repeatM n p)
  | 0 => twin_pure _
  | n + 1 => twin_bind hp fun _ => twin_bind (twin_repeatM hp n) fun _ => twin_pure _

theorem twin_readUntilEof {p : M Val} (hp : Twin h B p) : ∀ fuel, Twin h B (readUntilEof fuel p)
  | 0 => twin_fail _
  | n + 1 => by
    unfold readUntilEof
    refine twin_pbind hp fun r => ?_
    cases r with
    | ok v => exact twin_bind (twin_readUntilEof hp n) fun _ => twin_pure _
    | error er => exact twin_ite (fun _ => twin_pure _) fun _ => twin_fail _

theorem twin_readBytes (n : Nat) : Twin h B (readBytes n) := twin_read fun _ => twin_ret _

theorem twin_peekBytes (n : Nat) : Twin h B (peekBytes n) := twin_peek fun _ => twin_ret _

theorem twin_readNum (h' : Host) (e : Endian) (n : Nat) : Twin h B (readNum h' e n) := by
  refine twin_canRead fun r => twin_ite (fun _ => twin_fail _) fun _ => twin_read fun r => ?_
  cases r with
  | error er => exact twin_fail _
  | ok bs => exact twin_pure _

theorem twin_peekNum (h' : Host) (e : Endian) (n : Nat) : Twin h B (peekNum h' e n) := by
  refine twin_canRead fun r => twin_ite (fun _ => twin_fail _) fun _ => twin_peek fun r => ?_
  cases r with
  | error er => exact twin_fail _
  | ok bs => exact twin_pure _

theorem twin_readVarint (h' : Host) (e : Endian) : Twin h B (readVarint h' e) :=
  twin_bind (twin_readNum _ _ _) fun _ => twin_bind (twin_readBytes _) fun _ => twin_pure _

theorem twin_peekVarint (h' : Host) (e : Endian) : Twin h B (peekVarint h' e) :=
  twin_bind (twin_peekNum _ _ _) fun _ => twin_bind (twin_peekBytes _) fun _ => twin_pure _

theorem twin_readLen (h' : Host) (e : Endian) (lt : LenTy) : Twin h B (readLen h' e lt) := by
  cases lt <;> unfold readLen
  · exact twin_bind (twin_readNum _ _ _) fun _ => twin_ite (fun _ => twin_fail _) fun _ => twin_pure _
  · exact twin_readNum _ _ _
  · exact twin_readNum _ _ _
  · exact twin_readNum _ _ _
  · exact twin_bind (twin_readNum _ _ _) fun _ => twin_ite (fun _ => twin_fail _) fun _ => twin_pure _
  · exact twin_bind (twin_readVarint _ _) fun _ => twin_ite (fun _ => twin_fail _) fun _ => twin_pure _

/-- A length and what follows. -/
theorem twin_lenBind {e : Endian} (hh : h.Ok) {l : Lim} {lr : LenR} (hl : l.admits h lr) {f : Option Nat → M α}
    (hs : ∀ n, n ≤ l.bound → Twin h B (f (some n))) (hn : Twin h B (f none)) :
    Twin h B (M.bind (readLenR h e lr) f) := by
  have key : ∀ (lt : LenTy) {p : M Nat}, Twin h B p → Good ⟨B, true, false, false⟩ 0 (fun n => n ≤ lt.cap h) p →
      lt.cap h ≤ l.bound → Twin h B (M.bind (M.map some p) f) := by
    intro lt p hp hg hle
    refine twin_bindV (V := fun x => ∃ n, x = some n ∧ n ≤ l.bound) (twin_map _ hp) rfl (Nat.le_refl _)
      (good_map hg fun n hn => ⟨n, rfl, Nat.le_trans hn hle⟩) ?_
    rintro x ⟨n, rfl, hx⟩
    exact hs n hx
  cases lr with
  | typed lt d =>
    cases d with
    | false => exact key lt (twin_readLen _ _ _) ((good_readLen hh e lt).low (Nat.zero_le _)) hl
    | true => exact key lt (twin_onEof (twin_readLen _ _ _) 0) (good_onEof (good_readLen hh e lt) (Nat.zero_le _)) hl
  | fixed n => exact hs n hl
  | untilEof => exact hn

theorem twin_liftVals (el : Elem) (r : Except Panic (List Bytes)) : Twin h B (liftVals el r) := by
  cases r with
  | error p => exact twin_fail _
  | ok ms => exact twin_pure _

theorem twin_readVec (h' : Host) (e : Endian) {el : Elem} (hel : Twin h B el.read) (n : Nat) :
    Twin h B (readVec h' e el n) :=
  twin_ite (fun _ => twin_fail _) fun _ => twin_canRead fun _ => twin_ite (fun _ => twin_fail _) fun _ =>
    twin_ite (fun _ => twin_fail _) fun _ => twin_alloc (twin_ite
      (fun _ => twin_bind (twin_readBytes _) fun _ => twin_liftVals _ _) fun _ =>
        twin_ite (fun _ => twin_pure _) fun _ => twin_repeatM hel _)

theorem twin_readCollection (h' : Host) (e : Endian) {el : Elem} (hel : Twin h B el.read) (n : Nat) :
    Twin h B (readCollection h' e el n) := by
  refine twin_ite (fun _ => twin_ite (fun _ => twin_fail _) fun _ => twin_borrowR (fun r => ?_) fun _ _ _ => rfl)
    fun _ => twin_repeatM hel _
  rcases r with _ | er | ⟨a, bs⟩
  · exact twin_repeatM hel _
  · exact twin_fail _
  · exact twin_ite (fun _ => twin_fail _) fun _ => twin_pure _

theorem twin_readPair {ek ev : Elem} (hk : Twin h B ek.read) (hv : Twin h B ev.read) : Twin h B (readPair ek ev) :=
  twin_bind hk fun _ => twin_bind hv fun _ => twin_pure _

theorem twin_readKV (h' : Host) (e : Endian) {ek ev : Elem} (hk : Twin h B ek.read) (hv : Twin h B ev.read) (n : Nat) :
    Twin h B (readKV h' e ek ev n) := by
  have hp := twin_repeatM (twin_readPair hk hv) n
  refine twin_ite (fun _ => twin_ite (fun _ => twin_fail _) fun _ => twin_borrowR (fun r => ?_) fun _ _ _ => rfl)
    fun _ => hp
  rcases r with _ | er | ⟨a, bs⟩
  · exact hp
  · exact twin_fail _
  · exact twin_ite (fun _ => twin_fail _) fun _ => twin_pure _

theorem twin_durationNew (a b : Nat) : Twin h B (durationNew a b) :=
  twin_ite (fun _ => twin_pure _) fun _ => twin_fail _

theorem twin_readDuration (h' : Host) (e : Endian) : Twin h B (readDuration h' e) :=
  twin_bind (twin_readNum _ _ _) fun _ => twin_bind (twin_readNum _ _ _) fun _ => twin_durationNew _ _

theorem twin_readIpv6 (h' : Host) (e : Endian) : Twin h B (readIpv6 h' e) := twin_map _ (twin_readBytes _)

theorem twin_readBool (h' : Host) (e : Endian) : Twin h B (readBool h' e) := twin_map _ (twin_readNum _ _ _)

theorem twin_convert (c : Conv) (v : Val) : Twin h B (convert c v) := by
  unfold convert
  cases c.apply v with
  | ok w => exact twin_pure _
  | error er => exact twin_fail _

theorem twin_asStr (bs : Bytes) : Twin h B (asStr bs) := twin_ite (fun _ => twin_pure _) fun _ => twin_fail _

theorem twin_readTag (h' : Host) (e : Endian) (d : EnumDesc) : Twin h B (readTag h' e d) := by
  obtain ⟨lt, pk⟩ := d
  cases pk <;> cases lt
  case false.varint => exact twin_readVarint _ _
  case true.varint => exact twin_peekVarint _ _
  case false.u7 | false.u8 | false.u16 | false.u32 | false.u64 => exact twin_readNum _ _ _
  all_goals exact twin_peekNum _ _ _

end

/-! ## Bytes which only the first reader lends -/

section
variable {h : Host} {B : Nat}

/-- A bulk copy of primitive elements by the second reader. -/
theorem vec_prim_run (hh : h.Ok) (hB : B ≤ h.isizeMax) {e : Endian} {el : Elem} (hp : el.prim = true)
    (hm : el.min = el.size) {n : Nat} {s : BufSt} (hs : s.Inv h) (hle : s.pend.length ≤ B) :
    (n * el.size ≤ s.pend.length ∧ ∃ s', (readVec h e el n).run (copyingReader h) s =
        (match convSlice h e el (chunks el.size n (s.pend.take (n * el.size))) with
          | .ok ms => .ok (ms.map el.ofMem)
          | .error p => .error (.panic p), s') ∧ s'.Inv h ∧ s'.pend = s.pend.drop (n * el.size)) ∨
    (s.pend.length < n * el.size ∧
      (readVec h e el n).run (copyingReader h) s = (.error .unexpectedEndOfInput, s)) := by
  have hi := hh.isize
  have hc : el.min * n = n * el.size := by rw [hm, Nat.mul_comm]
  by_cases hn : n * el.size ≤ s.pend.length
  · left
    refine ⟨hn, ?_⟩
    obtain ⟨t, h1, h2, h3⟩ := bufRead_ok hs hn
    refine ⟨t, ?_, h2, h3⟩
    unfold readVec
    rw [hc, if_neg (by omega)]
    show Prog.run (copyingReader h) (if bufCanRead h (n * el.size) s = some false then _ else _) s = _
    rw [bufCanRead_eq hs, if_neg (by simp [hn]), if_neg (by omega), hp, if_pos rfl]
    show Prog.run (copyingReader h) (M.bind (readBytes (n * el.size)) _) s = _
    rw [M.run_bind_ok (s' := t) (a := s.pend.take (n * el.size))
      (show (readBytes (n * el.size)).run (copyingReader h) s = _ from h1)]
    cases convSlice h e el (chunks el.size n (s.pend.take (n * el.size))) <;> rfl
  · right
    refine ⟨Nat.lt_of_not_le hn, ?_⟩
    unfold readVec
    rw [hc]
    by_cases hu : n * el.size > h.usizeMax
    · rw [if_pos hu]; rfl
    · rw [if_neg hu]
      show Prog.run (copyingReader h) (if bufCanRead h (n * el.size) s = some false then _ else _) s = _
      rw [bufCanRead_eq hs, if_pos (by simp [hn])]
      rfl

/-- What `Cow<[T]>` needs of a primitive element type. -/
structure CowElem (h : Host) (e : Endian) (el : Elem) (n : Nat) : Prop where
  pos : el.size ≠ 0
  min : el.min = el.size
  fits : n * el.size ≤ h.usizeMax
  same : ∀ L : List Bytes, (∀ m ∈ L, m.length = el.size) →
    ∃ L', convSlice h e el L = .ok L' ∧ L'.map el.ofMem = L.map el.ofMem

theorem wmul_fits {n k : Nat} (hf : n * k ≤ h.usizeMax) : wmul h n k = n * k :=
  Nat.mod_eq_of_lt (Nat.lt_succ_of_le hf)

/-- `Cow` slices: borrowed, copied because of their alignment, or read. -/
theorem twin_readCow (hh : h.Ok) (hB : B ≤ h.isizeMax) {e : Endian} {el : Elem} (hel : Twin h B el.read) {n : Nat}
    (hc : el.prim = true → (el.size = 1 ∨ e.conv h = false) → CowElem h e el n) :
    Twin h B (M.map CowVal.vals (readCow h e el n)) := by
  unfold readCow
  by_cases hp : (el.prim && (el.size == 1 || !e.conv h)) = true
  · rw [if_pos hp]
    simp only [Bool.and_eq_true, Bool.or_eq_true, beq_iff_eq, Bool.not_eq_true'] at hp
    obtain ⟨h0, h1, h2, h3⟩ := hc hp.1 hp.2
    rw [wmul_fits h2]
    intro s s' hs
    have hi := hh.isize
    have hlen : ∀ {bs : Bytes}, n * el.size ≤ bs.length → (bs.take (n * el.size)).length = n * el.size := by
      intro bs hb; rw [List.length_take]; omega
    have hrun : ∀ {r : Except Err CowVal} {p : M CowVal} {σ : Type} {R : ReaderOps σ} {u u' : σ},
        p.run R u = (r, u') → (M.map CowVal.vals p).run R u = (r.map CowVal.vals, u') := by
      intro r p σ R u u' hq
      unfold M.map
      cases r with
      | error er => rw [M.run_bind_err hq]; rfl
      | ok c => rw [M.run_bind_ok hq]; rfl
    rcases vec_prim_run hh hB (e := e) hp.1 h1 (n := n) hs.right (hs.same ▸ hs.le) with
      ⟨hn, t, hv, ht, hd⟩ | ⟨hn, hv⟩
    · obtain ⟨L', hL, hL'⟩ := h3 _ (chunks_mem (Nat.le_of_eq (hlen hn).symm))
      rw [hL] at hv
      rcases bufBorrow_cases hs.left (n * el.size) with ⟨hn', t', hb, hi', hd'⟩ | ⟨hn', _⟩
      · have hbes : Beside h B t' t := ⟨hi', ht, by rw [hd, hd', hs.same], by
          rw [hd', List.length_drop]; have := hs.le; omega⟩
        rw [hrun (p := .borrow _ _) (R := copyingReader h) (u' := t) (r := .ok (.owned (L'.map el.ofMem))) ?_]
        rotate_left
        · show (M.map CowVal.owned (readVec h e el n)).run (copyingReader h) s' = _
          unfold M.map; rw [M.run_bind_ok hv]; rfl
        have hle : ¬ n * el.size > h.isizeMax := by have := hs.le; omega
        have hdiv : n * el.size / el.size = n := Nat.mul_div_cancel _ (Nat.pos_of_ne_zero h0)
        by_cases ha : (el.align == 1 || s.ptr % el.align == 0) = true
        · rw [hrun (p := .borrow _ _) (R := bufferReader h) (u' := t')
            (r := .ok (.borrowed s.ptr (s.pend.take (n * el.size))
              ((chunks el.size n (s.pend.take (n * el.size))).map el.ofMem))) ?_]
          · refine ⟨?_, hbes⟩
            show Except.ok _ = Except.ok _
            rw [show (CowVal.owned (L'.map el.ofMem)).vals = _ from hL', ← hs.same]; rfl
          · show Prog.run _ (match (bufBorrow h (n * el.size) s).1 with
              | some (.error er) => _ | some (.ok (addr, bs)) => _ | none => _) (bufBorrow h (n * el.size) s).2 = _
            rw [hb]
            simp only [hlen hn', ne_eq, not_true, if_false, ha, if_true, h0, hdiv]
            rfl
        · rw [hrun (p := .borrow _ _) (R := bufferReader h) (u' := t')
            (r := .ok (.owned ((chunks el.size n (s.pend.take (n * el.size))).map el.ofMem))) ?_]
          · refine ⟨?_, hbes⟩
            show Except.ok _ = Except.ok _
            rw [show (CowVal.owned (L'.map el.ofMem)).vals = _ from hL', ← hs.same]; rfl
          · show Prog.run _ (match (bufBorrow h (n * el.size) s).1 with
              | some (.error er) => _ | some (.ok (addr, bs)) => _ | none => _) (bufBorrow h (n * el.size) s).2 = _
            rw [hb]
            simp only [hlen hn', ne_eq, not_true, if_false, ha, hle]
            rfl
      · rw [hs.same] at hn'; omega
    · rcases bufBorrow_cases hs.left (n * el.size) with ⟨hn', _⟩ | ⟨hn', hb⟩
      · rw [hs.same] at hn'; omega
      · rw [hrun (p := .borrow _ _) (R := copyingReader h) (u' := s') (r := .error .unexpectedEndOfInput) ?_]
        rotate_left
        · show (M.map CowVal.owned (readVec h e el n)).run (copyingReader h) s' = _
          unfold M.map; rw [M.run_bind_err hv]
        rw [hrun (p := .borrow _ _) (R := bufferReader h) (u' := s) (r := .error .unexpectedEndOfInput) ?_]
        · exact ⟨rfl, hs⟩
        · show Prog.run _ (match (bufBorrow h (n * el.size) s).1 with
            | some (.error er) => _ | some (.ok (addr, bs)) => _ | none => _) (bufBorrow h (n * el.size) s).2 = _
          rw [hb]
          rfl
  · rw [if_neg hp]
    exact twin_map _ (twin_map _ (twin_readVec _ _ hel _))

/-- Uses of a `Cow` which only look at the elements. -/
theorem twin_cowBind {α : Type} {p : M CowVal} (hp : Twin h B (M.map CowVal.vals p)) {f : List Val → M α}
    (hf : ∀ vs, Twin h B (f vs)) : Twin h B (M.bind p fun c => f c.vals) := by
  intro s s' hs
  have := twin_bind hp hf s s' hs
  rwa [run_bind_map, run_bind_map] at this

theorem twin_u8 {T : Target} {e : Endian} : Twin h B (u8Elem T e).read := twin_map _ (twin_readNum _ _ _)

end

section
variable {T : Target} {e : Endian} {B : Nat}

theorem cowElem {t : Ty} {rd : M Val} {n : Nat} (hl : layoutOk T t = true) (hp : isPrimitive T t = true)
    (he : sizeOf T t = 1 ∨ e.conv T.toHost = false) (h0 : sizeOf T t ≠ 0) (hb : bulkOk T e t = true)
    (hf : n * sizeOf T t ≤ T.usizeMax) : CowElem T.toHost e (elemOf T t rd) n where
  pos := h0
  min := minBytes_prim t hp hl (by
    simp only [bulkOk, Bool.and_eq_true] at hb
    exact hb.1)
  fits := hf
  same L hL := by
    obtain ⟨L', h1, h2⟩ := bulk_vals (rd := rd) hp hl hb L hL
    exact ⟨L', h1, h2.trans (native_vals hp hl he L hL).symm⟩

theorem cowElem_u8 {n : Nat} (hn : n ≤ T.usizeMax) : CowElem T.toHost e (u8Elem T e) n :=
  cowElem (t := .prim .u8) rfl rfl (Or.inl rfl) (by show (1 : Nat) ≠ 0; decide) (by simp [bulkOk, bulkPlain, convOk]) (by
    show n * 1 ≤ _; omega)

/-- Constants, compared in place or after reading them. -/
theorem twin_readConstant (hT : T.Ok) (hB : B ≤ T.isizeMax) (c : Bytes) :
    Twin T.toHost B (readConstant T.toHost e (u8Elem T e) c) := by
  have hinj : ∀ bs : Bytes, (bs.map fun b => Val.num b.toNat) = (c.map fun b => .num b.toNat) ↔ bs = c := by
    intro bs
    constructor
    · intro h
      have := congrArg toBytes h
      rwa [toBytes_num, toBytes_num] at this
    · rintro rfl; rfl
  intro s s' hs
  have hu := (cowElem_u8 (T := T) (e := e) (n := 0) (Nat.zero_le _)).same
  have hsz : (u8Elem T e).size = 1 := rfl
  unfold readConstant
  rcases vec_prim_run hT.toOk hB (e := e) (el := u8Elem T e) rfl rfl (n := c.length) hs.right (hs.same ▸ hs.le) with
    ⟨hn, t, hv, ht, hd⟩ | ⟨hn, hv⟩
  · rw [hsz, Nat.mul_one] at hn hv hd
    have hlen : (s'.pend.take c.length).length = c.length := by rw [List.length_take]; omega
    obtain ⟨L', hL, hL'⟩ := hu (chunks 1 c.length (s'.pend.take c.length))
      (chunks_mem (Nat.le_of_eq (by rw [hlen, Nat.mul_one])))
    rw [hL] at hv
    have hvals : L'.map (u8Elem T e).ofMem = (s'.pend.take c.length).map fun b => Val.num b.toNat := by
      rw [hL', show (u8Elem T e).ofMem = ofMem T (.prim .u8) from rfl,
        native_vals (T := T) (e := e) (t := .prim .u8) rfl rfl (.inl rfl) (chunks 1 c.length (s'.pend.take c.length))
          (chunks_mem (Nat.le_of_eq (by rw [hlen]; exact Nat.mul_one _))),
        chunks_u8 c.length _ (Nat.le_of_eq hlen.symm), List.take_take, Nat.min_self]
    rcases bufBorrow_cases hs.left c.length with ⟨hn', t', hb, hi', hd'⟩ | ⟨hn', _⟩
    · have hbes : Beside T.toHost B t' t := ⟨hi', ht, by rw [hd, hd', hs.same], by
        rw [hd', List.length_drop]; have := hs.le; omega⟩
      have hl : ∀ k, (Prog.borrow c.length k : M Unit).run (bufferReader T.toHost) s =
          (k (some (.ok (s.ptr, s.pend.take c.length)))).run (bufferReader T.toHost) t' := by
        intro k
        show Prog.run _ (k (bufBorrow T.toHost c.length s).1) (bufBorrow T.toHost c.length s).2 = _
        rw [hb]
      have hr : ∀ k, (Prog.borrow c.length k : M Unit).run (copyingReader T.toHost) s' =
          (k none).run (copyingReader T.toHost) s' := fun k => rfl
      rw [hl, hr, M.run_bind_ok hv, hvals, ← hs.same]
      simp only [hinj]
      split
      · exact ⟨rfl, hbes⟩
      · exact ⟨rfl, hbes⟩
    · rw [hs.same] at hn'; omega
  · rw [hsz, Nat.mul_one] at hn
    rcases bufBorrow_cases hs.left c.length with ⟨hn', _⟩ | ⟨hn', hb⟩
    · rw [hs.same] at hn'; omega
    · have hl : ∀ k, (Prog.borrow c.length k : M Unit).run (bufferReader T.toHost) s =
          (k (some (.error .unexpectedEndOfInput))).run (bufferReader T.toHost) s := by
        intro k
        show Prog.run _ (k (bufBorrow T.toHost c.length s).1) (bufBorrow T.toHost c.length s).2 = _
        rw [hb]
      have hr : ∀ k, (Prog.borrow c.length k : M Unit).run (copyingReader T.toHost) s' =
          (k none).run (copyingReader T.toHost) s' := fun k => rfl
      rw [hl, hr, M.run_bind_err hv]
      exact ⟨rfl, hs⟩

theorem twin_readStr (hT : T.Ok) (hB : B ≤ T.isizeMax) {k : StrKind} (hk : k ≠ .ref) {n : Nat} (hn : n ≤ T.usizeMax) :
    Twin T.toHost B (readStr T e k (some n)) := by
  cases k with
  | owned => exact twin_bind (twin_readVec _ _ twin_u8 _) fun _ => twin_asStr _
  | cow =>
    exact twin_cowBind (twin_readCow hT.toOk hB twin_u8 fun _ _ => cowElem_u8 hn) fun vs => twin_asStr (toBytes vs)
  | ref => exact absurd rfl hk

theorem twin_readStr_rest {k : StrKind} (hk : k ≠ .ref) : Twin T.toHost B (readStr T e k none) := by
  cases k with
  | owned => exact twin_bind (twin_readUntilEof twin_u8 _) fun _ => twin_asStr _
  | cow => exact twin_bind (twin_readUntilEof twin_u8 _) fun _ => twin_asStr _
  | ref => exact absurd rfl hk

theorem twin_readArray {inl : Bool} {el : Elem} (hel : Twin T.toHost B el.read) (n : Nat) :
    Twin T.toHost B (readArray T e inl el n) :=
  twin_ite (fun _ => twin_bind (twin_readBytes _) fun _ => twin_map _ (twin_liftVals _ _)) fun _ =>
    twin_map _ (twin_repeatM hel _)

end

/-! ## All types -/

mutual
/-- The elements of `Cow<[T]>` can be lent to it: `T` is not copied at all, or it is a primitive type which has a
size and no attributes inside `repr(transparent)` structs, and `length * size_of` does not wrap. -/
def lendable (T : Target) (e : Endian) : Lim → Ty → Bool
  | l, .seq k t => (!(k == .cow && isPrimitive T t && (sizeOf T t == 1 || !e.conv T.toHost)) ||
        (sizeOf T t != 0 && bulkOk T e t && decide (l.bound * sizeOf T t ≤ T.usizeMax))) &&
      lendable T e (Lim.std T.toHost) t
  | _, .set t | _, .array _ t | _, .refArray _ t | _, .range t | _, .rangeInc t | _, .box t | _, .via _ t =>
      lendable T e (Lim.std T.toHost) t
  | _, .map k v | _, .result k v | _, .pair k v =>
      lendable T e (Lim.std T.toHost) k && lendable T e (Lim.std T.toHost) v
  | l, .option t => lendable T e (l.opt T.toHost t) t
  | _, .struct _ fs => lendableFields T e fs
  | _, .enum _ vs => lendableVariants T e vs
  | _, _ => true
/-- Fields. -/
def lendableFields (T : Target) (e : Endian) : Fields → Bool
  | .nil => true
  | .cons a t fs => lendable T e (a.lim T.toHost) t && lendableFields T e fs
/-- Variants. -/
def lendableVariants (T : Target) (e : Endian) : Variants → Bool
  | .nil => true
  | .cons _ fs vs => lendableFields T e fs && lendableVariants T e vs
end

section
variable {T : Target} (hT : T.Ok) {e : Endian} {B : Nat} (hB : B ≤ T.isizeMax)
include hT hB

mutual
/-- Reading any type without references. -/
theorem decode_twin : ∀ (t : Ty) (cx : Cx) (l : Lim), layoutOk T t = true → noRefs t = true →
    l.admits T.toHost cx.len → l.bound ≤ T.usizeMax → lendable T e l t = true → Twin T.toHost B (decode T e t cx)
  | .prim p, _, _, _, _, _, _, _ => by unfold decode; exact twin_map _ (twin_readNum _ _ _)
  | .usize, _, _, _, _, _, _, _ => by
    unfold decode; exact twin_bind (twin_readNum _ _ _) fun _ => twin_ite (fun _ => twin_fail _) fun _ => twin_pure _
  | .bool, _, _, _, _, _, _, _ => by unfold decode; exact twin_map _ (twin_readBool _ _)
  | .char, _, _, _, _, _, _, _ => by
    unfold decode; exact twin_bind (twin_readNum _ _ _) fun _ => twin_ite (fun _ => twin_pure _) fun _ => twin_fail _
  | .nonZero p, _, _, _, _, _, _, _ => by
    unfold decode; exact twin_bind (twin_readNum _ _ _) fun _ => twin_ite (fun _ => twin_fail _) fun _ => twin_pure _
  | .atomic p, _, _, _, _, _, _, _ => by unfold decode; exact twin_map _ (twin_readNum _ _ _)
  | .ipv4, _, _, _, _, _, _, _ => by unfold decode; exact twin_map _ (twin_readNum _ _ _)
  | .ipv6, _, _, _, _, _, _, _ => by unfold decode; exact twin_readIpv6 _ _
  | .ipAddr, _, _, _, _, _, _, _ => by
    unfold decode
    exact twin_bind (twin_readNum _ _ _) fun _ => twin_ite (fun _ => twin_map _ (twin_readNum _ _ _)) fun _ =>
      twin_ite (fun _ => twin_map _ (twin_readIpv6 _ _)) fun _ => twin_fail _
  | .duration, _, _, _, _, _, _, _ => by unfold decode; exact twin_map _ (twin_readDuration _ _)
  | .systemTime, _, _, _, _, _, _, _ => by
    unfold decode
    exact twin_bind (twin_readDuration _ _) fun _ => twin_ite (fun _ => twin_pure _) fun _ => twin_fail _
  | .endianness, _, _, _, _, _, _, _ => by
    unfold decode
    exact twin_bind (twin_readNum _ _ _) fun _ => twin_ite (fun _ => twin_pure _) fun _ =>
      twin_ite (fun _ => twin_pure _) fun _ => twin_fail _
  | .varint64, _, _, _, _, _, _, _ => by unfold decode; exact twin_map _ (twin_readVarint _ _)
  | .uuid, _, _, _, _, _, _, _ => by unfold decode; exact twin_map _ (twin_readBytes _)
  | .unit, _, _, _, _, _, _, _ => by unfold decode; exact twin_pure _
  | .str k, cx, l, _, hn, ha, hb, _ => by
    unfold decode
    have hk : k ≠ .ref := by simpa [noRefs] using hn
    exact twin_lenBind hT.toOk ha (fun n hn => twin_readStr hT hB hk (Nat.le_trans hn hb)) (twin_readStr_rest hk)
  | .seq k t, cx, l, hl, hn, ha, hb, hc => by
    unfold decode
    simp only [layoutOk] at hl
    simp only [noRefs, Bool.and_eq_true, bne_iff_ne] at hn
    simp only [lendable, Bool.and_eq_true] at hc
    have ih : Twin T.toHost B (elemOf T t (decode T e t Cx.std)).read :=
      decode_twin t Cx.std (Lim.std T.toHost) hl hn.2 (std_admits _) (LenTy.cap_le _ _) hc.2
    refine twin_ite (fun _ => twin_fail _) fun _ => twin_lenBind hT.toOk ha (fun n hle => ?_) ?_
    · cases k with
      | vec => exact twin_map _ (twin_readVec _ _ ih _)
      | cow =>
        refine twin_cowBind (twin_readCow hT.toOk hB ih fun hp he => ?_) fun vs => twin_pure (Val.list vs)
        have h1 := hc.1
        have hp' : isPrimitive T t = true := hp
        have he' : (sizeOf T t == 1 || !e.conv T.toHost) = true := by
          rcases he with he | he
          · have : sizeOf T t = 1 := he
            simp [this]
          · simp [he]
        simp only [hp', he', beq_self_eq_true, Bool.and_self, Bool.not_true, Bool.false_or, Bool.and_eq_true, bne_iff_ne,
          decide_eq_true_eq] at h1
        exact cowElem hl hp he h1.1.1 h1.1.2 (Nat.le_trans (Nat.mul_le_mul_right _ hle) h1.2)
      | ref => exact absurd rfl hn.1
    · cases k with
      | vec => exact twin_map _ (twin_readUntilEof ih _)
      | cow => exact twin_map _ (twin_readUntilEof ih _)
      | ref => exact absurd rfl hn.1
  | .set t, cx, l, hl, hn, ha, hb, hc => by
    unfold decode
    simp only [layoutOk] at hl
    simp only [noRefs] at hn
    simp only [lendable] at hc
    have ih : Twin T.toHost B (elemOf T t (decode T e t Cx.std)).read :=
      decode_twin t Cx.std (Lim.std T.toHost) hl hn (std_admits _) (LenTy.cap_le _ _) hc
    exact twin_lenBind hT.toOk ha (fun n hle => twin_map _ (twin_readCollection _ _ ih _))
      (twin_map _ (twin_readUntilEof ih _))
  | .map k v, cx, l, hl, hn, ha, hb, hc => by
    unfold decode
    simp only [layoutOk, Bool.and_eq_true] at hl
    simp only [noRefs, Bool.and_eq_true] at hn
    simp only [lendable, Bool.and_eq_true] at hc
    have ih1 : Twin T.toHost B (elemOf T k (decode T e k Cx.std)).read :=
      decode_twin k Cx.std (Lim.std T.toHost) hl.1 hn.1 (std_admits _) (LenTy.cap_le _ _) hc.1
    have ih2 : Twin T.toHost B (elemOf T v (decode T e v Cx.std)).read :=
      decode_twin v Cx.std (Lim.std T.toHost) hl.2 hn.2 (std_admits _) (LenTy.cap_le _ _) hc.2
    exact twin_lenBind hT.toOk ha (fun n hle => twin_map _ (twin_readKV _ _ ih1 ih2 _))
      (twin_map _ (twin_readUntilEof (twin_readPair ih1 ih2) _))
  | .array n t, cx, l, hl, hn, ha, hb, hc => by
    unfold decode
    simp only [layoutOk] at hl
    simp only [noRefs] at hn
    simp only [lendable] at hc
    exact twin_readArray (decode_twin t Cx.std (Lim.std T.toHost) hl hn (std_admits _) (LenTy.cap_le _ _) hc) n
  | .refArray n t, _, _, _, hn, _, _, _ => by simp [noRefs] at hn
  | .option t, cx, l, hl, hn, ha, hb, hc => by
    unfold decode
    simp only [layoutOk] at hl
    simp only [noRefs] at hn
    simp only [lendable] at hc
    exact twin_bind (twin_readBool _ _) fun _ => twin_ite (fun _ => twin_map _
      (decode_twin t _ _ hl hn (Lim.admits_opt ha t) (Lim.opt_le hb t) hc)) fun _ => twin_pure _
  | .result t er, cx, l, hl, hn, ha, hb, hc => by
    unfold decode
    simp only [layoutOk, Bool.and_eq_true] at hl
    simp only [noRefs, Bool.and_eq_true] at hn
    simp only [lendable, Bool.and_eq_true] at hc
    exact twin_bind (twin_readBool _ _) fun _ => twin_ite
      (fun _ => twin_map _ (decode_twin t Cx.std (Lim.std T.toHost) hl.1 hn.1 (std_admits _) (LenTy.cap_le _ _) hc.1))
      fun _ => twin_map _ (decode_twin er Cx.std (Lim.std T.toHost) hl.2 hn.2 (std_admits _) (LenTy.cap_le _ _) hc.2)
  | .range t, cx, l, hl, hn, ha, hb, hc => by
    unfold decode
    simp only [layoutOk] at hl
    simp only [noRefs] at hn
    simp only [lendable] at hc
    have ih := decode_twin t Cx.std (Lim.std T.toHost) hl hn (std_admits _) (LenTy.cap_le _ _) hc
    exact twin_bind ih fun _ => twin_bind ih fun _ => twin_pure _
  | .rangeInc t, cx, l, hl, hn, ha, hb, hc => by
    unfold decode
    simp only [layoutOk] at hl
    simp only [noRefs] at hn
    simp only [lendable] at hc
    have ih := decode_twin t Cx.std (Lim.std T.toHost) hl hn (std_admits _) (LenTy.cap_le _ _) hc
    exact twin_bind ih fun _ => twin_bind ih fun _ => twin_pure _
  | .pair a b, cx, l, hl, hn, ha, hb, hc => by
    unfold decode
    simp only [layoutOk, Bool.and_eq_true] at hl
    simp only [noRefs, Bool.and_eq_true] at hn
    simp only [lendable, Bool.and_eq_true] at hc
    exact twin_bind (decode_twin a Cx.std (Lim.std T.toHost) hl.1 hn.1 (std_admits _) (LenTy.cap_le _ _) hc.1) fun _ =>
      twin_bind (decode_twin b Cx.std (Lim.std T.toHost) hl.2 hn.2 (std_admits _) (LenTy.cap_le _ _) hc.2) fun _ =>
        twin_pure _
  | .box t, cx, l, hl, hn, ha, hb, hc => by
    unfold decode
    simp only [layoutOk] at hl
    simp only [noRefs] at hn
    simp only [lendable] at hc
    exact decode_twin t Cx.std (Lim.std T.toHost) hl hn (std_admits _) (LenTy.cap_le _ _) hc
  | .via c t, cx, l, hl, hn, ha, hb, hc => by
    unfold decode
    simp only [layoutOk] at hl
    simp only [noRefs] at hn
    simp only [lendable] at hc
    exact twin_bind (decode_twin t Cx.std (Lim.std T.toHost) hl hn (std_admits _) (LenTy.cap_le _ _) hc) fun _ => twin_convert _ _
  | .struct d fs, cx, l, hl, hn, ha, hb, hc => by
    unfold decode
    simp only [layoutOk, Bool.and_eq_true] at hl
    simp only [noRefs] at hn
    simp only [lendable] at hc
    exact decodeFields_twin fs [] hl.2 hn hc
  | .enum d vs, cx, l, hl, hn, ha, hb, hc => by
    unfold decode
    simp only [layoutOk] at hl
    simp only [noRefs] at hn
    simp only [lendable] at hc
    exact twin_bind (twin_readTag _ _ _) fun tag => decodeVariants_twin vs tag 0 hl hn hc
theorem decodeFields_twin : ∀ (fs : Fields) (prev : List Val), layoutOkFields T fs = true → noRefsFields fs = true →
    lendableFields T e fs = true → Twin T.toHost B (decodeFields T e fs prev)
  | .nil, _, _, _, _ => by unfold decodeFields; exact twin_pure _
  | .cons a t fs, prev, hl, hn, hc => by
    unfold decodeFields
    simp only [layoutOkFields, Bool.and_eq_true] at hl
    simp only [noRefsFields, Bool.and_eq_true] at hn
    simp only [lendableFields, Bool.and_eq_true] at hc
    have h1 : Twin T.toHost B
        (if a.varint then M.map .num (readVarint T.toHost e) else decode T e t (a.cx T.toHost prev)) :=
      twin_ite (fun _ => twin_map _ (twin_readVarint _ _)) fun _ =>
        decode_twin t _ (a.lim T.toHost) hl.1 hn.1 (Attrs.lim_admits _ _) (Attrs.lim_le _ _) hc.1
    have h2 : Twin T.toHost B (if a.pre.isEmpty then
        (if a.varint then M.map .num (readVarint T.toHost e) else decode T e t (a.cx T.toHost prev))
        else M.bind (readConstant T.toHost e (u8Elem T e) a.pre) fun _ =>
          (if a.varint then M.map .num (readVarint T.toHost e) else decode T e t (a.cx T.toHost prev))) :=
      twin_ite (fun _ => h1) fun _ => twin_bind (twin_readConstant hT hB _) fun _ => h1
    refine twin_ite (fun _ => twin_map _ (decodeFields_twin fs prev hl.2 hn.2 hc.2)) fun _ => ?_
    exact twin_bind (twin_ite (fun _ => twin_onEof h2 _) fun _ => h2) fun v =>
      twin_map _ (decodeFields_twin fs _ hl.2 hn.2 hc.2)
theorem decodeVariants_twin : ∀ (vs : Variants) (tag i : Nat), layoutOkVariants T vs = true →
    noRefsVariants vs = true → lendableVariants T e vs = true → Twin T.toHost B (decodeVariants T e vs tag i)
  | .nil, _, _, _, _, _ => by unfold decodeVariants; exact twin_fail _
  | .cons tag' fs vs, tag, i, hl, hn, hc => by
    unfold decodeVariants
    simp only [layoutOkVariants, Bool.and_eq_true] at hl
    simp only [noRefsVariants, Bool.and_eq_true] at hn
    simp only [lendableVariants, Bool.and_eq_true] at hc
    exact twin_ite (fun _ => twin_map _ (decodeFields_twin fs [] hl.1 hn.1 hc.1)) fun _ =>
      decodeVariants_twin vs tag (i + 1) hl.2 hn.2 hc.2
end
end

end Verif
