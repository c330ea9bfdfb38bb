import Verif.StrictTy
import Verif.PropsReader

/-!
# Programs which do not peek; invariants of the source of a stream

Reading a type without `peek_tag` never calls `peek_bytes`.  An unbuffered
stream reader then keeps no bytes, and is not affected by interruptions.
-/

namespace Verif

/-- The program does not peek. -/
def Prog.NoPeek {α : Type} : Prog α → Prop
  | .ret _ => True
  | .read _ k => ∀ r, (k r).NoPeek
  | .peek _ _ => False
  | .skip _ k => ∀ r, (k r).NoPeek
  | .canRead _ k => ∀ r, (k r).NoPeek
  | .borrow _ k => ∀ r, (k r).NoPeek
  | .borrowR _ k => ∀ r, (k r).NoPeek
  | .borrowEof k => ∀ r, (k r).NoPeek
  | .alloc _ _ k => k.NoPeek

namespace Prog.NoPeek

theorem bind' {α β : Type} {p : Prog α} {f : α → Prog β} (hp : p.NoPeek) (hf : ∀ a, (f a).NoPeek) :
    (p.bind f).NoPeek := by
  induction p with
  | ret a => exact hf a
  | read n k ih => exact fun r => ih r (hp r)
  | peek n k => exact hp.elim
  | skip n k ih => exact fun r => ih r (hp r)
  | canRead n k ih => exact fun r => ih r (hp r)
  | borrow n k ih => exact fun r => ih r (hp r)
  | borrowR n k ih => exact fun r => ih r (hp r)
  | borrowEof k ih => exact fun r => ih r (hp r)
  | alloc n m k ih => exact ih hp

theorem bind {α β : Type} {p : M α} {f : α → M β} (hp : p.NoPeek) (hf : ∀ a, (f a).NoPeek) :
    (M.bind p f).NoPeek := bind' hp fun r => by cases r with
  | ok a => exact hf a
  | error e => trivial

theorem map {α β : Type} {p : M α} {f : α → β} (hp : p.NoPeek) : (M.map f p).NoPeek := bind hp fun _ => trivial

theorem ite {α : Type} {c : Prop} [Decidable c] {p q : M α} (hp : p.NoPeek) (hq : q.NoPeek) :
    (if c then p else q : M α).NoPeek := by split <;> assumption

theorem pure {α : Type} (a : α) : (M.pure a : M α).NoPeek := trivial

theorem fail {α : Type} (e : Err) : (M.fail e : M α).NoPeek := trivial

end Prog.NoPeek

open Prog (NoPeek)

theorem noPeek_readNum (h : Host) (e : Endian) (n : Nat) : (readNum h e n).NoPeek := fun r => by
  refine .ite (.fail _) ?_
  intro r; cases r <;> trivial

theorem noPeek_readBytes (n : Nat) : (readBytes n).NoPeek := fun _ => trivial

theorem noPeek_readVarint (h : Host) (e : Endian) : (readVarint h e).NoPeek :=
  (noPeek_readNum h e 1).bind fun _ => (noPeek_readBytes _).bind fun _ => trivial

theorem noPeek_readLen (h : Host) (e : Endian) (lt : LenTy) : (readLen h e lt).NoPeek := by
  cases lt <;> unfold readLen
  · exact (noPeek_readNum h e _).bind fun _ => .ite (.fail _) (.pure _)
  · exact noPeek_readNum h e _
  · exact noPeek_readNum h e _
  · exact noPeek_readNum h e _
  · exact (noPeek_readNum h e _).bind fun _ => .ite (.fail _) (.pure _)
  · exact (noPeek_readVarint h e).bind fun _ => .ite (.fail _) (.pure _)

theorem noPeek_onEof {α : Type} {p : M α} (hp : p.NoPeek) (d : α) : (onEof p d).NoPeek :=
  NoPeek.bind' hp fun r => by
    cases r with
    | ok a => trivial
    | error e => exact .ite (.pure _) (.fail _)

theorem noPeek_readLenR (h : Host) (e : Endian) (l : LenR) : (readLenR h e l).NoPeek := by
  cases l with
  | typed lt d =>
    cases d
    · exact (noPeek_readLen h e lt).map
    · exact (noPeek_onEof (noPeek_readLen h e lt) 0).map
  | fixed n => trivial
  | untilEof => trivial

theorem noPeek_repeatM {α : Type} {p : M α} (hp : p.NoPeek) : ∀ n, (repeatM n p).NoPeek
  | 0 => trivial
  | n + 1 => hp.bind fun _ => (noPeek_repeatM hp n).bind fun _ => trivial

theorem noPeek_untilEof {p : M Val} (hp : p.NoPeek) : ∀ n, (readUntilEof n p).NoPeek
  | 0 => trivial
  | n + 1 => NoPeek.bind' hp fun r => by
    cases r with
    | ok a => exact (noPeek_untilEof hp n).bind fun _ => trivial
    | error e => exact .ite (.pure _) (.fail _)

theorem noPeek_liftVals (el : Elem) (r : Except Panic (List Bytes)) : (liftVals el r).NoPeek := by
  cases r <;> trivial

theorem noPeek_readVec (h : Host) (e : Endian) {el : Elem} (hel : el.read.NoPeek) (n : Nat) :
    (readVec h e el n).NoPeek := by
  unfold readVec
  refine .ite (.fail _) fun r => .ite (.fail _) (.ite (.fail _) ?_)
  show Prog.NoPeek (if _ then _ else _)
  exact .ite ((noPeek_readBytes _).bind fun _ => noPeek_liftVals _ _) (.ite (.pure _) (noPeek_repeatM hel _))

theorem noPeek_readCow (h : Host) (e : Endian) {el : Elem} (hel : el.read.NoPeek) (n : Nat) :
    (readCow h e el n).NoPeek := by
  unfold readCow
  refine .ite (fun r => ?_) (noPeek_readVec h e hel n).map
  match r with
  | none => exact (noPeek_readVec h e hel n).map
  | some (.error _) => trivial
  | some (.ok (addr, bs)) =>
    refine .ite (.fail _) (.ite (.ite (.fail _) (.pure _)) (.ite (.fail _) ?_))
    trivial

theorem noPeek_readCollection (h : Host) (e : Endian) {el : Elem} (hel : el.read.NoPeek) (n : Nat) :
    (readCollection h e el n).NoPeek := by
  unfold readCollection
  refine .ite (.ite (.fail _) fun r => ?_) (noPeek_repeatM hel n)
  match r with
  | none => exact noPeek_repeatM hel n
  | some (.error _) => trivial
  | some (.ok (addr, bs)) => exact .ite (.fail _) (.pure _)

theorem noPeek_readPair {ek ev : Elem} (hk : ek.read.NoPeek) (hv : ev.read.NoPeek) : (readPair ek ev).NoPeek :=
  hk.bind fun _ => hv.bind fun _ => trivial

theorem noPeek_readKV (h : Host) (e : Endian) {ek ev : Elem} (hk : ek.read.NoPeek) (hv : ev.read.NoPeek) (n : Nat) :
    (readKV h e ek ev n).NoPeek := by
  unfold readKV
  refine .ite (.ite (.fail _) fun r => ?_) (noPeek_repeatM (noPeek_readPair hk hv) n)
  match r with
  | none => exact noPeek_repeatM (noPeek_readPair hk hv) n
  | some (.error _) => trivial
  | some (.ok (addr, bs)) => exact .ite (.fail _) (.pure _)

theorem noPeek_u8Elem (T : Target) (e : Endian) : (u8Elem T e).read.NoPeek := (noPeek_readNum _ _ _).map

theorem noPeek_readConstant (T : Target) (e : Endian) (c : Bytes) :
    (readConstant T.toHost e (u8Elem T e) c).NoPeek := fun r => by
  match r with
  | none => exact (noPeek_readVec _ _ (noPeek_u8Elem T e) _).bind fun _ => .ite (.pure _) (.fail _)
  | some (.error _) => trivial
  | some (.ok (addr, bs)) => exact .ite (.pure _) (.fail _)

theorem noPeek_borrowBytes (n : Nat) : (borrowBytes n).NoPeek := fun r => by
  match r with
  | none => trivial
  | some (.error _) => trivial
  | some (.ok (addr, bs)) => trivial

theorem noPeek_borrowRest : borrowRest.NoPeek := fun r => by
  cases r <;> trivial

theorem noPeek_convert (c : Conv) (v : Val) : (convert c v).NoPeek := by
  unfold convert
  cases c.apply v with
  | ok w => exact .pure _
  | error er => exact .fail _

theorem noPeek_asStr (bs : Bytes) : (asStr bs).NoPeek := .ite (.pure _) (.fail _)

theorem noPeek_readStr (T : Target) (e : Endian) (k : StrKind) (l : Option Nat) : (readStr T e k l).NoPeek := by
  cases k <;> cases l
  · exact (noPeek_untilEof (noPeek_u8Elem T e) _).bind fun _ => noPeek_asStr _
  · exact (noPeek_readVec _ _ (noPeek_u8Elem T e) _).bind fun _ => noPeek_asStr _
  · exact (noPeek_untilEof (noPeek_u8Elem T e) _).bind fun _ => noPeek_asStr _
  · exact (noPeek_readCow _ _ (noPeek_u8Elem T e) _).bind fun _ => noPeek_asStr _
  · exact noPeek_borrowRest.bind fun _ => noPeek_asStr _
  · exact (noPeek_borrowBytes _).bind fun _ => noPeek_asStr _

theorem noPeek_readSeq (T : Target) (e : Endian) (k : SeqKind) {el : Elem} (hel : el.read.NoPeek) (l : Option Nat) :
    (readSeq T e k el l).NoPeek := by
  cases k <;> cases l
  · exact (noPeek_untilEof hel _).map
  · exact (noPeek_readVec _ _ hel _).map
  · exact (noPeek_untilEof hel _).map
  · exact (noPeek_readCow _ _ hel _).map
  · exact NoPeek.map (noPeek_borrowRest.bind fun _ => .ite (.fail _) (.pure _))
  · exact NoPeek.map (.ite (.fail _) ((noPeek_borrowBytes _).bind fun _ => trivial))

theorem noPeek_readArray (T : Target) (e : Endian) (inl : Bool) {el : Elem} (hel : el.read.NoPeek) (n : Nat) :
    (readArray T e inl el n).NoPeek :=
  .ite ((noPeek_readBytes _).bind fun _ => (noPeek_liftVals _ _).map) (noPeek_repeatM hel n).map

theorem noPeek_readBool (h : Host) (e : Endian) : (readBool h e).NoPeek := (noPeek_readNum _ _ _).map

theorem noPeek_readIpv6 (h : Host) (e : Endian) : (readIpv6 h e).NoPeek := (noPeek_readBytes _).map

theorem noPeek_readDuration (h : Host) (e : Endian) : (readDuration h e).NoPeek :=
  (noPeek_readNum _ _ _).bind fun _ => (noPeek_readNum _ _ _).bind fun _ => .ite (.pure _) (.fail _)

theorem noPeek_readTag (h : Host) (e : Endian) (d : EnumDesc) (hp : d.peek = false) : (readTag h e d).NoPeek := by
  obtain ⟨lt, p⟩ := d
  simp only at hp
  subst hp
  cases lt
  case varint => exact noPeek_readVarint h e
  all_goals exact noPeek_readNum h e _

section
variable {T : Target} {e : Endian}

mutual
/-- Types without `peek_tag` are read without peeking. -/
theorem decode_noPeek : ∀ (t : Ty) (cx : Cx), noPeek t = true → (decode T e t cx).NoPeek
  | .prim p, _, _ => by unfold decode; exact (noPeek_readNum _ _ _).map
  | .usize, _, _ => by
    unfold decode; exact (noPeek_readNum _ _ _).bind fun _ => .ite (.fail _) (.pure _)
  | .bool, _, _ => by unfold decode; exact (noPeek_readBool _ _).map
  | .char, _, _ => by
    unfold decode; exact (noPeek_readNum _ _ _).bind fun _ => .ite (.pure _) (.fail _)
  | .nonZero p, _, _ => by
    unfold decode; exact (noPeek_readNum _ _ _).bind fun _ => .ite (.fail _) (.pure _)
  | .atomic p, _, _ => by unfold decode; exact (noPeek_readNum _ _ _).map
  | .ipv4, _, _ => by unfold decode; exact (noPeek_readNum _ _ _).map
  | .ipv6, _, _ => by unfold decode; exact noPeek_readIpv6 _ _
  | .ipAddr, _, _ => by
    unfold decode
    exact (noPeek_readNum _ _ _).bind fun _ => .ite (noPeek_readNum _ _ _).map
      (.ite (noPeek_readIpv6 _ _).map (.fail _))
  | .duration, _, _ => by unfold decode; exact (noPeek_readDuration _ _).map
  | .systemTime, _, _ => by
    unfold decode; exact (noPeek_readDuration _ _).bind fun _ => .ite (.pure _) (.fail _)
  | .endianness, _, _ => by
    unfold decode
    exact (noPeek_readNum _ _ _).bind fun _ => .ite (.pure _) (.ite (.pure _) (.fail _))
  | .varint64, _, _ => by unfold decode; exact (noPeek_readVarint _ _).map
  | .uuid, _, _ => by unfold decode; exact (noPeek_readBytes _).map
  | .str k, cx, _ => by unfold decode; exact (noPeek_readLenR _ _ _).bind fun l => noPeek_readStr _ _ _ _
  | .seq k t, cx, hp => by
    simp only [noPeek] at hp
    have := decode_noPeek t Cx.std hp
    unfold decode
    exact .ite (.fail _) ((noPeek_readLenR _ _ _).bind fun l => noPeek_readSeq _ _ _ this _)
  | .set t, cx, hp => by
    simp only [noPeek] at hp
    have := decode_noPeek t Cx.std hp
    unfold decode
    refine (noPeek_readLenR _ _ _).bind fun l => ?_
    cases l
    · exact (noPeek_untilEof this _).map
    · exact (noPeek_readCollection _ _ (el := elemOf T t _) this _).map
  | .map k v, cx, hp => by
    simp only [noPeek, Bool.and_eq_true] at hp
    have hk := decode_noPeek k Cx.std hp.1
    have hv := decode_noPeek v Cx.std hp.2
    unfold decode
    refine (noPeek_readLenR _ _ _).bind fun l => ?_
    cases l
    · exact (noPeek_untilEof (noPeek_readPair (ek := elemOf T k _) (ev := elemOf T v _) hk hv) _).map
    · exact (noPeek_readKV _ _ (ek := elemOf T k _) (ev := elemOf T v _) hk hv _).map
  | .array n t, cx, hp => by
    simp only [noPeek] at hp
    have := decode_noPeek t Cx.std hp
    unfold decode
    exact noPeek_readArray _ _ _ (el := elemOf T t _) this _
  | .refArray n t, _, _ => by
    unfold decode; exact .ite (.fail _) (noPeek_borrowBytes _).map
  | .option t, cx, hp => by
    simp only [noPeek] at hp
    have := decode_noPeek t (cx.opt t) hp
    unfold decode
    exact (noPeek_readBool _ _).bind fun _ => .ite this.map (.pure _)
  | .result t er, _, hp => by
    simp only [noPeek, Bool.and_eq_true] at hp
    have h1 := decode_noPeek t Cx.std hp.1
    have h2 := decode_noPeek er Cx.std hp.2
    unfold decode
    exact (noPeek_readBool _ _).bind fun _ => .ite h1.map h2.map
  | .range t, _, hp => by
    simp only [noPeek] at hp
    have := decode_noPeek t Cx.std hp
    unfold decode
    exact this.bind fun _ => this.bind fun _ => .pure _
  | .rangeInc t, _, hp => by
    simp only [noPeek] at hp
    have := decode_noPeek t Cx.std hp
    unfold decode
    exact this.bind fun _ => this.bind fun _ => .pure _
  | .unit, _, _ => by unfold decode; exact .pure _
  | .pair a b, _, hp => by
    simp only [noPeek, Bool.and_eq_true] at hp
    have h1 := decode_noPeek a Cx.std hp.1
    have h2 := decode_noPeek b Cx.std hp.2
    unfold decode
    exact h1.bind fun _ => h2.bind fun _ => .pure _
  | .box t, _, hp => by
    simp only [noPeek] at hp
    unfold decode
    exact decode_noPeek t Cx.std hp
  | .via c t, _, hp => by
    simp only [noPeek] at hp
    unfold decode
    exact (decode_noPeek t Cx.std hp).bind fun _ => noPeek_convert _ _
  | .struct _ fs, _, hp => by
    simp only [noPeek] at hp
    unfold decode
    exact decodeFields_noPeek fs [] hp
  | .enum d vs, _, hp => by
    simp only [noPeek, Bool.and_eq_true, Bool.not_eq_true'] at hp
    unfold decode
    exact (noPeek_readTag _ _ _ hp.1).bind fun _ => decodeVariants_noPeek vs _ _ hp.2
/-- Fields. -/
theorem decodeFields_noPeek : ∀ (fs : Fields) (prev : List Val), noPeekFields fs = true →
    (decodeFields T e fs prev).NoPeek
  | .nil, _, _ => by unfold decodeFields; exact .pure _
  | .cons a t fs, prev, hp => by
    simp only [noPeekFields, Bool.and_eq_true] at hp
    have hfs : ∀ prev, (decodeFields T e fs prev).NoPeek := fun prev => decodeFields_noPeek fs prev hp.2
    have hb : (decode T e t (a.cx T.toHost prev)).NoPeek := decode_noPeek t _ hp.1
    unfold decodeFields
    refine .ite (hfs _).map (NoPeek.bind ?_ fun v => (hfs _).map)
    have hbody : Prog.NoPeek (if a.varint = true then M.map .num (readVarint T.toHost e)
        else decode T e t (a.cx T.toHost prev)) := .ite (noPeek_readVarint _ _).map hb
    have hbody2 : Prog.NoPeek (if a.pre.isEmpty = true then
          (if a.varint = true then M.map .num (readVarint T.toHost e) else decode T e t (a.cx T.toHost prev))
        else M.bind (readConstant T.toHost e (u8Elem T e) a.pre) fun _ =>
          (if a.varint = true then M.map .num (readVarint T.toHost e) else decode T e t (a.cx T.toHost prev))) :=
      .ite hbody ((noPeek_readConstant _ _ _).bind fun _ => hbody)
    exact .ite (noPeek_onEof hbody2 _) hbody2
/-- Variants. -/
theorem decodeVariants_noPeek : ∀ (vs : Variants) (tag i : Nat), noPeekVariants vs = true →
    (decodeVariants T e vs tag i).NoPeek
  | .nil, _, _, _ => by unfold decodeVariants; exact .fail _
  | .cons tag' fs vs, tag, i, hp => by
    simp only [noPeekVariants, Bool.and_eq_true] at hp
    unfold decodeVariants
    exact .ite (decodeFields_noPeek fs [] hp.1).map (decodeVariants_noPeek vs tag _ hp.2)
end

end

/-! ## Unbuffered streams -/

/-- No bytes are held back. -/
def StreamSt.Direct (s : StreamSt) : Prop := s.buffering = false ∧ s.buf.length = 0

theorem StreamSt.init_direct (src : Src) : (StreamSt.init false src).Direct := ⟨rfl, rfl⟩

theorem StreamSt.Direct.pend {s : StreamSt} (h : s.Direct) : s.pend = s.src.data := by
  unfold StreamSt.pend CBuf.content
  rw [h.2]; simp

/-- Two readers whose operations, except peeking, agree on related states,
agree on all programs which do not peek. -/
theorem run_sim_noPeek {α σ σ' : Type} {R : ReaderOps σ} {R' : ReaderOps σ'} {Rel : σ → σ' → Prop}
    (hread : ∀ n s s', Rel s s' → (R.read n s).1 = (R'.read n s').1 ∧ Rel (R.read n s).2 (R'.read n s').2)
    (hskip : ∀ n s s', Rel s s' → (R.skip n s).1 = (R'.skip n s').1 ∧ Rel (R.skip n s).2 (R'.skip n s').2)
    (hcan : ∀ n s s', Rel s s' → R.canRead n s = R'.canRead n s')
    (hborrow : ∀ n s s', Rel s s' → (R.borrow n s).1 = (R'.borrow n s').1 ∧ Rel (R.borrow n s).2 (R'.borrow n s').2)
    (hborrowR : ∀ n s s', Rel s s' →
      (R.borrowR n s).1 = (R'.borrowR n s').1 ∧ Rel (R.borrowR n s).2 (R'.borrowR n s').2)
    (heof : ∀ s s', Rel s s' → (R.borrowEof s).1 = (R'.borrowEof s').1 ∧ Rel (R.borrowEof s).2 (R'.borrowEof s').2)
    {p : Prog α} (hp : p.NoPeek) (s : σ) (s' : σ') (hs : Rel s s') :
    (p.run R s).1 = (p.run R' s').1 ∧ Rel (p.run R s).2 (p.run R' s').2 := by
  induction p generalizing s s' with
  | ret a => exact ⟨rfl, hs⟩
  | read n k ih => simp only [Prog.run]; rw [(hread n s s' hs).1]; exact ih _ (hp _) _ _ (hread n s s' hs).2
  | peek n k ih => exact hp.elim
  | skip n k ih => simp only [Prog.run]; rw [(hskip n s s' hs).1]; exact ih _ (hp _) _ _ (hskip n s s' hs).2
  | canRead n k ih => simp only [Prog.run]; rw [hcan n s s' hs]; exact ih _ (hp _) _ _ hs
  | borrow n k ih => simp only [Prog.run]; rw [(hborrow n s s' hs).1]; exact ih _ (hp _) _ _ (hborrow n s s' hs).2
  | borrowR n k ih => simp only [Prog.run]; rw [(hborrowR n s s' hs).1]; exact ih _ (hp _) _ _ (hborrowR n s s' hs).2
  | borrowEof k ih => simp only [Prog.run]; rw [(heof s s' hs).1]; exact ih _ (hp _) _ _ (heof s s' hs).2
  | alloc n m k ih => exact ih hp _ _ hs

/-- Without peeking nothing is held back, whatever the source does. -/
theorem run_direct {α : Type} (grow : Nat → Nat) {p : Prog α} (hp : p.NoPeek) (s : StreamSt) (hs : s.Direct) :
    (p.run (streamReader grow) s).2.Direct :=
  (run_sim_noPeek (R := streamReader grow) (R' := streamReader grow) (Rel := fun s s' => s = s' ∧ s.Direct)
    (by
      rintro n s _ ⟨rfl, h⟩
      have := streamRead_unbuffered grow n s h.1 h.2
      exact ⟨rfl, rfl, this.2, this.1⟩)
    (by
      rintro n s _ ⟨rfl, h⟩
      have := skipLoop_unbuffered grow (n + 1) n s h.1 h.2
      exact ⟨rfl, rfl, this.2, this.1⟩)
    (fun _ _ _ _ => by simp [streamReader]) (fun _ s s' h => ⟨rfl, h⟩) (fun _ s s' h => ⟨rfl, h⟩)
    (fun s s' h => ⟨rfl, h⟩) hp s s ⟨rfl, hs⟩).2.2

/-! ## Interruptions -/

/-- Does the event interrupt? -/
def Ev.interrupts : Ev → Bool
  | .fault .interrupted => true
  | _ => false

/-- The same source without interruptions. -/
def Src.calm (s : Src) : Src := ⟨s.data, s.evs.filter (!·.interrupts)⟩

theorem readExactLoop_calm (fuel fuel' n : Nat) (acc : Bytes) (s : Src) (hf : s.evs.length + n + 1 ≤ fuel)
    (hf' : s.calm.evs.length + n + 1 ≤ fuel') :
    (Src.readExactLoop fuel n acc s).1 = (Src.readExactLoop fuel' n acc s.calm).1 ∧
    (Src.readExactLoop fuel n acc s).2.calm = (Src.readExactLoop fuel' n acc s.calm).2 := by
  induction fuel generalizing fuel' n acc s with
  | zero => omega
  | succ fuel ih =>
    obtain ⟨data, evs⟩ := s
    cases fuel' with
    | zero => omega
    | succ fuel' =>
      by_cases hn : n = 0
      · unfold Src.readExactLoop
        rw [if_pos hn, if_pos hn]
        exact ⟨rfl, rfl⟩
      · rcases evs with _ | ⟨ev, evs⟩
        · have hc : (⟨data, []⟩ : Src).calm = ⟨data, []⟩ := rfl
          simp only [hc, List.length_nil] at hf hf' ⊢
          unfold Src.readExactLoop
          rw [if_neg hn, if_neg hn]
          simp only [Src.read]
          split
          · exact ⟨rfl, rfl⟩
          · rename_i hd
            have hl : 0 < (data.take n).length := List.length_pos_iff.mpr hd
            exact ih fuel' (n - (data.take n).length) _ ⟨_, []⟩ (by simp only [List.length_nil]; omega)
              (by simp only [Src.calm, List.filter_nil, List.length_nil]; omega)
        · by_cases hi : ev.interrupts = true
          · have hev : ev = .fault .interrupted := by
              cases ev with
              | give m => cases hi
              | fault k => cases k <;> simp [Ev.interrupts] at hi ⊢
            subst hev
            have hc : (⟨data, .fault .interrupted :: evs⟩ : Src).calm = (⟨data, evs⟩ : Src).calm := by
              simp [Src.calm, Ev.interrupts]
            rw [hc] at hf' ⊢
            have h1 : Src.readExactLoop (fuel + 1) n acc ⟨data, .fault .interrupted :: evs⟩ =
                Src.readExactLoop fuel n acc ⟨data, evs⟩ := by
              rw [Src.readExactLoop, if_neg hn]; rfl
            rw [h1]
            exact ih (fuel' + 1) n acc ⟨data, evs⟩ (by simp only [List.length_cons] at hf ⊢; omega) hf'
          · have hc : (⟨data, ev :: evs⟩ : Src).calm = ⟨data, ev :: evs.filter (!·.interrupts)⟩ := by
              simp [Src.calm, hi]
            simp only [hc, List.length_cons] at hf hf' ⊢
            unfold Src.readExactLoop
            rw [if_neg hn, if_neg hn]
            cases ev with
            | give m =>
              simp only [Src.read]
              split
              · exact ⟨rfl, rfl⟩
              · rename_i hd
                have hl : 0 < (data.take (min m n)).length := List.length_pos_iff.mpr hd
                exact ih fuel' (n - (data.take (min m n)).length) _ ⟨_, evs⟩ (by simp only; omega)
                  (by simp only [Src.calm]; omega)
            | fault k =>
              cases k with
              | interrupted => simp [Ev.interrupts] at hi
              | _ => exact ⟨rfl, rfl⟩

/-- States of an unbuffered stream reader which differ by interruptions. -/
def Calm (s s' : StreamSt) : Prop := s.Direct ∧ s'.buffering = false ∧ s'.buf = s.buf ∧ s'.src = s.src.calm

theorem streamRead_calm (grow : Nat → Nat) (n : Nat) (s s' : StreamSt) (h : Calm s s') :
    (streamRead grow n s).1 = (streamRead grow n s').1 ∧ Calm (streamRead grow n s).2 (streamRead grow n s').2 := by
  have hd := streamRead_unbuffered grow n s h.1.1 h.1.2
  obtain ⟨⟨hb, h0⟩, hb', hbuf, hsrc⟩ := h
  obtain ⟨src, buf, b⟩ := s
  obtain ⟨src', buf', b'⟩ := s'
  simp only at hb h0 hb' hbuf hsrc
  subst hb hb' hbuf hsrc
  revert hd
  unfold streamRead
  simp only
  split
  · cases buf'.consumeInto n with
    | error p => intro hd; exact ⟨rfl, ⟨hd.2, hd.1⟩, rfl, rfl, rfl⟩
    | ok r => intro hd; exact ⟨rfl, ⟨hd.2, hd.1⟩, rfl, rfl, rfl⟩
  · unfold streamReadSlow
    simp only [Bool.false_and, Bool.false_eq_true, if_false]
    unfold streamTake
    simp only [h0, Nat.lt_irrefl, gt_iff_lt, if_false, List.length_nil, Nat.sub_zero]
    split
    · intro hd; exact ⟨rfl, ⟨hd.2, hd.1⟩, rfl, rfl, rfl⟩
    · have := readExactLoop_calm (src.evs.length + n + 2) (src.calm.evs.length + n + 2) n [] src (by omega) (by omega)
      unfold Src.readExact
      revert this
      generalize Src.readExactLoop (src.evs.length + n + 2) n [] src = r
      generalize Src.readExactLoop (src.calm.evs.length + n + 2) n [] src.calm = r'
      obtain ⟨r1, r2⟩ := r
      obtain ⟨r1', r2'⟩ := r'
      rintro ⟨h1, h2⟩
      simp only at h1 h2
      subst h1 h2
      cases r1 <;> (intro hd; exact ⟨rfl, ⟨hd.2, hd.1⟩, rfl, rfl, rfl⟩)

theorem skipLoop_calm (grow : Nat → Nat) (fuel n : Nat) (s s' : StreamSt) (h : Calm s s') :
    (skipLoop (streamRead grow) fuel n s).1 = (skipLoop (streamRead grow) fuel n s').1 ∧
    Calm (skipLoop (streamRead grow) fuel n s).2 (skipLoop (streamRead grow) fuel n s').2 := by
  induction fuel generalizing n s s' with
  | zero => exact ⟨rfl, h⟩
  | succ fuel ih =>
    unfold skipLoop
    split
    · generalize (if n < 1024 then n else 1024) = chunk
      have := streamRead_calm grow chunk s s' h
      revert this
      simp only
      generalize streamRead grow chunk s = r
      generalize streamRead grow chunk s' = r'
      obtain ⟨r1, r2⟩ := r
      obtain ⟨r1', r2'⟩ := r'
      rintro ⟨h1, h2⟩
      simp only at h1
      subst h1
      cases r1 with
      | error er => exact ⟨rfl, h2⟩
      | ok _ => exact ih _ _ _ h2
    · exact ⟨rfl, h⟩

/-- Interruptions make no difference to a program which does not peek, on an
unbuffered stream reader. -/
theorem run_calm {α : Type} (grow : Nat → Nat) {p : Prog α} (hp : p.NoPeek) (src : Src) :
    (p.run (streamReader grow) (StreamSt.init false src)).1 =
      (p.run (streamReader grow) (StreamSt.init false src.calm)).1 ∧
    (p.run (streamReader grow) (StreamSt.init false src)).2.src.calm =
      (p.run (streamReader grow) (StreamSt.init false src.calm)).2.src := by
  have := run_sim_noPeek (R := streamReader grow) (R' := streamReader grow) (Rel := Calm)
    (streamRead_calm grow) (fun n s s' h => skipLoop_calm grow (n + 1) n s s' h) (fun _ _ _ _ => rfl)
    (fun _ s s' h => ⟨rfl, h⟩) (fun _ s s' h => ⟨rfl, h⟩) (fun s s' h => ⟨rfl, h⟩) hp
    (StreamSt.init false src) (StreamSt.init false src.calm) ⟨StreamSt.init_direct src, rfl, rfl, rfl⟩
  exact ⟨this.1, this.2.2.2.2.symm⟩

/-! ## Invariants of the source -/

section
variable {J : Src → Prop} (hJ : ∀ n s, J s → J (s.read n).2)
include hJ

theorem readExactLoop_src (fuel n : Nat) (acc : Bytes) (s : Src) (hs : J s) :
    J (Src.readExactLoop fuel n acc s).2 := by
  induction fuel generalizing n acc s with
  | zero => exact hs
  | succ fuel ih =>
    unfold Src.readExactLoop
    split
    · exact hs
    · have := hJ n s hs
      revert this
      generalize s.read n = r
      obtain ⟨r1, r2⟩ := r
      intro h
      cases r1 with
      | error k =>
        cases k with
        | interrupted => exact ih _ _ _ h
        | _ => exact h
      | ok d =>
        simp only
        split
        · exact h
        · exact ih _ _ _ h

theorem tryAppend_src {grow : Nat → Nat} {c : CBuf} {size : Nat} {s : Src} (hs : J s)
    {r : Except IoKind Nat × CBuf × Src} (h : c.tryAppendWith grow size Src.read s = .ok r) : J r.2.2 := by
  unfold CBuf.tryAppendWith at h
  cases h1 : c.reserve grow size with
  | error p => simp [h1, bind, Except.bind] at h
  | ok c1 =>
    simp only [h1, bind, Except.bind] at h
    generalize emptyRange c1.position c1.length c1.capacity size = re at h
    obtain ⟨rg, x⟩ := re
    simp only at h
    cases h2 : sliceOf c1.buffer rg with
    | error p => simp [h2] at h
    | ok y =>
      simp only [h2] at h
      have := hJ rg.len s hs
      revert this h
      generalize Src.read rg.len s = q
      obtain ⟨q1, q2⟩ := q
      cases q1 <;> (intro h hq; simp only [Except.ok.injEq] at h; subst h; exact hq)

theorem streamFill_src (grow : Nat → Nat) (n fuel : Nat) (s : StreamSt) (hs : J s.src) :
    J (streamFill grow n fuel s).2.src := by
  induction fuel generalizing s with
  | zero => exact hs
  | succ fuel ih =>
    unfold streamFill
    split
    · split
      · exact hs
      · rename_i h; exact tryAppend_src hJ hs h
      · rename_i h
        have := tryAppend_src hJ hs h
        simp only
        split
        · split <;> exact this
        · split
          · exact this
          · exact ih _ this
    · exact hs

theorem streamPeekFill_src (grow : Nat → Nat) (n fuel : Nat) (s : StreamSt) (hs : J s.src) :
    J (streamPeekFill grow n fuel s).2.src := by
  induction fuel generalizing s with
  | zero => exact hs
  | succ fuel ih =>
    unfold streamPeekFill
    split
    · simp only
      split
      · exact hs
      · rename_i h; exact tryAppend_src hJ hs h
      · rename_i h
        have := tryAppend_src hJ hs h
        split
        · exact this
        · exact ih _ this
    · exact hs

theorem streamTake_src (n : Nat) (s : StreamSt) (hs : J s.src) : J (streamTake n s).2.src := by
  unfold streamTake
  simp only
  split
  · exact hs
  · split
    · exact hs
    · rename_i out buf _ _
      have := readExactLoop_src hJ (s.src.evs.length + (n - out.length) + 2) (n - out.length) [] s.src hs
      unfold Src.readExact
      revert this
      generalize Src.readExactLoop (s.src.evs.length + (n - out.length) + 2) (n - out.length) [] s.src = r
      obtain ⟨r1, r2⟩ := r
      intro h
      cases r1 <;> exact h

theorem streamRead_src (grow : Nat → Nat) (n : Nat) (s : StreamSt) (hs : J s.src) : J (streamRead grow n s).2.src := by
  unfold streamRead
  split
  · split <;> exact hs
  · unfold streamReadSlow
    split
    · have := streamFill_src hJ grow n (s.buf.capacity + 1) s hs
      revert this
      generalize streamFill grow n (s.buf.capacity + 1) s = r
      obtain ⟨r1, r2⟩ := r
      intro h
      cases r1 with
      | error e => exact h
      | ok _ => exact streamTake_src hJ n _ h
    · exact streamTake_src hJ n s hs

theorem streamPeek_src (grow : Nat → Nat) (n : Nat) (s : StreamSt) (hs : J s.src) : J (streamPeek grow n s).2.src := by
  unfold streamPeek
  have := streamPeekFill_src hJ grow n (n + 1) s hs
  revert this
  generalize streamPeekFill grow n (n + 1) s = r
  obtain ⟨r1, r2⟩ := r
  intro h
  cases r1 with
  | error e => exact h
  | ok _ =>
    simp only
    split
    · exact h
    · split <;> exact h

theorem skipLoop_src (grow : Nat → Nat) (fuel n : Nat) (s : StreamSt) (hs : J s.src) :
    J (skipLoop (streamRead grow) fuel n s).2.src := by
  induction fuel generalizing n s with
  | zero => exact hs
  | succ fuel ih =>
    unfold skipLoop
    split
    · generalize (if n < 1024 then n else 1024) = chunk
      have := streamRead_src hJ grow chunk s hs
      revert this
      simp only
      generalize streamRead grow chunk s = r
      obtain ⟨r1, r2⟩ := r
      intro h
      cases r1 with
      | error e => exact h
      | ok _ => exact ih _ _ h
    · exact hs

/-- Whatever holds of the source and is kept by its `read` holds after running
any program with a stream reader. -/
theorem run_src {α : Type} (grow : Nat → Nat) (p : Prog α) (s : StreamSt) (hs : J s.src) :
    J (p.run (streamReader grow) s).2.src :=
  run_inv (R := streamReader grow) (I := fun s => J s.src) (streamRead_src hJ grow) (streamPeek_src hJ grow)
    (fun n s hs => skipLoop_src hJ grow (n + 1) n s hs) (fun _ _ h => h) (fun _ _ h => h) (fun _ h => h) p s hs

end

/-! ## How many bytes came before a failure -/

/-- Bytes given by these events at most. -/
def gives : List Ev → Nat
  | [] => 0
  | .give m :: evs => m + gives evs
  | .fault _ :: evs => gives evs

/-- Bytes taken from a source since it had `total` bytes to give and behaviour
`pre ++ .fault k :: post`: no more than were given, unless it has failed. -/
def Bounded (k : IoKind) (pre post : List Ev) (total : Nat) (s : Src) : Prop :=
  s.evs.length ≤ post.length ∨
    ∃ pre', s.evs = pre' ++ .fault k :: post ∧ total + gives pre' ≤ s.data.length + gives pre

theorem Bounded.read {k : IoKind} {pre post : List Ev} {total : Nat} (n : Nat) (s : Src)
    (h : Bounded k pre post total s) : Bounded k pre post total (s.read n).2 := by
  obtain ⟨data, evs⟩ := s
  rcases h with h | ⟨pre', h1, h2⟩
  · refine .inl ?_
    simp only at h
    rcases evs with _ | ⟨ev, evs⟩
    · simp [Src.read]
    · cases ev <;> (simp only [Src.read]; simp only [List.length_cons] at h; omega)
  · simp only at h1 h2
    subst h1
    rcases pre' with _ | ⟨ev, pre'⟩
    · exact .inl (by simp [Src.read])
    · cases ev with
      | give m =>
        refine .inr ⟨pre', rfl, ?_⟩
        simp only [gives] at h2
        simp only [List.cons_append, Src.read, List.length_drop]
        omega
      | fault k' => exact .inr ⟨pre', rfl, h2⟩

end Verif
