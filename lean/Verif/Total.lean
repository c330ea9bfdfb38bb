import Verif.GoodTy

/-!
# Types for which all readers agree

`Tot p`: the parser makes a claim on every input, so that every reader succeeds exactly when it does.
-/

namespace Verif

/-- A claim on every input. -/
def Tot {α : Type} (p : P α) : Prop := ∀ bs, p bs ≠ .unspec

section
variable {α β : Type}

theorem tot_pure (a : α) : Tot (P.pure a) := fun _ => by simp [P.pure]
theorem tot_fail (e : Err) : Tot (P.fail e : P α) := fun _ => by simp [P.fail]
theorem tot_amb (e : Err) : Tot (P.amb e : P α) := fun _ => by simp [P.amb]

theorem tot_convert (c : Conv) (v : Val) : Tot (pConvert c v) := by
  unfold pConvert
  cases c.apply v with
  | ok w => exact tot_pure _
  | error er => exact tot_fail _

theorem tot_bind' {p : P α} {f : α → P β} {V : α → Prop} (hp : Tot p) (hV : ∀ bs a rest, p bs = .ok a rest → V a)
    (hf : ∀ a, V a → Tot (f a)) : Tot (P.bind p f) := by
  intro bs
  unfold P.bind
  cases h : p bs with
  | ok a rest => exact hf a (hV bs a rest h) rest
  | fail e => simp
  | amb e => simp
  | unspec => exact absurd h (hp bs)

theorem tot_bind {p : P α} {f : α → P β} (hp : Tot p) (hf : ∀ a, Tot (f a)) : Tot (P.bind p f) :=
  tot_bind' (V := fun _ => True) hp (fun _ _ _ _ => trivial) fun a _ => hf a

theorem tot_map {p : P α} {f : α → β} (hp : Tot p) : Tot (P.map f p) := tot_bind hp fun _ => tot_pure _

theorem tot_ite {c : Prop} [Decidable c] {p q : P α} (hp : c → Tot p) (hq : ¬ c → Tot q) : Tot (if c then p else q) := by
  split
  · exact hp ‹_›
  · exact hq ‹_›

theorem tot_take (n : Nat) : Tot (pTake n) := fun bs => by unfold pTake; split <;> simp
theorem tot_peek (n : Nat) : Tot (pPeek n) := fun bs => by unfold pPeek; split <;> simp
theorem tot_num (e : Endian) (n : Nat) : Tot (pNum e n) := tot_map (tot_take n)
theorem tot_varint : Tot pVarint := tot_bind (tot_take 1) fun _ => tot_map (tot_take _)

theorem tot_len (h : Host) (e : Endian) (lt : LenTy) : Tot (pLen h e lt) := by
  cases lt <;> simp only [pLen]
  · exact tot_bind (tot_num _ _) fun _ => tot_ite (fun _ => tot_fail _) fun _ => tot_pure _
  · exact tot_num _ _
  · exact tot_num _ _
  · exact tot_num _ _
  · exact tot_bind (tot_num _ _) fun _ => tot_ite (fun _ => tot_fail _) fun _ => tot_pure _
  · exact tot_bind tot_varint fun _ => tot_ite (fun _ => tot_fail _) fun _ => tot_pure _

theorem tot_tag (e : Endian) (d : EnumDesc) : Tot (pTag e d) := by
  obtain ⟨lt, pk⟩ := d
  cases pk <;> cases lt <;> first
    | exact tot_varint
    | exact tot_num _ _
    | exact tot_map (tot_peek _)
    | exact tot_bind (tot_peek _) fun _ => tot_map (tot_peek _)

theorem tot_rep {p : P α} (hp : Tot p) : ∀ n, Tot (pRep n p)
  | 0 => tot_pure _
  | n + 1 => tot_bind hp fun _ => tot_bind (tot_rep hp n) fun _ => tot_pure _

theorem pNum_lt {e : Endian} {n v : Nat} {bs rest : Bytes} (h : pNum e n bs = .ok v rest) : v < 256 ^ n := by
  unfold pNum P.map P.bind pTake at h
  split at h
  · rename_i bs' _ h'
    split at h'
    · cases h'
      cases h
      refine Nat.lt_of_lt_of_le (Endian.num_lt _ _) (Nat.pow_le_pow_right (by omega) ?_)
      rw [List.length_take]; omega
    · cases h'
  all_goals cases h

theorem pBind_ok {p : P α} {f : α → P β} {bs rest : Bytes} {b : β} (h : P.bind p f bs = .ok b rest) :
    ∃ a r, p bs = .ok a r ∧ f a r = .ok b rest := by
  unfold P.bind at h
  split at h
  · exact ⟨_, _, ‹_›, h⟩
  all_goals cases h

theorem pLen_cap {h : Host} (hh : h.Ok) {e : Endian} {lt : LenTy} {n : Nat} {bs rest : Bytes}
    (hn : pLen h e lt bs = .ok n rest) : n ≤ lt.cap h := by
  have := hh.lower
  cases lt <;> simp only [pLen] at hn <;> simp only [LenTy.cap, LenTy.max]
  · obtain ⟨a, r, h1, h2⟩ := pBind_ok hn
    split at h2
    · cases h2
    · cases h2; omega
  · have := pNum_lt hn; omega
  · have := pNum_lt hn; omega
  · have := pNum_lt hn; omega
  · obtain ⟨a, r, h1, h2⟩ := pBind_ok hn
    have := pNum_lt h1
    split at h2
    · cases h2
    · cases h2; omega
  · obtain ⟨a, r, h1, h2⟩ := pBind_ok hn
    split at h2
    · cases h2
    · cases h2
      obtain ⟨x, y, h3, h4⟩ := pBind_ok h1
      obtain ⟨x', y', h5, h6⟩ := pBind_ok h4
      cases h6
      have : x'.length = leadingOnes (hd x).toNat := by
        unfold pTake at h5
        split at h5
        · cases h5; rw [List.length_take]; omega
        · cases h5
      have := specVarintVal_lt (hd x) x' (by omega)
      omega

/-- Lengths which do not depend on the end of the input. -/
theorem tot_lenBind {h : Host} (hh : h.Ok) (e : Endian) {l : Lim} {lr : LenR} (hs : lr.strict = true)
    (hl : l.admits h lr) {f : Option Nat → P α} (hf : ∀ n, n ≤ l.bound → Tot (f (some n))) :
    Tot (P.bind (pLenR h e lr) f) := by
  cases lr with
  | typed lt d =>
    cases d with
    | true => cases hs
    | false =>
      refine tot_bind' (V := fun x => ∃ n, x = some n ∧ n ≤ lt.cap h) (tot_map (tot_len h e lt)) ?_ ?_
      · intro bs a rest hx
        obtain ⟨n, r, h1, h2⟩ := pBind_ok hx
        cases h2
        exact ⟨n, rfl, pLen_cap hh h1⟩
      · rintro a ⟨n, rfl, hn⟩
        exact hf n (Nat.le_trans hn hl)
  | fixed n => exact hf n hl
  | untilEof => cases hs

theorem tot_str {T : Target} {n : Nat} (hn : n ≤ T.usizeMax) : Tot (pStr T (some n)) :=
  tot_ite (fun h => by omega) fun _ => tot_ite (fun _ => tot_amb _) fun _ =>
    tot_bind (tot_take n) fun bs => tot_ite (fun _ => tot_pure _) fun _ => tot_fail _

theorem tot_vec {T : Target} {e : Endian} {t : Ty} {p : P Val} (hp : Tot p) (hs : Sound false (minBytes T t) p)
    (hv : vecOk T e t = true) (hz : isPrimitive T t = false → sizeOf T t = 0 → minBytes T t = 0) (n : Nat) :
    Tot (pVec T e t p n) := by
  intro bs
  unfold pVec
  rw [if_neg (by
    intro h
    simp only [Bool.and_eq_true, Bool.not_eq_true'] at h
    simp [vecOk, h.1, h.2] at hv)]
  split
  · simp
  · simp only
    have key : ∀ bs, pRep n p bs ≠ .unspec := tot_rep hp n
    split
    · rename_i hlen
      split
      · simp [precheck, Err.isEof]
      · split
        · rename_i hzz
          simp only [Bool.and_eq_true, Bool.not_eq_true', beq_iff_eq] at hzz
          rw [hz hzz.1 hzz.2] at hlen
          omega
        · cases h : pRep n p bs with
          | ok a rest =>
            obtain ⟨u, h1, h2, _⟩ := sound_rep hs n _ _ _ h
            have := congrArg List.length h1
            simp only [List.length_append] at this
            omega
          | fail e => simp only [precheck]; split <;> simp
          | amb e => simp [precheck]
          | unspec => exact absurd h (key bs)
    · split
      · simp
      · split
        · simp
        · exact key bs

/-- `cow`: the product with the size of an element does not overflow. -/
theorem tot_cow {T : Target} {e : Endian} {t : Ty} {p : P Val} (hp : Tot p) (hs : Sound false (minBytes T t) p)
    (hv : vecOk T e t = true) (hz : isPrimitive T t = false → sizeOf T t = 0 → minBytes T t = 0) {n : Nat}
    (hc : isPrimitive T t = true → sizeOf T t ≠ 0) (ho : isPrimitive T t = true → n * sizeOf T t ≤ T.usizeMax) :
    Tot (pCow T e t p n) := by
  refine tot_ite (fun h => ?_) fun _ => tot_vec hp hs hv hz n
  simp only [Bool.and_eq_true, Bool.or_eq_true, beq_iff_eq, decide_eq_true_eq] at h
  have := hc h.1.1
  have := ho h.1.1
  omega

theorem tot_coll {T : Target} {e : Endian} {t : Ty} {p : P Val} (hp : Tot p)
    (hc : isPrimitive T t = true → bulkPlain t = true ∧ sizeOf T t ≠ 0) (n : Nat) : Tot (pColl T e t p n) := by
  refine tot_ite (fun h => tot_ite (fun _ => tot_fail _) fun _ => tot_ite (fun h' => ?_) fun _ => tot_rep hp n)
    fun _ => tot_rep hp n
  simp only [Bool.and_eq_true] at h
  simp [hc h.1] at h'

theorem tot_pair {p q : P Val} (hp : Tot p) (hq : Tot q) : Tot (pPair p q) :=
  tot_bind hp fun _ => tot_bind hq fun _ => tot_pure _

theorem tot_kv {T : Target} {e : Endian} {k v : Ty} {p q : P Val} (hp : Tot p) (hq : Tot q)
    (hk : isPrimitive T k = true → bulkPlain k = true) (hv : isPrimitive T v = true → bulkPlain v = true)
    (hz : isPrimitive T k = true → isPrimitive T v = true → sizeOf T k + sizeOf T v ≠ 0) (n : Nat) :
    Tot (pKV T e k v p q n) := by
  refine tot_ite (fun h => tot_ite (fun _ => tot_fail _) fun _ => tot_ite (fun h' => ?_)
    fun _ => tot_rep (tot_pair hp hq) n) fun _ => tot_rep (tot_pair hp hq) n
  simp only [Bool.and_eq_true] at h
  simp only [hk h.1.1, hv h.1.2, Bool.and_self, Bool.not_true, Bool.false_or, beq_iff_eq] at h'
  exact absurd h' (hz h.1.1 h.1.2)

theorem tot_const {T : Target} {c : Bytes} (hc : c.length ≤ T.isizeMax) : Tot (pConst T c) :=
  tot_ite (fun h => by omega) fun _ => tot_bind (tot_take _) fun _ => tot_ite (fun _ => tot_pure _) fun _ => tot_fail _

theorem tot_bool (e : Endian) : Tot (pBool e) := tot_map (tot_num e 1)
theorem tot_ipv6 (T : Target) (e : Endian) : Tot (pIpv6 T e) := tot_map (tot_take 16)
theorem tot_duration (e : Endian) : Tot (pDuration e) :=
  tot_bind (tot_num _ _) fun _ => tot_bind (tot_num _ _) fun _ => tot_ite (fun _ => tot_pure _) fun _ => tot_fail _
end

mutual
/-- `length * size_of` in `read_cow` cannot overflow: in 64 bits, for lengths of at most 32 bits.  (Otherwise
see `C47_false`.) -/
def cowOk (T : Target) : Lim → Ty → Bool
  | l, .seq k t => (!(k == .cow && isPrimitive T t) || decide (l.bound * sizeOf T t ≤ T.usizeMax)) &&
      cowOk T (Lim.std T.toHost) t
  | _, .set t | _, .array _ t | _, .refArray _ t | _, .range t | _, .rangeInc t | _, .box t | _, .via _ t =>
      cowOk T (Lim.std T.toHost) t
  | _, .map k v | _, .result k v | _, .pair k v => cowOk T (Lim.std T.toHost) k && cowOk T (Lim.std T.toHost) v
  | l, .option t => cowOk T (l.opt T.toHost t) t
  | _, .struct _ fs => cowOkFields T fs
  | _, .enum _ vs => cowOkVariants T vs
  | _, _ => true
/-- Fields. -/
def cowOkFields (T : Target) : Fields → Bool
  | .nil => true
  | .cons a t fs => cowOk T (a.lim T.toHost) t && cowOkFields T fs
/-- Variants. -/
def cowOkVariants (T : Target) : Variants → Bool
  | .nil => true
  | .cons _ fs vs => cowOkFields T fs && cowOkVariants T vs
end

theorem LenTy.cap_le (h : Host) (lt : LenTy) : lt.cap h ≤ h.usizeMax := Nat.min_le_right _ _

theorem Attrs.lim_le (h : Host) (a : Attrs) : (a.lim h).bound ≤ h.usizeMax := by
  unfold Attrs.lim
  split
  · exact LenTy.cap_le _ _
  · split
    · exact LenTy.cap_le _ _
    · exact LenTy.cap_le _ _
    · exact Nat.le_refl _
    · exact Nat.zero_le _

theorem Lim.opt_le {h : Host} {l : Lim} (hl : l.bound ≤ h.usizeMax) (t : Ty) : (l.opt h t).bound ≤ h.usizeMax := by
  unfold Lim.opt
  split
  · exact LenTy.cap_le _ _
  · exact hl

section
variable {T : Target} (hT : T.Ok) {e : Endian}
include hT

mutual
/-- A claim on every input. -/
theorem parse_tot : ∀ (t : Ty) (cx : Cx) (l : Lim), layoutOk T t = true → declOk t = true → peekOk T t = true →
    regular T e t = true → ends false true t = true → cx.len.strict = true → l.admits T.toHost cx.len →
    l.bound ≤ T.usizeMax → cowOk T l t = true → Tot (parse T e t cx)
  | .prim p, _, _, _, _, _, _, _, _, _, _, _ => by unfold parse; exact tot_map (tot_num _ _)
  | .usize, _, _, _, _, _, _, _, _, _, _, _ => by
    unfold parse; exact tot_bind (tot_num _ _) fun _ => tot_ite (fun _ => tot_fail _) fun _ => tot_pure _
  | .bool, _, _, _, _, _, _, _, _, _, _, _ => by unfold parse; exact tot_map (tot_bool _)
  | .char, _, _, _, _, _, _, _, _, _, _, _ => by
    unfold parse; exact tot_bind (tot_num _ _) fun _ => tot_ite (fun _ => tot_pure _) fun _ => tot_fail _
  | .nonZero p, _, _, _, _, _, _, _, _, _, _, _ => by
    unfold parse; exact tot_bind (tot_num _ _) fun _ => tot_ite (fun _ => tot_fail _) fun _ => tot_pure _
  | .atomic p, _, _, _, _, _, _, _, _, _, _, _ => by unfold parse; exact tot_map (tot_num _ _)
  | .ipv4, _, _, _, _, _, _, _, _, _, _, _ => by unfold parse; exact tot_map (tot_num _ _)
  | .ipv6, _, _, _, _, _, _, _, _, _, _, _ => by unfold parse; exact tot_ipv6 _ _
  | .ipAddr, _, _, _, _, _, _, _, _, _, _, _ => by
    unfold parse
    exact tot_bind (tot_num e 1) fun _ => tot_ite (fun _ => tot_map (tot_num _ _)) fun _ =>
      tot_ite (fun _ => tot_map (tot_ipv6 _ _)) fun _ => tot_fail _
  | .duration, _, _, _, _, _, _, _, _, _, _, _ => by unfold parse; exact tot_map (tot_duration _)
  | .systemTime, _, _, _, _, _, _, _, _, _, _, _ => by
    unfold parse
    exact tot_bind (tot_duration _) fun _ => tot_ite (fun _ => tot_pure _) fun _ => tot_fail _
  | .endianness, _, _, _, _, _, _, _, _, _, _, _ => by
    unfold parse
    exact tot_bind (tot_num _ _) fun _ => tot_ite (fun _ => tot_pure _) fun _ =>
      tot_ite (fun _ => tot_pure _) fun _ => tot_fail _
  | .varint64, _, _, _, _, _, _, _, _, _, _, _ => by unfold parse; exact tot_map tot_varint
  | .uuid, _, _, _, _, _, _, _, _, _, _, _ => by unfold parse; exact tot_map (tot_take _)
  | .unit, _, _, _, _, _, _, _, _, _, _, _ => by unfold parse; exact tot_pure _
  | .str k, cx, l, _, _, _, _, _, hst, hl, hb, _ => by
    unfold parse
    exact tot_lenBind hT.toOk e hst hl fun n hn => tot_str (Nat.le_trans hn hb)
  | .seq k t, cx, l, hlay, hd, hpk, hr, he, hst, hl, hb, hc => by
    simp only [layoutOk] at hlay
    simp only [declOk] at hd
    simp only [peekOk] at hpk
    simp only [regular, Bool.and_eq_true] at hr
    simp only [ends] at he
    simp only [cowOk, Bool.and_eq_true, Bool.or_eq_true, Bool.not_eq_true', decide_eq_true_eq] at hc
    have hs : Sound false (minBytes T t) (parse T e t Cx.std) := by
      rw [← lowAt_std]
      exact parse_sound t Cx.std hlay hd hpk fun h => by cases h
    have ih := parse_tot t Cx.std (Lim.std T.toHost) hlay hd hpk hr.1.2 he rfl (std_admits _) (LenTy.cap_le _ _) hc.2
    have hz := vecOk_zst hd hr.1.1
    unfold parse
    refine tot_ite (fun _ => tot_fail _) fun _ => tot_lenBind hT.toOk e hst hl fun n hn => ?_
    cases k with
    | vec => exact tot_map (tot_vec ih hs hr.1.1 hz n)
    | cow =>
      have h2 := hr.2
      simp only [Bool.or_eq_true, Bool.not_eq_true', bne_iff_ne] at h2
      refine tot_map (tot_cow ih hs hr.1.1 hz (fun hp => h2.resolve_left (by simp [hp])) fun hp => ?_)
      exact Nat.le_trans (Nat.mul_le_mul_right _ hn) (hc.1.resolve_left (by simp [hp]))
    | ref =>
      have h2 := hr.2
      simp only [Bool.and_eq_true] at h2
      have h3 := hr.1.1
      simp only [vecOk, h2.1.1, if_true, bulkOk, Bool.and_eq_true] at h3
      exact tot_map (tot_ite (fun _ => tot_fail _) fun _ => tot_ite (fun _ => tot_rep ih n) fun h => by
        simp [h2.1.1, h3.1] at h)
  | .set t, cx, l, hlay, hd, hpk, hr, he, hst, hl, hb, hc => by
    simp only [layoutOk] at hlay
    simp only [declOk] at hd
    simp only [peekOk] at hpk
    simp only [regular, Bool.and_eq_true, Bool.or_eq_true, Bool.not_eq_true', bne_iff_ne] at hr
    simp only [ends] at he
    simp only [cowOk] at hc
    have ih := parse_tot t Cx.std (Lim.std T.toHost) hlay hd hpk hr.2 he rfl (std_admits _) (LenTy.cap_le _ _) hc
    unfold parse
    exact tot_lenBind hT.toOk e hst hl fun n hn => tot_map (tot_coll ih (fun hp => hr.1.resolve_left (by simp [hp])) n)
  | .map k v, cx, l, hlay, hd, hpk, hr, he, hst, hl, hb, hc => by
    simp only [layoutOk, Bool.and_eq_true] at hlay
    simp only [declOk, Bool.and_eq_true] at hd
    simp only [peekOk, Bool.and_eq_true] at hpk
    simp only [regular, Bool.and_eq_true, Bool.or_eq_true, Bool.not_eq_true', bne_iff_ne] at hr
    simp only [ends, Bool.and_eq_true] at he
    simp only [cowOk, Bool.and_eq_true] at hc
    have ihk := parse_tot k Cx.std (Lim.std T.toHost) hlay.1 hd.1 hpk.1 hr.1.2 he.1 rfl (std_admits _)
      (LenTy.cap_le _ _) hc.1
    have ihv := parse_tot v Cx.std (Lim.std T.toHost) hlay.2 hd.2 hpk.2 hr.2 he.2 rfl (std_admits _)
      (LenTy.cap_le _ _) hc.2
    unfold parse
    exact tot_lenBind hT.toOk e hst hl fun n hn => tot_map (tot_kv ihk ihv
      (fun hp => hr.1.1.1.1.resolve_left (by simp [hp])) (fun hp => hr.1.1.1.2.resolve_left (by simp [hp]))
      (fun hp hq => hr.1.1.2.resolve_left (by simp [hp, hq])) n)
  | .array n t, cx, l, hlay, hd, hpk, hr, he, hst, hl, hb, hc => by
    simp only [layoutOk] at hlay
    simp only [declOk] at hd
    simp only [peekOk] at hpk
    simp only [regular, Bool.and_eq_true, Bool.or_eq_true, Bool.not_eq_true'] at hr
    simp only [ends] at he
    simp only [cowOk] at hc
    have ih := parse_tot t Cx.std (Lim.std T.toHost) hlay hd hpk hr.2 he rfl (std_admits _) (LenTy.cap_le _ _) hc
    unfold parse
    refine tot_ite (fun h => ?_) fun _ => tot_map (tot_rep ih n)
    simp only [Bool.and_eq_true, Bool.not_eq_true'] at h
    rcases hr.1 with h' | h'
    · rw [h.1.2] at h'; cases h'
    · rw [h.2] at h'; cases h'
  | .refArray n t, cx, l, hlay, hd, hpk, hr, he, hst, hl, hb, hc => by
    simp only [layoutOk] at hlay
    simp only [declOk] at hd
    simp only [peekOk] at hpk
    simp only [regular, Bool.and_eq_true] at hr
    simp only [ends] at he
    simp only [cowOk] at hc
    have ih := parse_tot t Cx.std (Lim.std T.toHost) hlay hd hpk hr.2 he rfl (std_admits _) (LenTy.cap_le _ _) hc
    unfold parse
    exact tot_ite (fun _ => tot_fail _) fun _ => tot_ite (fun _ => tot_map (tot_rep ih n)) fun h => by
      simp [hr.1.1.1, hr.1.1.2] at h
  | .option t, cx, l, hlay, hd, hpk, hr, he, hst, hl, hb, hc => by
    simp only [layoutOk] at hlay
    simp only [declOk] at hd
    simp only [peekOk] at hpk
    simp only [regular] at hr
    simp only [ends] at he
    simp only [cowOk] at hc
    have ih := parse_tot t (cx.opt t) (l.opt T.toHost t) hlay hd hpk hr he (Cx.strict_opt hst t)
      (Lim.admits_opt hl t) (Lim.opt_le hb t) hc
    unfold parse
    exact tot_bind (tot_bool _) fun _ => tot_ite (fun _ => tot_map ih) fun _ => tot_pure _
  | .result a b, cx, l, hlay, hd, hpk, hr, he, hst, hl, hb, hc => by
    simp only [layoutOk, Bool.and_eq_true] at hlay
    simp only [declOk, Bool.and_eq_true] at hd
    simp only [peekOk, Bool.and_eq_true] at hpk
    simp only [regular, Bool.and_eq_true] at hr
    simp only [ends, Bool.and_eq_true] at he
    simp only [cowOk, Bool.and_eq_true] at hc
    have ih1 := parse_tot a Cx.std (Lim.std T.toHost) hlay.1 hd.1 hpk.1 hr.1 he.1 rfl (std_admits _)
      (LenTy.cap_le _ _) hc.1
    have ih2 := parse_tot b Cx.std (Lim.std T.toHost) hlay.2 hd.2 hpk.2 hr.2 he.2 rfl (std_admits _)
      (LenTy.cap_le _ _) hc.2
    unfold parse
    exact tot_bind (tot_bool _) fun _ => tot_ite (fun _ => tot_map ih1) fun _ => tot_map ih2
  | .range t, cx, l, hlay, hd, hpk, hr, he, hst, hl, hb, hc => by
    simp only [layoutOk] at hlay
    simp only [declOk] at hd
    simp only [peekOk] at hpk
    simp only [regular] at hr
    simp only [ends] at he
    simp only [cowOk] at hc
    have ih := parse_tot t Cx.std (Lim.std T.toHost) hlay hd hpk hr he rfl (std_admits _) (LenTy.cap_le _ _) hc
    unfold parse
    exact tot_bind ih fun _ => tot_bind ih fun _ => tot_pure _
  | .rangeInc t, cx, l, hlay, hd, hpk, hr, he, hst, hl, hb, hc => by
    simp only [layoutOk] at hlay
    simp only [declOk] at hd
    simp only [peekOk] at hpk
    simp only [regular] at hr
    simp only [ends] at he
    simp only [cowOk] at hc
    have ih := parse_tot t Cx.std (Lim.std T.toHost) hlay hd hpk hr he rfl (std_admits _) (LenTy.cap_le _ _) hc
    unfold parse
    exact tot_bind ih fun _ => tot_bind ih fun _ => tot_pure _
  | .pair a b, cx, l, hlay, hd, hpk, hr, he, hst, hl, hb, hc => by
    simp only [layoutOk, Bool.and_eq_true] at hlay
    simp only [declOk, Bool.and_eq_true] at hd
    simp only [peekOk, Bool.and_eq_true] at hpk
    simp only [regular, Bool.and_eq_true] at hr
    simp only [ends, Bool.and_eq_true, Bool.false_and] at he
    simp only [cowOk, Bool.and_eq_true] at hc
    have ih1 := parse_tot a Cx.std (Lim.std T.toHost) hlay.1 hd.1 hpk.1 hr.1 he.1 rfl (std_admits _)
      (LenTy.cap_le _ _) hc.1
    have ih2 := parse_tot b Cx.std (Lim.std T.toHost) hlay.2 hd.2 hpk.2 hr.2 he.2 rfl (std_admits _)
      (LenTy.cap_le _ _) hc.2
    unfold parse
    exact tot_bind ih1 fun _ => tot_bind ih2 fun _ => tot_pure _
  | .box t, cx, l, hlay, hd, hpk, hr, he, hst, hl, hb, hc => by
    simp only [layoutOk] at hlay
    simp only [declOk] at hd
    simp only [peekOk] at hpk
    simp only [regular] at hr
    simp only [ends] at he
    simp only [cowOk] at hc
    unfold parse
    exact parse_tot t Cx.std (Lim.std T.toHost) hlay hd hpk hr he rfl (std_admits _) (LenTy.cap_le _ _) hc
  | .via c t, cx, l, hlay, hd, hpk, hr, he, hst, hl, hb, hc => by
    simp only [layoutOk] at hlay
    simp only [declOk] at hd
    simp only [peekOk] at hpk
    simp only [regular] at hr
    simp only [ends] at he
    simp only [cowOk] at hc
    unfold parse
    exact tot_bind (parse_tot t Cx.std (Lim.std T.toHost) hlay hd hpk hr he rfl (std_admits _) (LenTy.cap_le _ _) hc) fun _ =>
      tot_convert _ _
  | .struct d fs, cx, l, hlay, hd, hpk, hr, he, hst, hl, hb, hc => by
    simp only [layoutOk, Bool.and_eq_true] at hlay
    simp only [declOk] at hd
    simp only [peekOk] at hpk
    simp only [regular] at hr
    simp only [ends] at he
    simp only [cowOk] at hc
    unfold parse
    exact parseFields_tot fs [] hlay.2 hd hpk hr he hc
  | .enum d vs, cx, l, hlay, hd, hpk, hr, he, hst, hl, hb, hc => by
    simp only [layoutOk] at hlay
    simp only [declOk, Bool.and_eq_true] at hd
    simp only [peekOk] at hpk
    simp only [regular] at hr
    simp only [ends] at he
    simp only [cowOk] at hc
    unfold parse
    exact tot_bind (tot_tag _ _) fun tag => parseVariants_tot d vs tag 0 hlay hd.2 hpk hr he hc
/-- Fields. -/
theorem parseFields_tot : ∀ (fs : Fields) (prev : List Val), layoutOkFields T fs = true → declOkFields fs = true →
    peekOkFields T fs = true → regularFields T e fs = true → endsFields false true fs = true →
    cowOkFields T fs = true → Tot (parseFields T e fs prev)
  | .nil, _, _, _, _, _, _, _ => by unfold parseFields; exact tot_pure _
  | .cons a t fs, prev, hlay, hd, hpk, hr, he, hc => by
    simp only [layoutOkFields, Bool.and_eq_true] at hlay
    simp only [declOkFields, Bool.and_eq_true] at hd
    simp only [peekOkFields, Bool.and_eq_true] at hpk
    simp only [regularFields, Bool.and_eq_true, decide_eq_true_eq] at hr
    simp only [endsFields, Bool.and_eq_true, Bool.false_and, Bool.or_eq_true] at he
    simp only [cowOkFields, Bool.and_eq_true] at hc
    have ihs : ∀ prev, Tot (parseFields T e fs prev) := fun prev =>
      parseFields_tot fs prev hlay.2 hd.1.2 hpk.2 hr.2 he.2 hc.2
    unfold parseFields
    refine tot_ite (fun _ => tot_map (ihs _)) fun hs => ?_
    have ha := he.1.resolve_left hs
    have hcx := Attrs.strict_len T.toHost prev ha.1
    have hde : a.defaultOnEof = false := by
      have := ha.1
      simp only [Attrs.ends, Bool.true_and, Bool.and_eq_true, Bool.not_eq_true'] at this
      exact this.1
    have ih := parse_tot t (a.cx T.toHost prev) (a.lim T.toHost) hlay.1 hd.1.1.2 hpk.1 hr.1.2 ha.2 hcx
      (Attrs.lim_admits _ _) (Attrs.lim_le _ _) hc.1
    simp only [hde, Bool.false_eq_true, if_false]
    refine tot_bind ?_ fun v => tot_map (ihs _)
    have hbody : Tot (if a.varint = true then P.map .num pVarint else parse T e t (a.cx T.toHost prev)) :=
      tot_ite (fun _ => tot_map tot_varint) fun _ => ih
    exact tot_ite (fun _ => hbody) fun _ => tot_bind (tot_const hr.1.1) fun _ => hbody
/-- Variants. -/
theorem parseVariants_tot (d : EnumDesc) : ∀ (vs : Variants) (tag i : Nat), layoutOkVariants T vs = true →
    declOkVariants vs = true → peekOkVariants T d vs = true → regularVariants T e vs = true →
    endsVariants false true vs = true → cowOkVariants T vs = true → Tot (parseVariants T e vs tag i)
  | .nil, _, _, _, _, _, _, _, _ => by unfold parseVariants; exact tot_fail _
  | .cons tag' fs vs, tag, i, hlay, hd, hpk, hr, he, hc => by
    simp only [layoutOkVariants, Bool.and_eq_true] at hlay
    simp only [declOkVariants, Bool.and_eq_true] at hd
    simp only [peekOkVariants, Bool.and_eq_true] at hpk
    simp only [regularVariants, Bool.and_eq_true] at hr
    simp only [endsVariants, Bool.and_eq_true] at he
    simp only [cowOkVariants, Bool.and_eq_true] at hc
    unfold parseVariants
    exact tot_ite (fun _ => tot_map (parseFields_tot fs [] hlay.1 hd.1 hpk.1.2 hr.1 he.1 hc.1)) fun _ =>
      parseVariants_tot d vs tag (i + 1) hlay.2 hd.2 hpk.2 hr.2 he.2 hc.2
end
end

end Verif
