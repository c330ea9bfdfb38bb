import Verif.WireMin
import Verif.StrictTy

/-!
# How much of the input a successful parse uses

If parsing succeeds, what is left is a suffix of the input and what was used is at
least `minimum_bytes_needed`; and, for types not sensitive to the end of the input, the
outcome does not depend on what follows.
-/

namespace Verif

/-- Success uses a prefix of the input of at least `m` bytes; if `loc`, the same prefix
gives the same result whatever follows. -/
def Sound {α : Type} (loc : Bool) (m : Nat) (p : P α) : Prop :=
  ∀ bs a rest, p bs = .ok a rest → ∃ used, bs = used ++ rest ∧ m ≤ used.length ∧
    (loc = true → ∀ x, p (used ++ x) = .ok a x)

section
variable {α β : Type} {loc : Bool} {m m' n : Nat}

theorem Sound.weaken {p : P α} (h : Sound loc m p) (hm : m' ≤ m) : Sound loc m' p := by
  intro bs a rest hp
  obtain ⟨u, h1, h2, h3⟩ := h bs a rest hp
  exact ⟨u, h1, by omega, h3⟩

theorem sound_pure (a : α) : Sound loc 0 (P.pure a) := by
  intro bs b rest h
  simp only [P.pure, PRes.ok.injEq] at h
  obtain ⟨rfl, rfl⟩ := h
  exact ⟨[], rfl, Nat.zero_le _, fun _ x => rfl⟩

theorem sound_fail (e : Err) : Sound loc m (P.fail e : P α) := by
  intro bs b rest h; simp [P.fail] at h

theorem sound_convert (c : Conv) (v : Val) : Sound loc 0 (pConvert c v) := by
  unfold pConvert
  cases c.apply v with
  | ok w => exact sound_pure _
  | error er => exact sound_fail _

theorem sound_amb (e : Err) : Sound loc m (P.amb e : P α) := by
  intro bs b rest h; simp [P.amb] at h

theorem sound_unspec : Sound loc m (P.unspec : P α) := by
  intro bs b rest h; simp [P.unspec] at h

theorem sound_bind {p : P α} {f : α → P β} (hp : Sound loc m p) (hf : ∀ a, Sound loc n (f a)) :
    Sound loc (m + n) (P.bind p f) := by
  intro bs b rest h
  unfold P.bind at h
  split at h
  · rename_i a r hpa
    obtain ⟨u, rfl, h2, h3⟩ := hp _ _ _ hpa
    obtain ⟨w, rfl, h5, h6⟩ := hf a _ _ _ h
    refine ⟨u ++ w, by simp, by simp; omega, fun hl x => ?_⟩
    rw [List.append_assoc]
    unfold P.bind
    rw [h3 hl]
    exact h6 hl x
  · simp at h
  · simp at h
  · simp at h

theorem sound_map {p : P α} {f : α → β} (hp : Sound loc m p) : Sound loc m (P.map f p) :=
  sound_bind (n := 0) hp fun _ => sound_pure _

theorem sound_ite {c : Prop} [Decidable c] {p q : P α} (hp : c → Sound loc m p) (hq : ¬ c → Sound loc m q) :
    Sound loc m (if c then p else q) := by
  by_cases h : c
  · rw [if_pos h]; exact hp h
  · rw [if_neg h]; exact hq h

theorem sound_take (n : Nat) : Sound loc n (pTake n) := by
  intro bs a rest h
  unfold pTake at h
  split at h
  · rename_i hn
    simp only [PRes.ok.injEq] at h
    obtain ⟨rfl, rfl⟩ := h
    have hl : (bs.take n).length = n := by simp; omega
    refine ⟨bs.take n, by simp, by omega, fun _ x => ?_⟩
    rw [pTake_ok (by simp; omega), List.take_left' hl, List.drop_left' hl]
  · simp at h

theorem sound_rest : Sound false 0 pRest := by
  intro bs a rest h
  simp only [pRest, PRes.ok.injEq] at h
  obtain ⟨rfl, rfl⟩ := h
  exact ⟨bs, by simp, Nat.zero_le _, by simp⟩

theorem sound_num (e : Endian) (n : Nat) : Sound loc n (pNum e n) := sound_map (sound_take n)

theorem sound_varint : Sound loc 1 pVarint :=
  sound_bind (n := 0) (sound_take 1) fun _ => (sound_map (sound_take _)).weaken (Nat.zero_le _)

theorem sound_len (h : Host) (e : Endian) (lt : LenTy) : Sound loc lt.minSize (pLen h e lt) := by
  cases lt <;> simp only [pLen, LenTy.minSize]
  · exact sound_bind (n := 0) (sound_num e 1) fun _ => sound_ite (fun _ => sound_fail _) fun _ => sound_pure _
  · exact sound_num e 1
  · exact sound_num e 2
  · exact sound_num e 4
  · exact sound_bind (n := 0) (sound_num e 8) fun _ => sound_ite (fun _ => sound_fail _) fun _ => sound_pure _
  · exact sound_bind (n := 0) sound_varint fun _ => sound_ite (fun _ => sound_fail _) fun _ => sound_pure _

theorem sound_rep {p : P α} (hp : Sound loc m p) : ∀ n, Sound loc (m * n) (pRep n p)
  | 0 => sound_pure _
  | n + 1 => by
    have := sound_bind (n := m * n) hp (f := fun v => P.bind (pRep n p) fun vs => P.pure (v :: vs))
      fun v => sound_bind (n := 0) (sound_rep hp n) fun vs => sound_pure _
    rw [Nat.mul_succ, Nat.add_comm]
    exact this

theorem sound_onEof {p : P α} (hp : Sound false m p) (d : α) : Sound false 0 (pOnEof p d) := by
  intro bs a rest h
  unfold pOnEof at h
  split at h
  · split at h
    · split at h
      · rename_i hb
        simp only [PRes.ok.injEq] at h
        obtain ⟨rfl, rfl⟩ := h
        exact ⟨[], by simpa using hb, Nat.zero_le _, by simp⟩
      · simp at h
    · simp at h
  · simp at h
  · obtain ⟨u, h1, _⟩ := hp _ _ _ h
    exact ⟨u, h1, Nat.zero_le _, by simp⟩

theorem sound_untilEof {p : P Val} (hp : Sound false m p) : ∀ fuel, Sound false 0 (pUntilEof fuel p)
  | 0 => sound_unspec
  | fuel + 1 => by
    intro bs a rest h
    unfold pUntilEof at h
    split at h
    · rename_i v r hpa
      obtain ⟨u, rfl, _⟩ := hp _ _ _ hpa
      split at h
      · split at h
        · rename_i vs r' hv
          obtain ⟨w, rfl, _⟩ := sound_untilEof hp fuel _ _ _ hv
          simp only [PRes.ok.injEq] at h
          obtain ⟨_, rfl⟩ := h
          exact ⟨u ++ w, by simp, Nat.zero_le _, by simp⟩
        · rename_i hv
          exact absurd h (hv _ _)
      · simp at h
    · split at h
      · split at h
        · rename_i hb
          simp only [PRes.ok.injEq] at h
          obtain ⟨rfl, rfl⟩ := h
          exact ⟨[], by simpa using hb, Nat.zero_le _, by simp⟩
        · simp at h
      · simp at h
    · simp at h

/-- Smallest size of a length which is read. -/
def LenR.low : LenR → Nat
  | .typed lt false => lt.minSize
  | _ => 0

theorem sound_lenR (h : Host) (e : Endian) {l : LenR} (hl : loc = true → l.strict = true) :
    Sound loc l.low (pLenR h e l) := by
  cases l with
  | typed lt d =>
    cases d with
    | false => exact sound_map (sound_len h e lt)
    | true =>
      cases loc with
      | true => exact absurd (hl rfl) (by simp [LenR.strict])
      | false => exact sound_map (sound_onEof (sound_len h e lt) 0)
  | fixed n => exact sound_pure _
  | untilEof =>
    cases loc with
    | true => exact absurd (hl rfl) (by simp [LenR.strict])
    | false => exact sound_pure _

theorem sound_strVal (bs : Bytes) : Sound loc 0 (pStrVal bs) :=
  sound_ite (fun _ => sound_pure _) fun _ => sound_fail _

/-- After a length: if the outcome depends on the end of the input (`loc = false`) or there is a number. -/
theorem sound_lenBind (h : Host) (e : Endian) {l : LenR} (hl : loc = true → l.strict = true) {f : Option Nat → P α}
    (hs : ∀ n, Sound loc 0 (f (some n))) (hn : loc = false → Sound loc 0 (f none)) :
    Sound loc l.low (P.bind (pLenR h e l) f) := by
  cases loc with
  | false =>
    exact sound_bind (n := 0) (sound_lenR h e (by simp)) fun a => by
      cases a with
      | none => exact hn rfl
      | some n => exact hs n
  | true =>
    have hls := hl rfl
    cases l with
    | typed lt d =>
      cases d with
      | true => cases hls
      | false =>
        have : P.bind (pLenR h e (.typed lt false)) f = P.bind (pLen h e lt) fun n => f (some n) := by
          funext bs
          simp only [pLenR, P.map, P.bind]
          cases pLen h e lt bs <;> rfl
        rw [this]
        exact sound_bind (n := 0) (sound_len h e lt) hs
    | fixed n => exact hs n
    | untilEof => cases hls

theorem sound_str (T : Target) (n : Nat) : Sound loc 0 (pStr T (some n)) :=
  sound_ite (fun _ => sound_unspec) fun _ => sound_ite (fun _ => sound_amb _) fun _ =>
    (sound_bind (n := 0) (sound_take n) fun _ => sound_strVal _).weaken (Nat.zero_le _)

theorem sound_str_rest (T : Target) : Sound false 0 (pStr T none) :=
  sound_bind (n := 0) sound_rest fun _ => sound_strVal _

theorem precheck_ok {r : PRes α} {a : α} {rest : Bytes} : precheck r ≠ .ok a rest := by
  cases r <;> simp [precheck]
  split <;> simp

theorem sound_vec {T : Target} {e : Endian} {t : Ty} {p : P Val} (hp : Sound loc (minBytes T t) p)
    (hz : loc = true → isPrimitive T t = false → sizeOf T t = 0 → minBytes T t = 0) (n : Nat) :
    Sound loc 0 (pVec T e t p n) := by
  intro bs a rest h
  unfold pVec at h
  split at h
  · simp at h
  · rename_i hb
    split at h
    · simp at h
    · rename_i hm
      simp only at h
      split at h
      · exact absurd h precheck_ok
      · rename_i hlen
        split at h
        · simp at h
        · rename_i hsz
          split at h
          · rename_i hzst
            simp only [PRes.ok.injEq] at h
            obtain ⟨rfl, rfl⟩ := h
            refine ⟨[], rfl, Nat.zero_le _, fun hl x => ?_⟩
            simp only [Bool.and_eq_true, Bool.not_eq_true', beq_iff_eq] at hzst
            unfold pVec
            rw [if_neg hb, if_neg hm]
            simp only [hsz, if_false, hz hl hzst.1 hzst.2, Nat.zero_mul, gt_iff_lt, Nat.not_lt_zero]
            simp [hzst]
          · rename_i hzst
            obtain ⟨u, h1, h2, h3⟩ := sound_rep hp n _ _ _ h
            refine ⟨u, h1, Nat.zero_le _, fun hl x => ?_⟩
            unfold pVec
            rw [if_neg hb, if_neg hm]
            simp only [hsz, hzst, if_false]
            rw [if_neg (by simp; omega)]
            exact h3 hl x

theorem sound_cow {T : Target} {e : Endian} {t : Ty} {p : P Val} (hp : Sound loc (minBytes T t) p)
    (hz : loc = true → isPrimitive T t = false → sizeOf T t = 0 → minBytes T t = 0) (n : Nat) :
    Sound loc 0 (pCow T e t p n) := sound_ite (fun _ => sound_unspec) fun _ => sound_vec hp hz n

theorem sound_rep0 {p : P α} (hp : Sound loc m p) (n : Nat) : Sound loc 0 (pRep n p) :=
  (sound_rep hp n).weaken (Nat.zero_le _)

theorem sound_coll {T : Target} {e : Endian} {t : Ty} {p : P Val} (hp : Sound loc m p) (n : Nat) :
    Sound loc 0 (pColl T e t p n) :=
  sound_ite (fun _ => sound_ite (fun _ => sound_fail _) fun _ => sound_ite (fun _ => sound_unspec) fun _ =>
    sound_rep0 hp n) fun _ => sound_rep0 hp n

theorem sound_pair {p q : P Val} (hp : Sound loc m p) (hq : Sound loc n q) : Sound loc (m + n) (pPair p q) :=
  sound_bind hp fun _ => sound_bind (n := 0) hq fun _ => sound_pure _

theorem sound_kv {T : Target} {e : Endian} {k v : Ty} {p q : P Val} (hp : Sound loc m p) (hq : Sound loc m' q)
    (n : Nat) : Sound loc 0 (pKV T e k v p q n) :=
  sound_ite (fun _ => sound_ite (fun _ => sound_fail _) fun _ => sound_ite (fun _ => sound_unspec) fun _ =>
    sound_rep0 (sound_pair hp hq) n) fun _ => sound_rep0 (sound_pair hp hq) n

theorem sound_ref {T : Target} {t : Ty} {p : P Val} (hp : Sound loc m p) (n : Nat) :
    Sound loc 0 (pRef T t p n) :=
  sound_ite (fun _ => sound_fail _) fun _ => sound_ite (fun _ => sound_rep0 hp n) fun _ => sound_unspec

theorem sound_refRest {T : Target} {t : Ty} {p : P Val} : Sound false 0 (pRefRest T t p) := by
  intro bs a rest h
  unfold pRefRest at h
  split at h
  · simp at h
  · split at h
    · split at h
      · simp only [PRes.ok.injEq] at h
        obtain ⟨rfl, rfl⟩ := h
        exact ⟨bs, by simp, Nat.zero_le _, by simp⟩
      · rename_i hr; exact absurd h (hr _ _)
    · simp at h

theorem sound_array {T : Target} {e : Endian} {inl : Bool} {t : Ty} {p : P Val} (hp : Sound loc m p) (n : Nat) :
    Sound loc (m * n) (pArray T e inl t p n) :=
  sound_ite (fun _ => sound_unspec) fun _ => sound_map (sound_rep hp n)

theorem sound_const (T : Target) (c : Bytes) : Sound loc c.length (pConst T c) :=
  sound_ite (fun _ => sound_unspec) fun _ => sound_bind (n := 0) (sound_take _) fun _ =>
    sound_ite (fun _ => sound_pure _) fun _ => sound_fail _

theorem sound_bool (e : Endian) : Sound loc 1 (pBool e) := sound_map (sound_num e 1)

theorem sound_ipv6 (T : Target) (e : Endian) : Sound loc 16 (pIpv6 T e) := sound_map (sound_take 16)

theorem sound_duration (e : Endian) : Sound loc 12 (pDuration e) :=
  sound_bind (n := 4) (sound_num e 8) fun _ => sound_bind (n := 0) (sound_num e 4) fun _ =>
    sound_ite (fun _ => sound_pure _) fun _ => sound_fail _

theorem sound_tag (e : Endian) {d : EnumDesc} (hp : d.peek = false) : Sound loc d.tagTy.minSize (pTag e d) := by
  obtain ⟨lt, p⟩ := d
  simp only at hp
  subst hp
  cases lt
  case varint => exact sound_varint
  all_goals exact sound_num e _

/-- After peeking at `k` bytes, something which uses at least `k` bytes. -/
theorem sound_peek {e : Endian} {k : Nat} {f : Nat → P α} (hf : ∀ a, Sound loc k (f a)) :
    Sound loc k (P.bind (pPeekNum e k) f) := by
  intro bs a rest h
  by_cases hk : k ≤ bs.length
  · have h1 : ∀ bs : Bytes, k ≤ bs.length → P.bind (pPeekNum e k) f bs = f (e.num (bs.take k)) bs := by
      intro bs hk
      simp [P.bind, pPeekNum, P.map, pPeek, hk, P.pure]
    rw [h1 bs hk] at h
    obtain ⟨u, rfl, h2, h3⟩ := hf _ _ _ _ h
    refine ⟨u, rfl, h2, fun hl x => ?_⟩
    rw [h1 _ (by simp; omega), List.take_append_of_le_length h2]
    rw [List.take_append_of_le_length h2] at h3
    exact h3 hl x
  · simp [P.bind, pPeekNum, P.map, pPeek, hk] at h

theorem specVarintVal_big {b : UInt8} {rest : Bytes} (hb : leadingOnes b.toNat ≠ 0) (hr : rest.head? = some b) :
    128 ≤ specVarintVal b rest := by
  have h1 : 128 ≤ b.toNat := by
    unfold leadingOnes at hb
    split at hb
    · exact absurd rfl hb
    · omega
  cases rest with
  | nil => simp at hr
  | cons c rest =>
    simp only [List.head?_cons, Option.some.injEq] at hr
    subst hr
    have h2 : 128 ≤ ofLe (c :: rest) := by simp only [ofLe]; omega
    unfold specVarintVal
    simp only
    split
    · exact h2
    · omega

/-- The same for variable length tags, all of which are below 128. -/
theorem sound_peekVarint {f : Nat → P α} (hf : ∀ a, a < 128 → Sound loc 1 (f a))
    (hbig : ∀ a, 128 ≤ a → ∀ bs b rest, f a bs ≠ .ok b rest) : Sound loc 1 (P.bind pPeekVarint f) := by
  intro bs a rest h
  cases bs with
  | nil => simp [P.bind, pPeekVarint, pPeek] at h
  | cons b bs =>
    by_cases h0 : leadingOnes b.toNat = 0
    · have h1 : ∀ bs : Bytes, P.bind pPeekVarint f (b :: bs) = f (specVarintVal b []) (b :: bs) := by
        intro bs
        simp [P.bind, pPeekVarint, pPeek, P.map, hd, h0, P.pure]
      rw [h1] at h
      have hlt : specVarintVal b [] < 128 := by
        have hb : b.toNat < 128 := by
          unfold leadingOnes at h0
          by_cases hh : b.toNat < 128
          · exact hh
          · rw [if_neg hh] at h0
            repeat' split at h0
            all_goals cases h0
        unfold specVarintVal
        simp only [h0, ofLe]
        simp
        omega
      obtain ⟨u, h2, h3, h4⟩ := hf _ hlt _ _ _ h
      cases u with
      | nil => simp at h3
      | cons c u =>
        simp only [List.cons_append, List.cons.injEq] at h2
        obtain ⟨rfl, rfl⟩ := h2
        refine ⟨b :: u, rfl, h3, fun hl x => ?_⟩
        rw [List.cons_append, h1]
        exact h4 hl x
    · exfalso
      by_cases hlen : leadingOnes b.toNat ≤ (b :: bs).length
      · have h1 : P.bind pPeekVarint f (b :: bs) =
            f (specVarintVal b ((b :: bs).take (leadingOnes b.toNat))) (b :: bs) := by
          simp only [List.length_cons] at hlen
          simp [P.bind, pPeekVarint, pPeek, P.map, hd, hlen, P.pure]
        rw [h1] at h
        refine hbig _ (specVarintVal_big h0 ?_) _ _ _ h
        obtain ⟨k, hk⟩ := Nat.exists_eq_succ_of_ne_zero h0
        rw [hk, List.take_succ_cons]; rfl
      · simp only [List.length_cons] at hlen
        simp [P.bind, pPeekVarint, pPeek, P.map, hd, hlen] at h

end

mutual
/-- In an enum with `peek_tag` the payload of every variant needs at least as many bytes as the tag, and
a variable length tag is one byte. -/
def peekOk (T : Target) : Ty → Bool
  | .seq _ t | .set t | .array _ t | .refArray _ t | .option t | .range t | .rangeInc t | .box t | .via _ t => peekOk T t
  | .map a b | .result a b | .pair a b => peekOk T a && peekOk T b
  | .struct _ fs => peekOkFields T fs
  | .enum d vs => peekOkVariants T d vs
  | _ => true
/-- Fields. -/
def peekOkFields (T : Target) : Fields → Bool
  | .nil => true
  | .cons _ t fs => peekOk T t && peekOkFields T fs
/-- Variants. -/
def peekOkVariants (T : Target) (d : EnumDesc) : Variants → Bool
  | .nil => true
  | .cons tag fs vs =>
    (!d.peek || (decide (d.tagTy.minSize ≤ fieldsMin T fs) && (decide (d.tagTy ≠ .varint) || decide (tag < 128)))) &&
      peekOkFields T fs && peekOkVariants T d vs
end

mutual
theorem zstEmpty_min {T : Target} : ∀ (t : Ty), declOk t = true → zstEmpty t = true → minBytes T t = 0
  | .unit, _, _ => rfl
  | .pair a b, hd, h => by
    simp only [zstEmpty, Bool.and_eq_true] at h
    simp only [declOk, Bool.and_eq_true] at hd
    simp [minBytes, zstEmpty_min a hd.1 h.1, zstEmpty_min b hd.2 h.2]
  | .array n t, hd, h => by
    simp only [zstEmpty, Bool.or_eq_true, beq_iff_eq] at h
    simp only [declOk] at hd
    rcases h with h | h
    · simp [minBytes, h]
    · simp [minBytes, zstEmpty_min t hd h]
  | .range t, hd, h => by
    simp only [zstEmpty] at h
    simp only [declOk] at hd
    simp [minBytes, zstEmpty_min t hd h]
  | .struct _ fs, hd, h => by
    simp only [zstEmpty] at h
    simp only [declOk] at hd
    simp [minBytes, zstEmpty_minFields fs hd h]
  | .prim _, _, h | .usize, _, h | .bool, _, h | .char, _, h | .nonZero _, _, h | .atomic _, _, h | .ipv4, _, h
  | .ipv6, _, h | .ipAddr, _, h | .duration, _, h | .systemTime, _, h | .endianness, _, h | .varint64, _, h
  | .uuid, _, h | .str _, _, h | .seq _ _, _, h | .set _, _, h | .map _ _, _, h | .refArray _ _, _, h
  | .option _, _, h | .result _ _, _, h | .rangeInc _, _, h | .box _, _, h | .via _ _, _, h | .enum _ _, _, h => by
    simp [zstEmpty] at h
theorem zstEmpty_minFields {T : Target} : ∀ (fs : Fields), declOkFields fs = true → zstEmptyFields fs = true →
    fieldsMin T fs = 0
  | .nil, _, _ => rfl
  | .cons a t fs, hd, h => by
    simp only [zstEmptyFields, Bool.and_eq_true, Bool.not_eq_true', List.isEmpty_iff] at h
    simp only [declOkFields, Bool.and_eq_true] at hd
    obtain ⟨⟨⟨h1, h2⟩, h3⟩, h4⟩ := h
    have ht := zstEmpty_min (T := T) t hd.1.1.2 h1
    have hc : a.len = none ∨ ∃ k, a.len = some k ∧ ∀ lt, k ≠ .typed lt := by
      have := hd.1.1.1
      simp only [Attrs.declOk, Bool.and_eq_true] at this
      cases hl : a.len with
      | none => exact .inl rfl
      | some k =>
        refine .inr ⟨k, rfl, ?_⟩
        rintro lt rfl
        rw [hl] at this
        cases t <;> simp_all [Ty.isContainer, zstEmpty]
    simp only [fieldsMin, zstEmpty_minFields fs hd.1.2 h4, h2, h3, ht, List.length_nil]
    split
    · rfl
    · rcases hc with hl | ⟨k, hl, hk⟩
      · simp [hl]
      · rw [hl]
        cases k with
        | typed lt => exact absurd rfl (hk lt)
        | _ => rfl
end

theorem vecOk_zst {T : Target} {e : Endian} {t : Ty} (hd : declOk t = true) (h : vecOk T e t = true)
    (hp : isPrimitive T t = false) (hs : sizeOf T t = 0) : minBytes T t = 0 := by
  simp only [vecOk, hp, hs, Bool.false_eq_true, if_false, bne_self_eq_false, Bool.false_or] at h
  exact zstEmpty_min t hd h

/-- Smallest number of bytes used in a context. -/
def lowAt (T : Target) (t : Ty) (l : LenR) : Nat := if t.isContainer then l.low else minBytes T t

theorem lowAt_std (T : Target) (t : Ty) : lowAt T t Cx.std.len = minBytes T t := by
  unfold lowAt
  split
  · rename_i h; rw [isContainer_min h]; rfl
  · rfl

/-- What `fieldsMin` counts for a field without `default_on_eof` is at most what reading the field uses. -/
theorem fieldsMin_low {T : Target} {a : Attrs} {t : Ty} (fs : Fields) (prev : List Val) (hd : a.declOk t = true)
    (hs : a.skip = false) : fieldsMin T (.cons a t fs) ≤ (if a.defaultOnEof then 0 else
      a.pre.length + (if a.varint then 1 else lowAt T t (a.cx T.toHost prev).len)) + fieldsMin T fs := by
  simp only [fieldsMin, hs, Bool.or_false]
  split
  · omega
  rename_i hde
  simp only [Attrs.declOk, Bool.and_eq_true] at hd
  obtain ⟨h1, h2⟩ := hd
  cases hl : a.len with
  | none =>
    simp only
    by_cases hv : a.varint = true
    · simp [hv]
    · simp only [hv, if_false]
      have : (a.cx T.toHost prev).len.low = 4 := by
        unfold Attrs.cx Attrs.wcx
        simp only [hl, hde]
        split <;> rfl
      unfold lowAt
      simp only [Bool.false_eq_true, if_false]
      by_cases hc : t.isContainer = true
      · rw [if_pos hc, isContainer_min hc, this]; omega
      · rw [if_neg hc]; omega
  | some k =>
    cases k with
    | typed lt =>
      simp only
      rw [hl] at h1
      simp only [Bool.and_eq_true, Bool.not_eq_true'] at h1
      have hm : (a.cx T.toHost prev).len.low = lt.minSize := by
        unfold Attrs.cx Attrs.wcx
        simp only [hl, hde, h1.1]
        rfl
      have hv : a.varint = false := by
        cases hv : a.varint with
        | false => rfl
        | true =>
          rw [hv] at h2
          simp only [Bool.not_true, Bool.false_or] at h2
          split at h2
          · simp [Ty.isContainer] at h1
          · simp at h2
      rw [hv]
      simp only [Bool.false_eq_true, if_false]
      cases t <;> first
        | (simp [Ty.isContainer] at h1; done)
        | (simp only [lowAt, Ty.isContainer, if_true, hm]; omega)
        | (simp [lowAt, Ty.isContainer, minBytes]; try omega)
    | expr f => simp only; omega
    | untilEof => simp only; omega

section
variable {T : Target} {e : Endian} {loc : Bool}

theorem parseVariants_big {d : EnumDesc} (hp : d.peek = true) (hv : d.tagTy = .varint) : ∀ (vs : Variants) (tag i : Nat),
    peekOkVariants T d vs = true → 128 ≤ tag → ∀ bs b rest, parseVariants T e vs tag i bs ≠ .ok b rest
  | .nil, _, _, _, _, bs, b, rest => by simp [parseVariants, P.fail]
  | .cons tag' fs vs, tag, i, hk, ht, bs, b, rest => by
    simp only [peekOkVariants, hp, hv, Bool.not_true, Bool.false_or, ne_eq, not_true, decide_false, Bool.and_eq_true,
      decide_eq_true_eq] at hk
    unfold parseVariants
    rw [if_neg (by omega)]
    exact parseVariants_big hp hv vs tag _ hk.2 ht bs b rest

mutual
/-- Success uses at least `minimum_bytes_needed`, and does not depend on what follows. -/
theorem parse_sound : ∀ (t : Ty) (cx : Cx), layoutOk T t = true → declOk t = true → peekOk T t = true →
    (loc = true → regular T e t = true ∧ ends false true t = true ∧ cx.len.strict = true) →
    Sound loc (lowAt T t cx.len) (parse T e t cx)
  | .prim p, _, _, _, _, _ => by unfold parse; exact sound_map (sound_num _ _)
  | .usize, _, _, _, _, _ => by
    unfold parse; exact sound_bind (n := 0) (sound_num _ _) fun _ => sound_ite (fun _ => sound_fail _) fun _ => sound_pure _
  | .bool, _, _, _, _, _ => by unfold parse; exact sound_map (sound_bool _)
  | .char, _, _, _, _, _ => by
    unfold parse; exact sound_bind (n := 0) (sound_num _ _) fun _ => sound_ite (fun _ => sound_pure _) fun _ => sound_fail _
  | .nonZero p, _, _, _, _, _ => by
    unfold parse; exact sound_bind (n := 0) (sound_num _ _) fun _ => sound_ite (fun _ => sound_fail _) fun _ => sound_pure _
  | .atomic p, _, _, _, _, _ => by unfold parse; exact sound_map (sound_num _ _)
  | .ipv4, _, _, _, _, _ => by unfold parse; exact sound_map (sound_num _ _)
  | .ipv6, _, _, _, _, _ => by unfold parse; exact sound_ipv6 _ _
  | .ipAddr, _, _, _, _, _ => by
    unfold parse
    exact sound_bind (n := 4) (sound_num e 1) fun _ => sound_ite (fun _ => sound_map (sound_num _ _)) fun _ =>
      sound_ite (fun _ => (sound_map (sound_ipv6 _ _)).weaken (by omega)) fun _ => sound_fail _
  | .duration, _, _, _, _, _ => by unfold parse; exact sound_map (sound_duration _)
  | .systemTime, _, _, _, _, _ => by
    unfold parse
    exact sound_bind (n := 0) (sound_duration _) fun _ => sound_ite (fun _ => sound_pure _) fun _ => sound_fail _
  | .endianness, _, _, _, _, _ => by
    unfold parse
    exact sound_bind (n := 0) (sound_num _ _) fun _ => sound_ite (fun _ => sound_pure _) fun _ =>
      sound_ite (fun _ => sound_pure _) fun _ => sound_fail _
  | .varint64, _, _, _, _, _ => by unfold parse; exact sound_map sound_varint
  | .uuid, _, _, _, _, _ => by unfold parse; exact sound_map (sound_take _)
  | .str k, cx, _, _, _, hl => by
    unfold parse
    exact sound_lenBind _ _ (fun h => (hl h).2.2) (fun n => sound_str _ _) fun h => by subst h; exact sound_str_rest _
  | .seq k t, cx, hlay, hd, hpk, hl => by
    simp only [layoutOk] at hlay
    simp only [declOk] at hd
    simp only [peekOk] at hpk
    have ih : Sound loc (minBytes T t) (parse T e t Cx.std) := by
      rw [← lowAt_std]
      refine parse_sound t Cx.std hlay hd hpk fun h => ?_
      have := hl h
      simp only [regular, Bool.and_eq_true, ends] at this
      exact ⟨this.1.1.2, this.2.1, rfl⟩
    have hz : loc = true → isPrimitive T t = false → sizeOf T t = 0 → minBytes T t = 0 := by
      intro h
      have := hl h
      simp only [regular, Bool.and_eq_true, ends] at this
      exact vecOk_zst hd this.1.1.1
    unfold parse
    refine sound_ite (fun _ => sound_fail _) fun _ => ?_
    refine sound_lenBind _ _ (fun h => (hl h).2.2) (fun n => ?_) fun h => ?_
    · cases k
      · exact sound_map (sound_vec ih hz n)
      · exact sound_map (sound_cow ih hz n)
      · exact sound_map (sound_ref ih n)
    · subst h
      cases k
      · exact sound_map (sound_untilEof ih _)
      · exact sound_map (sound_untilEof ih _)
      · exact sound_map sound_refRest
  | .set t, cx, hlay, hd, hpk, hl => by
    simp only [layoutOk] at hlay
    simp only [declOk] at hd
    simp only [peekOk] at hpk
    have ih : Sound loc (minBytes T t) (parse T e t Cx.std) := by
      rw [← lowAt_std]
      refine parse_sound t Cx.std hlay hd hpk fun h => ?_
      have := hl h
      simp only [regular, Bool.and_eq_true, ends] at this
      exact ⟨this.1.2, this.2.1, rfl⟩
    unfold parse
    exact sound_lenBind _ _ (fun h => (hl h).2.2) (fun n => sound_map (sound_coll ih n)) fun h => by
      subst h; exact sound_map (sound_untilEof ih _)
  | .map k v, cx, hlay, hd, hpk, hl => by
    simp only [layoutOk, Bool.and_eq_true] at hlay
    simp only [declOk, Bool.and_eq_true] at hd
    simp only [peekOk, Bool.and_eq_true] at hpk
    have ihk : Sound loc (lowAt T k Cx.std.len) (parse T e k Cx.std) := by
      refine parse_sound k Cx.std hlay.1 hd.1 hpk.1 fun h => ?_
      have := hl h
      simp only [regular, Bool.and_eq_true, ends] at this
      exact ⟨this.1.1.2, this.2.1.1, rfl⟩
    have ihv : Sound loc (lowAt T v Cx.std.len) (parse T e v Cx.std) := by
      refine parse_sound v Cx.std hlay.2 hd.2 hpk.2 fun h => ?_
      have := hl h
      simp only [regular, Bool.and_eq_true, ends] at this
      exact ⟨this.1.2, this.2.1.2, rfl⟩
    unfold parse
    exact sound_lenBind _ _ (fun h => (hl h).2.2) (fun n => sound_map (sound_kv ihk ihv n)) fun h => by
      subst h; exact sound_map (sound_untilEof (sound_pair ihk ihv) _)
  | .array n t, cx, hlay, hd, hpk, hl => by
    simp only [layoutOk] at hlay
    simp only [declOk] at hd
    simp only [peekOk] at hpk
    have ih : Sound loc (minBytes T t) (parse T e t Cx.std) := by
      rw [← lowAt_std]
      refine parse_sound t Cx.std hlay hd hpk fun h => ?_
      have := hl h
      simp only [regular, Bool.and_eq_true, ends] at this
      exact ⟨this.1.2, this.2.1, rfl⟩
    unfold parse
    exact sound_array ih n
  | .refArray n t, cx, hlay, hd, hpk, hl => by
    simp only [layoutOk] at hlay
    simp only [declOk] at hd
    simp only [peekOk] at hpk
    have ih : Sound loc (minBytes T t) (parse T e t Cx.std) := by
      rw [← lowAt_std]
      refine parse_sound t Cx.std hlay hd hpk fun h => ?_
      have := hl h
      simp only [regular, Bool.and_eq_true, ends] at this
      exact ⟨this.1.2, this.2.1, rfl⟩
    unfold parse
    refine sound_ite (fun _ => sound_fail _) fun _ => sound_ite (fun hp => ?_) fun _ => sound_unspec
    simp only [Bool.and_eq_true] at hp
    have : lowAt T (.refArray n t) cx.len = minBytes T t * n := by
      simp [lowAt, Ty.isContainer, minBytes, minBytes_prim t hp.1 hlay hp.2]
    rw [this]
    exact sound_map (sound_rep ih n)
  | .option t, cx, hlay, hd, hpk, hl => by
    simp only [layoutOk] at hlay
    simp only [declOk] at hd
    simp only [peekOk] at hpk
    have ih : Sound loc (lowAt T t (cx.opt t).len) (parse T e t (cx.opt t)) := by
      refine parse_sound t (cx.opt t) hlay hd hpk fun h => ?_
      have := hl h
      simp only [regular, ends] at this
      exact ⟨this.1, this.2.1, Cx.strict_opt this.2.2 t⟩
    unfold parse
    exact sound_bind (n := 0) (sound_bool _) fun _ =>
      sound_ite (fun _ => (sound_map ih).weaken (Nat.zero_le _)) fun _ => sound_pure _
  | .result a b, cx, hlay, hd, hpk, hl => by
    simp only [layoutOk, Bool.and_eq_true] at hlay
    simp only [declOk, Bool.and_eq_true] at hd
    simp only [peekOk, Bool.and_eq_true] at hpk
    have ih1 : Sound loc (lowAt T a Cx.std.len) (parse T e a Cx.std) := by
      refine parse_sound a Cx.std hlay.1 hd.1 hpk.1 fun h => ?_
      have := hl h
      simp only [regular, Bool.and_eq_true, ends] at this
      exact ⟨this.1.1, this.2.1.1, rfl⟩
    have ih2 : Sound loc (lowAt T b Cx.std.len) (parse T e b Cx.std) := by
      refine parse_sound b Cx.std hlay.2 hd.2 hpk.2 fun h => ?_
      have := hl h
      simp only [regular, Bool.and_eq_true, ends] at this
      exact ⟨this.1.2, this.2.1.2, rfl⟩
    unfold parse
    exact sound_bind (n := 0) (sound_bool _) fun _ => sound_ite (fun _ => (sound_map ih1).weaken (Nat.zero_le _))
      fun _ => (sound_map ih2).weaken (Nat.zero_le _)
  | .range t, cx, hlay, hd, hpk, hl => by
    simp only [layoutOk] at hlay
    simp only [declOk] at hd
    simp only [peekOk] at hpk
    have ih : Sound loc (minBytes T t) (parse T e t Cx.std) := by
      rw [← lowAt_std]
      refine parse_sound t Cx.std hlay hd hpk fun h => ?_
      have := hl h
      simp only [regular, ends] at this
      exact ⟨this.1, this.2.1, rfl⟩
    unfold parse
    exact (sound_bind ih fun _ => sound_bind (n := 0) ih fun _ => sound_pure _).weaken
      (by simp [lowAt, Ty.isContainer, minBytes]; omega)
  | .rangeInc t, cx, hlay, hd, hpk, hl => by
    simp only [layoutOk] at hlay
    simp only [declOk] at hd
    simp only [peekOk] at hpk
    have ih : Sound loc (minBytes T t) (parse T e t Cx.std) := by
      rw [← lowAt_std]
      refine parse_sound t Cx.std hlay hd hpk fun h => ?_
      have := hl h
      simp only [regular, ends] at this
      exact ⟨this.1, this.2.1, rfl⟩
    unfold parse
    exact (sound_bind ih fun _ => sound_bind (n := 0) ih fun _ => sound_pure _).weaken
      (by simp [lowAt, Ty.isContainer, minBytes]; omega)
  | .unit, _, _, _, _, _ => by unfold parse; exact sound_pure _
  | .pair a b, cx, hlay, hd, hpk, hl => by
    simp only [layoutOk, Bool.and_eq_true] at hlay
    simp only [declOk, Bool.and_eq_true] at hd
    simp only [peekOk, Bool.and_eq_true] at hpk
    have ih1 : Sound loc (minBytes T a) (parse T e a Cx.std) := by
      rw [← lowAt_std]
      refine parse_sound a Cx.std hlay.1 hd.1 hpk.1 fun h => ?_
      have := hl h
      simp only [regular, Bool.and_eq_true, ends, Bool.false_and] at this
      exact ⟨this.1.1, this.2.1.1, rfl⟩
    have ih2 : Sound loc (minBytes T b) (parse T e b Cx.std) := by
      rw [← lowAt_std]
      refine parse_sound b Cx.std hlay.2 hd.2 hpk.2 fun h => ?_
      have := hl h
      simp only [regular, Bool.and_eq_true, ends, Bool.false_and] at this
      exact ⟨this.1.2, this.2.1.2, rfl⟩
    unfold parse
    exact sound_bind ih1 fun _ => sound_bind (n := 0) ih2 fun _ => sound_pure _
  | .box t, cx, hlay, hd, hpk, hl => by
    simp only [layoutOk] at hlay
    simp only [declOk] at hd
    simp only [peekOk] at hpk
    have ih : Sound loc (minBytes T t) (parse T e t Cx.std) := by
      rw [← lowAt_std]
      refine parse_sound t Cx.std hlay hd hpk fun h => ?_
      have := hl h
      simp only [regular, ends] at this
      exact ⟨this.1, this.2.1, rfl⟩
    unfold parse
    exact ih
  | .via c t, cx, hlay, hd, hpk, hl => by
    simp only [layoutOk] at hlay
    simp only [declOk] at hd
    simp only [peekOk] at hpk
    have ih : Sound loc (minBytes T t) (parse T e t Cx.std) := by
      rw [← lowAt_std]
      refine parse_sound t Cx.std hlay hd hpk fun h => ?_
      have := hl h
      simp only [regular, ends] at this
      exact ⟨this.1, this.2.1, rfl⟩
    unfold parse
    exact sound_bind (n := 0) ih fun _ => sound_convert _ _
  | .struct d fs, cx, hlay, hd, hpk, hl => by
    simp only [layoutOk, Bool.and_eq_true] at hlay
    simp only [declOk] at hd
    simp only [peekOk] at hpk
    unfold parse
    refine parseFields_sound fs [] hlay.2 hd hpk fun h => ?_
    have := hl h
    simp only [regular, ends] at this
    exact ⟨this.1, this.2.1⟩
  | .enum d vs, cx, hlay, hd, hpk, hl => by
    simp only [layoutOk] at hlay
    simp only [declOk, Bool.and_eq_true] at hd
    simp only [peekOk] at hpk
    have ih : ∀ tag, Sound loc (if d.peek then d.tagTy.minSize else 0) (parseVariants T e vs tag 0) := by
      intro tag
      refine parseVariants_sound d vs tag 0 hlay hd.2 hpk fun h => ?_
      have := hl h
      simp only [regular, ends] at this
      exact ⟨this.1, this.2.1⟩
    have hbig := fun hp hv => parseVariants_big (T := T) (e := e) (d := d) hp hv vs
    unfold parse
    revert ih hbig hpk
    obtain ⟨lt, pk, nm⟩ := d
    intro hpk ih hbig
    cases pk with
    | false =>
      have h1 : lowAt T (.enum ⟨lt, false, nm⟩ vs) cx.len = lt.minSize := by simp [lowAt, Ty.isContainer, minBytes]
      rw [h1]
      exact sound_bind (n := 0) (sound_tag (d := ⟨lt, false, nm⟩) e rfl) ih
    | true =>
      have h1 : lowAt T (.enum ⟨lt, true, nm⟩ vs) cx.len = lt.minSize := by simp [lowAt, Ty.isContainer, minBytes]
      rw [h1]
      simp only [if_true] at ih
      cases lt
      case varint =>
        exact sound_peekVarint (fun a _ => ih a) fun a ha => hbig rfl rfl a 0 hpk ha
      all_goals exact sound_peek ih
/-- Fields. -/
theorem parseFields_sound : ∀ (fs : Fields) (prev : List Val), layoutOkFields T fs = true → declOkFields fs = true →
    peekOkFields T fs = true → (loc = true → regularFields T e fs = true ∧ endsFields false true fs = true) →
    Sound loc (fieldsMin T fs) (parseFields T e fs prev)
  | .nil, _, _, _, _, _ => by unfold parseFields; exact sound_pure _
  | .cons a t fs, prev, hlay, hd, hpk, hl => by
    simp only [layoutOkFields, Bool.and_eq_true] at hlay
    simp only [declOkFields, Bool.and_eq_true] at hd
    simp only [peekOkFields, Bool.and_eq_true] at hpk
    have ihs : ∀ prev, Sound loc (fieldsMin T fs) (parseFields T e fs prev) := fun prev => by
      refine parseFields_sound fs prev hlay.2 hd.1.2 hpk.2 fun h => ?_
      have := hl h
      simp only [regularFields, endsFields, Bool.and_eq_true] at this
      exact ⟨this.1.2, this.2.2⟩
    unfold parseFields
    by_cases hs : a.skip = true
    · rw [if_pos hs]
      have : fieldsMin T (.cons a t fs) = fieldsMin T fs := by simp [fieldsMin, hs]
      rw [this]
      exact sound_map (ihs _)
    · rw [if_neg hs]
      have hs' : a.skip = false := by simpa using hs
      refine Sound.weaken ?_ (fieldsMin_low fs prev hd.1.1.1 hs')
      refine sound_bind ?_ fun v => sound_map (ihs _)
      have hcx : loc = true → a.defaultOnEof = false ∧ (a.cx T.toHost prev).len.strict = true := by
        intro h
        have := hl h
        simp only [endsFields, Bool.false_and, Bool.and_eq_true, Bool.or_eq_true, hs', Bool.false_eq_true,
          false_or] at this
        have ha := this.2.1.1
        refine ⟨?_, Attrs.strict_len _ _ ha⟩
        simp only [Attrs.ends, Bool.true_and, Bool.and_eq_true, Bool.not_eq_true'] at ha
        exact ha.1
      have ih : Sound loc (lowAt T t (a.cx T.toHost prev).len) (parse T e t (a.cx T.toHost prev)) := by
        refine parse_sound t _ hlay.1 hd.1.1.2 hpk.1 fun h => ?_
        have h2 := hcx h
        have := hl h
        simp only [regularFields, endsFields, Bool.false_and, Bool.and_eq_true, Bool.or_eq_true, hs',
          Bool.false_eq_true, false_or] at this
        exact ⟨this.1.1.2, this.2.1.2, h2.2⟩
      have hbody : Sound loc (if a.varint then 1 else lowAt T t (a.cx T.toHost prev).len)
          (if a.varint = true then P.map .num pVarint else parse T e t (a.cx T.toHost prev)) := by
        by_cases hv : a.varint = true
        · simp only [hv, if_true]; exact sound_map sound_varint
        · simp only [hv, Bool.false_eq_true, if_false]; exact ih
      have hbody2 : Sound loc (a.pre.length + if a.varint then 1 else lowAt T t (a.cx T.toHost prev).len)
          (if a.pre.isEmpty = true then
            (if a.varint = true then P.map .num pVarint else parse T e t (a.cx T.toHost prev))
           else P.bind (pConst T a.pre) fun _ =>
            (if a.varint = true then P.map .num pVarint else parse T e t (a.cx T.toHost prev))) := by
        by_cases hp : a.pre.isEmpty = true
        · rw [if_pos hp]
          have : a.pre.length = 0 := by simpa using hp
          rw [this, Nat.zero_add]
          exact hbody
        · rw [if_neg hp]
          exact sound_bind (sound_const T a.pre) fun _ => hbody
      by_cases hde : a.defaultOnEof = true
      · simp only [hde, if_true]
        cases loc with
        | true => have := (hcx rfl).1; rw [hde] at this; cases this
        | false => exact sound_onEof hbody2 _
      · simp only [hde, if_false, Bool.false_eq_true]
        exact hbody2
/-- Variants. -/
theorem parseVariants_sound (d : EnumDesc) : ∀ (vs : Variants) (tag i : Nat), layoutOkVariants T vs = true →
    declOkVariants vs = true → peekOkVariants T d vs = true →
    (loc = true → regularVariants T e vs = true ∧ endsVariants false true vs = true) →
    Sound loc (if d.peek then d.tagTy.minSize else 0) (parseVariants T e vs tag i)
  | .nil, _, _, _, _, _, _ => by unfold parseVariants; exact sound_fail _
  | .cons tag' fs vs, tag, i, hlay, hd, hpk, hl => by
    simp only [layoutOkVariants, Bool.and_eq_true] at hlay
    simp only [declOkVariants, Bool.and_eq_true] at hd
    simp only [peekOkVariants, Bool.and_eq_true] at hpk
    unfold parseVariants
    refine sound_ite (fun _ => ?_) fun _ => ?_
    · have := parseFields_sound fs [] hlay.1 hd.1 hpk.1.2 fun h => by
        have := hl h
        simp only [regularVariants, endsVariants, Bool.and_eq_true] at this
        exact ⟨this.1.1, this.2.1⟩
      refine (sound_map this).weaken ?_
      cases hp : d.peek with
      | false => simp
      | true =>
        have := hpk.1.1
        simp only [hp, Bool.not_true, Bool.false_or, Bool.and_eq_true, decide_eq_true_eq] at this
        simpa using this.1
    · refine parseVariants_sound d vs tag _ hlay.2 hd.2 hpk.2 fun h => ?_
      have := hl h
      simp only [regularVariants, endsVariants, Bool.and_eq_true] at this
      exact ⟨this.1.2, this.2.2⟩
end

end

end Verif
