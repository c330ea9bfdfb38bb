import Verif.Recode

/-!
# Values which have been read are canonical

`parse_canon`: the values which the readers return are the ones which are read back when they are written (`canon`), for types
without `peek_tag`.
-/

namespace Verif

/-- Every result of a parser. -/
def Gives {α : Type} (p : P α) (Q : α → Prop) : Prop := ∀ bs a rest, p bs = .ok a rest → Q a

section
variable {α β : Type}

theorem Gives.mono {p : P α} {Q R : α → Prop} (h : Gives p Q) (hq : ∀ a, Q a → R a) : Gives p R :=
  fun bs a rest hp => hq a (h bs a rest hp)

theorem gives_true (p : P α) : Gives p fun _ => True := fun _ _ _ _ => trivial

theorem gives_all {p : P α} {Q : α → Prop} (h : ∀ a, Q a) : Gives p Q := fun _ a _ _ => h a

theorem gives_pure {a : α} {Q : α → Prop} (h : Q a) : Gives (P.pure a) Q := by
  intro bs b rest hp
  simp only [P.pure, PRes.ok.injEq] at hp
  exact hp.1 ▸ h

theorem gives_fail {Q : α → Prop} (er : Err) : Gives (P.fail er) Q := fun _ _ _ h => by simp [P.fail] at h
theorem gives_unspec {Q : α → Prop} : Gives P.unspec Q := fun _ _ _ h => by simp [P.unspec] at h

theorem gives_ite {c : Prop} [Decidable c] {p q : P α} {Q : α → Prop} (hp : c → Gives p Q) (hq : ¬ c → Gives q Q) :
    Gives (if c then p else q) Q := by
  split
  · exact hp ‹_›
  · exact hq ‹_›

theorem gives_bind {p : P α} {f : α → P β} {Q : α → Prop} {R : β → Prop} (hp : Gives p Q) (hf : ∀ a, Q a → Gives (f a) R) :
    Gives (P.bind p f) R := fun bs b rest h => by
  obtain ⟨a, mid, h1, h2⟩ := pBind_ok h
  exact hf a (hp _ _ _ h1) _ _ _ h2

theorem gives_map {p : P α} {f : α → β} {Q : β → Prop} (hp : Gives p fun a => Q (f a)) : Gives (P.map f p) Q :=
  gives_bind hp fun _ h => gives_pure h

theorem gives_rep {p : P α} {Q : α → Prop} (hp : Gives p Q) : ∀ n, Gives (pRep n p) fun vs => ∀ v ∈ vs, Q v
  | 0 => gives_pure fun _ h => by cases h
  | n + 1 => gives_bind hp fun v hv => gives_bind (gives_rep hp n) fun vs hvs => gives_pure fun u hu => by
    rcases List.mem_cons.mp hu with rfl | hu
    · exact hv
    · exact hvs u hu

theorem gives_untilEof {p : P Val} {Q : Val → Prop} (hp : Gives p Q) : ∀ n, Gives (pUntilEof n p) fun vs => ∀ v ∈ vs, Q v
  | 0 => gives_unspec
  | n + 1 => fun bs vs rest h => by
    unfold pUntilEof at h
    split at h
    · rename_i v r hv
      split at h
      · split at h
        · rename_i vs' r' hvs
          simp only [PRes.ok.injEq] at h
          obtain ⟨rfl, rfl⟩ := h
          intro u hu
          rcases List.mem_cons.mp hu with rfl | hu
          · exact hp _ _ _ hv
          · exact gives_untilEof hp n _ _ _ hvs u hu
        · rename_i hno
          exact (hno _ _ h).elim
      · cases h
    · split at h
      · split at h
        · simp only [PRes.ok.injEq] at h
          obtain ⟨rfl, rfl⟩ := h
          exact fun _ h => by cases h
        · cases h
      · cases h
    · cases h

theorem gives_onEof {p : P α} {d : α} {Q : α → Prop} (hp : Gives p Q) (hd : Q d) : Gives (pOnEof p d) Q := by
  intro bs a rest h
  unfold pOnEof at h
  split at h
  · split at h
    · split at h
      · simp only [PRes.ok.injEq] at h
        exact h.1 ▸ hd
      · cases h
    · cases h
  · cases h
  · exact hp _ _ _ h

end

section
variable {T : Target} {e : Endian}

theorem gives_vec {t : Ty} {p : P Val} {Q : Val → Prop} (hp : Gives p Q)
    (hz : isPrimitive T t = false → sizeOf T t = 0 → Q (zstVal t)) (n : Nat) : Gives (pVec T e t p n) fun vs => ∀ v ∈ vs, Q v := by
  intro bs vs rest h
  unfold pVec at h
  split at h
  · cases h
  · split at h
    · cases h
    · simp only at h
      split at h
      · exact absurd h precheck_ok
      · split at h
        · cases h
        · split at h
          · rename_i hzz
            simp only [PRes.ok.injEq] at h
            obtain ⟨rfl, rfl⟩ := h
            simp only [Bool.and_eq_true, Bool.not_eq_true', beq_iff_eq] at hzz
            intro v hv
            rw [List.eq_of_mem_replicate hv]
            exact hz hzz.1 hzz.2
          · exact gives_rep hp n _ _ _ h

theorem gives_refRest {t : Ty} {p : P Val} {Q : Val → Prop} (hp : Gives p Q) : Gives (pRefRest T t p) fun vs => ∀ v ∈ vs, Q v := by
  intro bs vs rest h
  unfold pRefRest at h
  split at h
  · cases h
  · split at h
    · split at h
      · rename_i vs' r hr
        simp only [PRes.ok.injEq] at h
        obtain ⟨rfl, rfl⟩ := h
        exact gives_rep hp _ _ _ _ hr
      · rename_i hno
        exact absurd h (hno _ _)
    · cases h

theorem gives_seq {k : SeqKind} {t : Ty} {p : P Val} {Q : Val → Prop} (hp : Gives p Q)
    (hz : isPrimitive T t = false → sizeOf T t = 0 → Q (zstVal t)) (o : Option Nat) :
    Gives (pSeq T e k t p o) fun v => ∃ vs, v = .list vs ∧ ∀ v ∈ vs, Q v := by
  have key : ∀ {q : P (List Val)}, Gives q (fun vs => ∀ v ∈ vs, Q v) →
      Gives (P.map Val.list q) fun v => ∃ vs, v = Val.list vs ∧ ∀ v ∈ vs, Q v := fun hq =>
    gives_map (hq.mono fun vs h => ⟨vs, rfl, h⟩)
  cases k <;> cases o <;> simp only [pSeq]
  · exact key (gives_untilEof hp _)
  · exact key (gives_vec hp hz _)
  · exact key (gives_untilEof hp _)
  · exact key (gives_ite (fun _ => gives_unspec) fun _ => gives_vec hp hz _)
  · exact key (gives_refRest hp)
  · exact key (gives_ite (fun _ => gives_fail _) fun _ => gives_ite (fun _ => gives_rep hp _) fun _ => gives_unspec)

theorem gives_coll {t : Ty} {p : P Val} {Q : Val → Prop} (hp : Gives p Q) (n : Nat) :
    Gives (pColl T e t p n) fun vs => ∀ v ∈ vs, Q v :=
  gives_ite (fun _ => gives_ite (fun _ => gives_fail _) fun _ => gives_ite (fun _ => gives_unspec) fun _ => gives_rep hp n)
    fun _ => gives_rep hp n

theorem gives_pair {p q : P Val} {Q R : Val → Prop} (hp : Gives p Q) (hq : Gives q R) :
    Gives (pPair p q) fun v => ∃ a b, v = .pair a (.pair b .unit) ∧ Q a ∧ R b :=
  gives_bind hp fun a ha => gives_bind hq fun b hb => gives_pure ⟨a, b, rfl, ha, hb⟩

theorem gives_kv {k v : Ty} {p : P Val} {q : P Val} {Q R : Val → Prop} (hp : Gives p Q) (hq : Gives q R) (n : Nat) :
    Gives (pKV T e k v p q n) fun vs => ∀ v ∈ vs, ∃ a b, v = .pair a (.pair b .unit) ∧ Q a ∧ R b :=
  gives_ite (fun _ => gives_ite (fun _ => gives_fail _) fun _ => gives_ite (fun _ => gives_unspec) fun _ =>
    gives_rep (gives_pair hp hq) n) fun _ => gives_rep (gives_pair hp hq) n

end

mutual
/-- Types all of whose values which are read are canonical: no `peek_tag`; conversions (third-party types), defaults of fields
which may be missing, and skipped fields have such values. -/
def settled (T : Target) (F : Fmt) : Ty → Prop
  | .seq _ t | .set t | .array _ t | .refArray _ t | .option t | .range t | .rangeInc t | .box t => settled T F t
  | .map a b | .result a b | .pair a b => settled T F a ∧ settled T F b
  | .via c t => ∀ v w, c.apply v = .ok w → canon F t w
  | .struct _ fs => settledFields T F fs
  | .enum d vs => d.peek = false ∧ settledVariants T F vs
  | _ => True
/-- Fields. -/
def settledFields (T : Target) (F : Fmt) : Fields → Prop
  | .nil => True
  | .cons a t fs => (a.varint = true → t = .prim .u64) ∧ (a.skip = true → hasTy T t a.dflt) ∧
      (a.skip = false → a.defaultOnEof = true → canon F t a.dflt) ∧ settled T F t ∧ settledFields T F fs
/-- Variants. -/
def settledVariants (T : Target) (F : Fmt) : Variants → Prop
  | .nil => True
  | .cons _ fs vs => settledFields T F fs ∧ settledVariants T F vs
end

mutual
theorem canon_zst {T : Target} {F : Fmt} : ∀ (t : Ty), zstEmpty t = true → settled T F t → canon F t (zstVal t)
  | .unit, _, _ => by simp [canon]
  | .pair a b, hz, hs => by
    simp only [zstEmpty, Bool.and_eq_true] at hz
    simp only [settled] at hs
    simp only [zstVal, canon]
    exact ⟨canon_zst a hz.1 hs.1, canon_zst b hz.2 hs.2⟩
  | .array n t, hz, hs => by
    simp only [zstEmpty, Bool.or_eq_true, beq_iff_eq] at hz
    simp only [settled] at hs
    simp only [zstVal, canon]
    rcases hz with hz | hz
    · subst hz; exact fun _ h => by cases h
    · exact fun v hv => by rw [List.eq_of_mem_replicate hv]; exact canon_zst t hz hs
  | .range t, hz, hs => by
    simp only [zstEmpty] at hz
    simp only [settled] at hs
    simp only [zstVal, canon]
    exact ⟨canon_zst t hz hs, canon_zst t hz hs⟩
  | .struct d fs, hz, hs => by
    simp only [zstEmpty] at hz
    simp only [settled] at hs
    simp only [zstVal, canon]
    exact canonFields_zst fs hz hs
  | .prim _, hz, _ | .usize, hz, _ | .bool, hz, _ | .char, hz, _ | .nonZero _, hz, _
  | .atomic _, hz, _ | .ipv4, hz, _ | .ipv6, hz, _ | .ipAddr, hz, _
  | .duration, hz, _ | .systemTime, hz, _ | .endianness, hz, _
  | .varint64, hz, _ | .uuid, hz, _ | .str _, hz, _ | .seq _ _, hz, _
  | .set _, hz, _ | .map _ _, hz, _
  | .refArray _ _, hz, _ | .option _, hz, _ | .result _ _, hz, _
  | .rangeInc _, hz, _ | .box _, hz, _ | .via _ _, hz, _ | .enum _ _, hz, _ => by simp [zstEmpty] at hz
theorem canonFields_zst {T : Target} {F : Fmt} : ∀ (fs : Fields), zstEmptyFields fs = true → settledFields T F fs →
    canonFields F fs (zstFields fs)
  | .nil, _, _ => by simp [canonFields]
  | .cons a t fs, hz, hs => by
    simp only [zstEmptyFields, Bool.and_eq_true, Bool.not_eq_true'] at hz
    simp only [settledFields] at hs
    simp only [zstFields, canonFields]
    refine ⟨?_, canonFields_zst fs hz.2 hs.2.2.2.2⟩
    split
    · rename_i hk
      exact (zst_unique (F := F) t LenR.std _ hz.1.1.1 (hs.2.1 hk)).1.symm
    · exact canon_zst t hz.1.1.1 hs.2.2.2.1
end

mutual
theorem parse_canon {T : Target} {e : Endian} {F : Fmt} : ∀ (t : Ty) (cx : Cx), regular T e t = true → settled T F t →
    Gives (parse T e t cx) (canon F t)
  | .prim _, _, _, _ | .usize, _, _, _ | .bool, _, _, _ | .char, _, _, _ | .nonZero _, _, _, _
  | .atomic _, _, _, _ | .ipv4, _, _, _ | .ipv6, _, _, _ | .ipAddr, _, _, _
  | .duration, _, _, _ | .systemTime, _, _, _ | .endianness, _, _, _
  | .varint64, _, _, _ | .uuid, _, _, _ | .str _, _, _, _ | .unit, _, _, _ => gives_all fun _ => by simp only [canon]
  | .seq k t, cx, hr, hs => by
    unfold parse
    simp only [settled] at hs
    simp only [regular, Bool.and_eq_true] at hr
    refine gives_ite (fun _ => gives_fail _) fun _ => gives_bind (gives_true _) fun o _ =>
      (gives_seq (parse_canon t Cx.std hr.1.2 hs) (fun h1 h2 => ?_) o).mono fun v h => ?_
    · have := hr.1.1
      simp only [vecOk, h1, h2, bne_self_eq_false, Bool.false_or, Bool.false_eq_true, if_false] at this
      exact canon_zst t this hs
    · obtain ⟨vs, rfl, h⟩ := h
      simp only [canon]
      exact h
  | .set t, cx, hr, hs => by
    unfold parse
    simp only [settled] at hs
    simp only [regular, Bool.and_eq_true] at hr
    have ih := parse_canon t Cx.std hr.2 hs
    refine gives_bind (gives_true _) fun o _ => ?_
    cases o with
    | some n => exact gives_map ((gives_coll ih n).mono fun vs h => by
        simp only [canon]; exact fun v hv => h v ((setOf_spec vs).2 v hv))
    | none => exact gives_map ((gives_untilEof ih _).mono fun vs h => by
        simp only [canon]; exact fun v hv => h v ((setOf_spec vs).2 v hv))
  | .map k w, cx, hr, hs => by
    unfold parse
    simp only [settled] at hs
    simp only [regular, Bool.and_eq_true] at hr
    have ih1 := parse_canon k Cx.std hr.1.2 hs.1
    have ih2 := parse_canon w Cx.std hr.2 hs.2
    have key : ∀ vs : List Val, (∀ v ∈ vs, ∃ a b, v = .pair a (.pair b .unit) ∧ canon F k a ∧ canon F w b) →
        canon F (.map k w) (.list (mapOf vs)) := fun vs h => by
      simp only [canon]
      intro a b hab
      obtain ⟨a', b', h1, h2⟩ := (mapOf_spec (P := fun a b => ∃ c, b = .pair c .unit ∧ canon F k a ∧ canon F w c) (vs := vs)
        fun x hx => by
          obtain ⟨a, b, rfl, h1, h2⟩ := h x hx
          exact ⟨a, _, rfl, b, rfl, h1, h2⟩).2 _ hab
      simp only [Val.pair.injEq] at h1
      obtain ⟨rfl, rfl⟩ := h1
      obtain ⟨c, h3, h4, h5⟩ := h2
      simp only [Val.pair.injEq, and_true] at h3
      subst h3
      exact ⟨h4, h5⟩
    refine gives_bind (gives_true _) fun o _ => ?_
    cases o with
    | some n => exact gives_map ((gives_kv ih1 ih2 n).mono key)
    | none => exact gives_map ((gives_untilEof (gives_pair ih1 ih2) _).mono key)
  | .array n t, cx, hr, hs => by
    unfold parse
    simp only [settled] at hs
    simp only [regular, Bool.and_eq_true] at hr
    exact gives_ite (fun _ => gives_unspec) fun _ => gives_map ((gives_rep (parse_canon t Cx.std hr.2 hs) n).mono fun vs h => by
      simp only [canon]; exact h)
  | .refArray n t, cx, hr, hs => by
    unfold parse
    simp only [settled] at hs
    simp only [regular, Bool.and_eq_true] at hr
    exact gives_ite (fun _ => gives_fail _) fun _ => gives_ite (fun _ =>
      gives_map ((gives_rep (parse_canon t Cx.std hr.2 hs) n).mono fun vs h => by simp only [canon]; exact h)) fun _ => gives_unspec
  | .option t, cx, hr, hs => by
    unfold parse
    simp only [settled] at hs
    simp only [regular] at hr
    exact gives_bind (gives_true _) fun b _ => gives_ite (fun _ => gives_map ((parse_canon t _ hr hs).mono fun v h => by
      simp only [canon]; exact h)) fun _ => gives_pure (by simp only [canon])
  | .result t er, cx, hr, hs => by
    unfold parse
    simp only [settled] at hs
    simp only [regular, Bool.and_eq_true] at hr
    exact gives_bind (gives_true _) fun b _ => gives_ite
      (fun _ => gives_map ((parse_canon t _ hr.1 hs.1).mono fun v h => by simp only [canon]; exact h))
      fun _ => gives_map ((parse_canon er _ hr.2 hs.2).mono fun v h => by simp only [canon]; exact h)
  | .range t, cx, hr, hs => by
    unfold parse
    simp only [settled] at hs
    simp only [regular] at hr
    have ih := parse_canon t Cx.std hr hs
    exact gives_bind ih fun a ha => gives_bind ih fun b hb => gives_pure (by simp only [canon]; exact ⟨ha, hb⟩)
  | .rangeInc t, cx, hr, hs => by
    unfold parse
    simp only [settled] at hs
    simp only [regular] at hr
    have ih := parse_canon t Cx.std hr hs
    exact gives_bind ih fun a ha => gives_bind ih fun b hb => gives_pure (by simp only [canon]; exact ⟨trivial, ha, hb⟩)
  | .pair a b, cx, hr, hs => by
    unfold parse
    simp only [settled] at hs
    simp only [regular, Bool.and_eq_true] at hr
    exact gives_bind (parse_canon a Cx.std hr.1 hs.1) fun x hx => gives_bind (parse_canon b Cx.std hr.2 hs.2) fun y hy =>
      gives_pure (by simp only [canon]; exact ⟨hx, hy⟩)
  | .box t, cx, hr, hs => by
    unfold parse
    simp only [settled] at hs
    simp only [regular] at hr
    exact (parse_canon t Cx.std hr hs).mono fun v h => by simp only [canon]; exact h
  | .via c t, cx, hr, hs => by
    unfold parse
    simp only [settled] at hs
    refine gives_bind (gives_true _) fun v _ bs w rest h => ?_
    cases hw : c.apply v with
    | error er => simp only [pConvert, hw] at h; cases h
    | ok w' =>
      simp only [pConvert, hw, P.pure, PRes.ok.injEq] at h
      obtain ⟨rfl, rfl⟩ := h
      simp only [canon]
      exact hs v _ hw
  | .struct d fs, cx, hr, hs => by
    unfold parse
    simp only [settled] at hs
    simp only [regular] at hr
    exact (parseFields_canon fs [] hr hs).mono fun v h => by simp only [canon]; exact h
  | .enum d vs, cx, hr, hs => by
    unfold parse
    simp only [settled] at hs
    simp only [regular] at hr
    refine gives_bind (gives_true _) fun tag _ => (parseVariants_canon d hs.1 vs tag 0 hr hs.2).mono fun v h => ?_
    obtain ⟨k, u, rfl, h⟩ := h
    rw [Nat.zero_add]
    simp only [canon]
    exact h
theorem parseFields_canon {T : Target} {e : Endian} {F : Fmt} : ∀ (fs : Fields) (prev : List Val), regularFields T e fs = true →
    settledFields T F fs → Gives (parseFields T e fs prev) (canonFields F fs)
  | .nil, _, _, _ => gives_all fun _ => by simp only [canonFields]
  | .cons a t fs, prev, hr, hs => by
    unfold parseFields
    simp only [settledFields] at hs
    simp only [regularFields, Bool.and_eq_true] at hr
    refine gives_ite (fun hk => ?_) fun hk => ?_
    · exact gives_map ((parseFields_canon fs prev hr.2 hs.2.2.2.2).mono fun v h => by
        simp only [canonFields, hk, if_true]; exact ⟨trivial, h⟩)
    · have h1 : Gives (if a.varint then P.map .num pVarint else parse T e t (a.cx T.toHost prev)) (canon F t) :=
        gives_ite (fun hv => gives_all fun v => by rw [hs.1 hv]; simp only [canon]) fun _ => parse_canon t _ hr.1.2 hs.2.2.2.1
      have h2 : Gives (if a.pre.isEmpty then (if a.varint then P.map .num pVarint else parse T e t (a.cx T.toHost prev))
          else P.bind (pConst T a.pre) fun _ => (if a.varint then P.map .num pVarint else parse T e t (a.cx T.toHost prev))) (canon F t) :=
        gives_ite (fun _ => h1) fun _ => gives_bind (gives_true _) fun _ _ => h1
      have h3 := gives_ite (c := a.defaultOnEof = true)
        (fun hd => gives_onEof h2 (hs.2.2.1 (by simpa using hk) hd)) fun _ => h2
      exact gives_bind h3 fun v hv => gives_map ((parseFields_canon fs (prev ++ [v]) hr.2 hs.2.2.2.2).mono fun u hu => by
        simp only [canonFields, if_neg hk]; exact ⟨hv, hu⟩)
theorem parseVariants_canon {T : Target} {e : Endian} {F : Fmt} (d : EnumDesc) (hd : d.peek = false) : ∀ (vs : Variants) (tag i : Nat),
    regularVariants T e vs = true → settledVariants T F vs →
    Gives (parseVariants T e vs tag i) fun v => ∃ k u, v = .variant (i + k) u ∧ canonVariants F d vs k u
  | .nil, _, _, _, _ => by unfold parseVariants; exact gives_fail _
  | .cons tag' fs vs, tag, i, hr, hs => by
    unfold parseVariants
    simp only [settledVariants] at hs
    simp only [regularVariants, Bool.and_eq_true] at hr
    refine gives_ite (fun _ => ?_) fun _ => ?_
    · exact gives_map ((parseFields_canon fs [] hr.1 hs.1).mono fun v h => ⟨0, v, rfl, by
        simp only [canonVariants, hd]; exact ⟨h, fun h => by cases h⟩⟩)
    · exact (parseVariants_canon d hd vs tag (i + 1) hr.2 hs.2).mono fun v h => by
        obtain ⟨k, u, rfl, h⟩ := h
        exact ⟨k + 1, u, by rw [Nat.add_assoc, Nat.add_comm 1 k], by simp only [canonVariants]; exact h⟩
end

end Verif
