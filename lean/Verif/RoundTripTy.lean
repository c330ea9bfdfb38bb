import Verif.RoundTrip

/-!
# Round trip for all types
-/

namespace Verif

/-- The length attribute fits the position. -/
def lenOk (tl st : Bool) (l : LenR) (t : Ty) : Bool :=
  l.ends tl st && (match l with | .untilEof => t.isContainer && t.elemStarts | _ => true)

theorem lenOk_std (tl st : Bool) (t : Ty) : lenOk tl st LenR.std t = true := by
  simp [lenOk, LenR.ends, LenR.std]

theorem lenOk_opt {tl st : Bool} {l : LenR} {t : Ty} (h : lenOk tl st l (.option t) = true) :
    lenOk tl st (l.opt t) t = true := by
  have : l ≠ .untilEof := by
    intro hl; subst hl; simp [lenOk, Ty.isContainer] at h
  have h2 : lenOk tl st l t = true := by
    cases l <;> simp_all [lenOk]
  cases t <;> first
    | exact lenOk_std _ _ _
    | exact h2

theorem lenOk_wlen {tl st : Bool} {a : Attrs} {t : Ty} {prev : List Val} (hd : a.declOk t = true)
    (he : a.ends tl st t = true) : lenOk tl st (a.wlen prev) t = true := by
  simp only [Attrs.declOk, Bool.and_eq_true] at hd
  simp only [Attrs.ends, Bool.and_eq_true] at he
  unfold Attrs.wlen
  split
  · exact lenOk_std _ _ _
  · cases hl : a.len with
    | none => simpa [lenOk, LenR.ends] using he.1
    | some k =>
      rw [hl] at hd he
      cases k with
      | typed lt => simpa [lenOk, LenR.ends] using he.1
      | expr f => simp [lenOk, LenR.ends]
      | untilEof =>
        simp only [Bool.and_eq_true, Bool.not_eq_true'] at hd he
        simp [lenOk, LenR.ends, he.2.1.1, he.2.1.2, he.2.2, hd.1.2]

theorem cast_opt (h : Host) (l : LenR) (inl : Bool) (t : Ty) :
    ∃ inl', Cx.opt ⟨l.cast h, inl⟩ t = ⟨(l.opt t).cast h, inl'⟩ := by
  cases t <;> exact ⟨_, rfl⟩

theorem mem_keys_shape {k v : Ty} {T : Target} {vs : List Val}
    (h : ∀ kv ∈ vs, ∃ a b, kv = .pair a (.pair b .unit) ∧ hasTy T k a ∧ hasTy T v b) :
    ∀ kv ∈ vs, ∃ a b, kv = Val.pair a b := fun kv hkv => by
  obtain ⟨a, b, h1, _⟩ := h kv hkv
  exact ⟨a, _, h1⟩

theorem codes_ipv6 {T : Target} {e : Endian} {tl st : Bool} {bs : Bytes} (h : bs.length = 16) :
    Codes tl st (pIpv6 T e) (if (Fmt.code T.toHost e).rev6 then bs.reverse else bs) (.bytes bs) := by
  unfold pIpv6 Fmt.code
  have := codes_map (tl := tl) (st := st)
    (f := fun octets => Val.bytes (if !e.conv T.toHost then octets.reverse else octets))
    (codes_take (n := 16) (bs := if !e.conv T.toHost then bs.reverse else bs) (by split <;> simp [h]))
  cases hc : e.conv T.toHost <;> simp only [hc] at this ⊢ <;> simpa using this

theorem codes_duration {e : Endian} {tl st : Bool} {s n : Nat} (hs : s < 2 ^ 64) (hn : n < 1000000000) :
    Codes tl st (pDuration e) (e.bytes 8 s ++ e.bytes 4 n) (s, n) := by
  unfold pDuration
  refine codes_bind (codes_num (by omega)) ?_
  have := codes_bind (tl := tl) (st := st) (f := fun nanos =>
      if s + nanos / 1000000000 < 2 ^ 64 then
        P.pure (s + nanos / 1000000000, nanos % 1000000000)
      else P.fail (.panic .arithOverflow)) (b := (s, n)) (b2 := [])
    (codes_num (e := e) (n := 4) (v := n) (by omega))
    (codes_ite_pos (by omega) (by
      have h1 : n / 1000000000 = 0 := by omega
      have h2 : n % 1000000000 = n := by omega
      rw [h1, h2]; exact codes_pure _))
  simpa using this

theorem codes_bool {e : Endian} {tl st : Bool} (b : Bool) : Codes tl st (pBool e) [if b then 1 else 0] b := by
  unfold pBool
  have := codes_map (tl := tl) (st := st) (f := fun n => n != 0)
    (codes_num (e := e) (n := 1) (v := if b then 1 else 0) (by split <;> decide))
  cases b <;> cases e <;> exact this

/-- An element read with certainty, then nothing. -/
theorem codes_convert {tl st : Bool} {p : P Val} {bs : Bytes} {v w : Val} {c : Conv} (h : Codes tl st p bs v)
    (hc : c.apply v = .ok w) : Codes tl st (P.bind p fun v => pConvert c v) bs w := by
  refine ⟨fun rest hr => ?_, fun hs x y hxy hy => P.bind_fail (h.2 hs x y hxy hy)⟩
  rw [P.bind_ok (h.1 rest hr)]
  unfold pConvert
  rw [hc]
  rfl

theorem codes_then {α β : Type} {tl st : Bool} {p : P α} {f : α → P β} {bs : Bytes} {a : α} {b : β}
    (h1 : Codes false st p bs a) (h2 : Codes tl st (f a) [] b) : Codes tl st (P.bind p f) bs b := by
  simpa using codes_bind h1 h2

mutual
/-- Reading the encoding of a value gives the value and stops at its end; reading
a part of it fails. -/
theorem parse_codes {T : Target} (hT : T.Ok) {e : Endian} {st : Bool} : ∀ (t : Ty) (tl : Bool) (l : LenR)
    (inl : Bool) (v : Val) (bs : Bytes),
    layoutOk T t = true → declOk t = true → regular T e t = true → ends tl st t = true →
    lenOk tl st l t = true → hasTy T t v → canon (Fmt.code T.toHost e) t v →
    wire (Fmt.code T.toHost e) t l v = .ok bs → Fits T bs →
    Codes tl st (parse T e t ⟨l.cast T.toHost, inl⟩) bs v
  | .prim p, tl, _, _, v, bs, _, _, _, _, _, hv, _, hw, _ => by
    cases v <;> simp only [hasTy] at hv
    simp only [wire, Except.ok.injEq] at hw
    subst hw
    exact codes_map (codes_num hv)
  | .usize, tl, _, _, v, bs, _, _, _, _, _, hv, _, hw, _ => by
    cases v <;> simp only [hasTy] at hv
    simp only [wire, Except.ok.injEq] at hw
    subst hw
    simp only [parse]
    exact codes_then (codes_num (by have := hT.upper; omega)) (codes_ite_neg (by omega) (codes_pure _))
  | .bool, tl, _, _, v, bs, _, _, _, _, _, hv, _, hw, _ => by
    cases v <;> simp only [hasTy] at hv
    simp only [wire, Except.ok.injEq] at hw
    subst hw
    exact codes_map (codes_bool _)
  | .char, tl, _, _, v, bs, _, _, _, _, _, hv, _, hw, _ => by
    cases v <;> simp only [hasTy] at hv
    simp only [wire, Except.ok.injEq] at hw
    subst hw
    simp only [parse]
    refine codes_then (codes_num ?_) (codes_ite_pos hv (codes_pure _))
    simp only [isScalar, Bool.or_eq_true, Bool.and_eq_true, decide_eq_true_eq] at hv
    omega
  | .nonZero p, tl, _, _, v, bs, _, _, _, _, _, hv, _, hw, _ => by
    cases v <;> simp only [hasTy] at hv
    simp only [wire, Except.ok.injEq] at hw
    subst hw
    simp only [parse]
    exact codes_then (codes_num hv.1) (codes_ite_neg hv.2 (codes_pure _))
  | .atomic p, tl, _, _, v, bs, _, _, _, _, _, hv, _, hw, _ => by
    cases v <;> simp only [hasTy] at hv
    simp only [wire, Except.ok.injEq] at hw
    subst hw
    exact codes_map (codes_num hv)
  | .ipv4, tl, _, _, v, bs, _, _, _, _, _, hv, _, hw, _ => by
    cases v <;> simp only [hasTy] at hv
    simp only [wire, Except.ok.injEq] at hw
    subst hw
    exact codes_map (codes_num hv)
  | .ipv6, tl, _, _, v, bs, _, _, _, _, _, hv, _, hw, _ => by
    cases v <;> simp only [hasTy] at hv
    simp only [wire, Except.ok.injEq] at hw
    subst hw
    exact codes_ipv6 hv
  | .ipAddr, tl, _, _, .variant 0 (.num x), bs, _, _, _, _, _, hv, _, hw, _ => by
    simp only [hasTy] at hv
    simp only [wire, Except.ok.injEq] at hw
    subst hw
    simp only [parse]
    have h0 : [(0 : UInt8)] = e.bytes 1 0 := by cases e <;> rfl
    rw [h0]
    exact codes_bind (codes_num (by decide)) (codes_ite_pos rfl (codes_map (codes_num hv)))
  | .ipAddr, tl, _, _, .variant 1 (.bytes x), bs, _, _, _, _, _, hv, _, hw, _ => by
    simp only [hasTy] at hv
    simp only [wire, Except.ok.injEq] at hw
    subst hw
    simp only [parse]
    have h0 : [(1 : UInt8)] = e.bytes 1 1 := by cases e <;> rfl
    rw [h0]
    exact codes_bind (codes_num (by decide))
      (codes_ite_neg (by decide) (codes_ite_pos rfl (codes_map (codes_ipv6 hv))))
  | .duration, tl, _, _, .pair (.num s) (.num n), bs, _, _, _, _, _, hv, _, hw, _ => by
    simp only [hasTy] at hv
    simp only [wire, Except.ok.injEq] at hw
    subst hw
    exact codes_map (f := fun d : Nat × Nat => Val.pair (.num d.1) (.num d.2)) (codes_duration hv.1 hv.2)
  | .systemTime, tl, _, _, .pair (.num s) (.num n), bs, _, _, _, _, _, hv, _, hw, _ => by
    simp only [hasTy] at hv
    simp only [wire] at hw
    split at hw
    · rename_i hs
      simp only [Except.ok.injEq] at hw
      subst hw
      simp only [parse]
      exact codes_then (codes_duration hv.1 hv.2) (codes_ite_pos hs (codes_pure _))
    · simp at hw
  | .endianness, tl, _, _, .variant 0 .unit, bs, _, _, _, _, _, hv, _, hw, _ => by
    simp only [wire, Except.ok.injEq] at hw
    subst hw
    simp only [parse]
    have h0 : [(0 : UInt8)] = e.bytes 1 0 := by cases e <;> rfl
    rw [h0]
    exact codes_then (codes_num (by decide)) (codes_ite_pos rfl (codes_pure _))
  | .endianness, tl, _, _, .variant 1 .unit, bs, _, _, _, _, _, hv, _, hw, _ => by
    simp only [wire, Except.ok.injEq] at hw
    subst hw
    simp only [parse]
    have h0 : [(1 : UInt8)] = e.bytes 1 1 := by cases e <;> rfl
    rw [h0]
    exact codes_then (codes_num (by decide)) (codes_ite_neg (by decide) (codes_ite_pos rfl (codes_pure _)))
  | .varint64, tl, _, _, v, bs, _, _, _, _, _, hv, _, hw, _ => by
    cases v <;> simp only [hasTy] at hv
    simp only [wire, Except.ok.injEq] at hw
    subst hw
    exact codes_map (codes_varint hv)
  | .uuid, tl, _, _, v, bs, _, _, _, _, _, hv, _, hw, _ => by
    cases v <;> simp only [hasTy] at hv
    simp only [wire, Except.ok.injEq] at hw
    subst hw
    exact codes_map (codes_take hv)
  | .str k, tl, l, _, v, bs, _, _, _, _, hlen, hv, _, hw, hB => by
    cases v <;> simp only [hasTy] at hv
    rename_i cs _
    obtain ⟨x, y, h1, h2, rfl⟩ := cat_eq_ok hw
    simp only [Except.ok.injEq] at h2
    subst h2
    simp only [lenOk, Bool.and_eq_true] at hlen
    have hus : cs.length ≤ T.usizeMax := by have := hT.isize; omega
    simp only [parse]
    refine codes_bind (codes_lenR hT.toOk h1 hus hlen.1) ?_
    by_cases hl : l = .untilEof
    · subst hl
      simp only [LenR.ends, Bool.and_eq_true, Bool.not_eq_true'] at hlen
      refine codes_whole ?_ hlen.1.1 hlen.1.2
      simp only [LenR.count, pStr]
      rw [P.bind_ok (p := pRest) (bs := cs) (a := cs) (rest := []) rfl]
      unfold pStrVal
      rw [if_pos hv.1]; rfl
    · have : l.count cs.length = some cs.length := by cases l <;> simp [LenR.count] at hl ⊢
      rw [this]
      simp only [pStr]
      exact codes_ite_neg (by omega) (codes_ite_neg (by omega)
        (codes_then (codes_take rfl) (codes_strVal hv.1)))
  | .seq k t, tl, l, _, v, bs, hl, hd, hr, he, hlen, hv, hc, hw, hB => by
    cases v <;> simp only [hasTy] at hv
    rename_i vs
    simp only [layoutOk] at hl
    simp only [declOk] at hd
    simp only [ends] at he
    simp only [canon] at hc
    obtain ⟨x, y, h1, h2, rfl⟩ := cat_eq_ok hw
    have hlen' := hlen
    simp only [lenOk, Bool.and_eq_true] at hlen
    have hr' := hr
    simp only [regular, Bool.and_eq_true] at hr
    simp only [parse]
    refine codes_ite_neg ?_ ?_
    · intro hh
      simp only [Bool.and_eq_true] at hh
      cases k <;> simp at hh
      have h3 := hr.2
      simp only [hh.2, Bool.and_eq_true, Bool.or_eq_true, beq_iff_eq, Bool.not_true, or_false,
        Bool.false_eq_true] at h3
      exact hh.1 h3.2
    · refine codes_bind (codes_lenR hT.toOk h1 hv.2.1 hlen.1) ?_
      refine codes_seq hT hl hr' hlen.1 ?_ hv.2.2 h2 hB.right ?_ ?_ ?_
      · cases l with
        | untilEof =>
          simp only [lenOk, Ty.isContainer, Ty.elemStarts, Bool.true_and] at hlen'
          simp only [Bool.and_eq_true] at hlen'
          exact hlen'.2
        | _ => rfl
      · exact catAll_min h2 fun w hw' b hb => by
          rw [← minAt_std]
          exact wire_min t LenR.std w b hl hd hr.1.2 (hv.1 w hw') (hc w hw') hb
      · intro hz
        have hu := fun w hw' => zst_unique (F := Fmt.code T.toHost e) t LenR.std w hz (hv.1 w hw')
        have := catAll_nil fun w hw' => (hu w hw').2
        rw [this] at h2
        simp only [Except.ok.injEq] at h2
        exact ⟨h2.symm, eq_replicate_of fun w hw' => (hu w hw').1⟩
      · intro w hw' b hb hbl
        exact parse_codes hT t false LenR.std false w b hl hd hr.1.2 he (lenOk_std _ _ _) (hv.1 w hw')
          (hc w hw') hb (hB.right.sub hbl)
  | .set t, tl, l, _, v, bs, hl, hd, hr, he, hlen, hv, hc, hw, hB => by
    cases v <;> simp only [hasTy] at hv
    rename_i vs
    simp only [layoutOk] at hl
    simp only [declOk] at hd
    simp only [ends] at he
    simp only [canon] at hc
    obtain ⟨x, y, h1, h2, rfl⟩ := cat_eq_ok hw
    have hlen' := hlen
    simp only [lenOk, Bool.and_eq_true] at hlen
    simp only [regular, Bool.and_eq_true, Bool.or_eq_true, Bool.not_eq_true', bne_iff_ne, ne_eq] at hr
    simp only [parse]
    have hel : ∀ w ∈ vs, ∀ b, wire (Fmt.code T.toHost e) t LenR.std w = .ok b → b.length ≤ y.length →
        Codes false st (parse T e t Cx.std) b w := fun w hw' b hb hbl =>
      parse_codes hT t false LenR.std false w b hl hd hr.2 he (lenOk_std _ _ _) (hv.1 w hw')
        (hc w hw') hb (hB.right.sub hbl)
    have hus : T.isizeMax ≤ T.usizeMax := by have := hT.isize; omega
    have hset : (fun vs => Val.list (setOf vs)) vs = .list vs := by simp only; rw [setOf_eq hv.2.1]
    refine codes_bind (codes_lenR hT.toOk h1 hv.2.2.1 hlen.1) ?_
    by_cases hl' : l = .untilEof
    · subst hl'
      simp only [LenR.ends, Bool.and_eq_true, Bool.not_eq_true'] at hlen
      simp only [lenOk, Ty.isContainer, Ty.elemStarts, Bool.true_and, Bool.and_eq_true] at hlen'
      have hnil := parse_nil (T := T) (e := e) t Cx.std hlen'.2 hr.2 (fun _ => rfl)
      simp only [LenR.count]
      rw [← hset]
      exact codes_map (codes_whole (codes_untilEof hnil h2 hB.right.fuel hel) hlen.1.1 hlen.1.2)
    · have : l.count vs.length = some vs.length := by cases l <;> simp [LenR.count] at hl' ⊢
      rw [this]
      simp only
      rw [← hset]
      refine codes_map (Codes.weaken ?_)
      have hrep := codes_rep h2 hel
      unfold pColl
      split
      · rename_i hp
        simp only [Bool.and_eq_true] at hp
        refine codes_ite_neg (by omega) (codes_ite_neg ?_ hrep)
        rcases hr.1 with h | h
        · rw [hp.1] at h; simp at h
        · simp [h.1, h.2]
      · exact hrep
  | .map k t, tl, l, _, v, bs, hl, hd, hr, he, hlen, hv, hc, hw, hB => by
    cases v <;> simp only [hasTy] at hv
    rename_i vs
    simp only [layoutOk, Bool.and_eq_true] at hl
    simp only [declOk, Bool.and_eq_true] at hd
    simp only [ends, Bool.and_eq_true] at he
    simp only [canon] at hc
    obtain ⟨x, y, h1, h2, rfl⟩ := cat_eq_ok hw
    have hlen' := hlen
    simp only [lenOk, Bool.and_eq_true] at hlen
    simp only [regular, Bool.and_eq_true] at hr
    simp only [parse]
    have hel : ∀ w ∈ vs, ∀ b, (fun kv => match kv with
          | .pair a (.pair b .unit) => cat (wire (Fmt.code T.toHost e) k LenR.std a) (wire (Fmt.code T.toHost e) t LenR.std b)
          | _ => .error .illTyped) w = .ok b → b.length ≤ y.length →
        Codes false st (pPair (parse T e k Cx.std) (parse T e t Cx.std)) b w := by
      intro w hw' b hb hbl
      obtain ⟨a1, a2, rfl, ht1, ht2⟩ := hv.1 w hw'
      obtain ⟨c1, c2⟩ := hc a1 a2 hw'
      obtain ⟨b1, b2, g1, g2, rfl⟩ := cat_eq_ok hb
      simp only [List.length_append] at hbl
      unfold pPair
      refine codes_bind (parse_codes hT k false LenR.std false a1 b1 hl.1 hd.1 hr.1.2 he.1 (lenOk_std _ _ _) ht1
        c1 g1 (hB.right.sub (by omega))) ?_
      exact codes_then (parse_codes hT t false LenR.std false a2 b2 hl.2 hd.2 hr.2 he.2 (lenOk_std _ _ _) ht2
        c2 g2 (hB.right.sub (by omega))) (codes_pure _)
    have hus : T.isizeMax ≤ T.usizeMax := by have := hT.isize; omega
    have hset : (fun vs => Val.list (mapOf vs)) vs = .list vs := by
      simp only; rw [mapOf_eq hv.2.1 (mem_keys_shape hv.1)]
    refine codes_bind (codes_lenR hT.toOk h1 hv.2.2.1 hlen.1) ?_
    by_cases hl' : l = .untilEof
    · subst hl'
      simp only [LenR.ends, Bool.and_eq_true, Bool.not_eq_true'] at hlen
      simp only [lenOk, Ty.isContainer, Ty.elemStarts, Bool.true_and, Bool.and_eq_true] at hlen'
      have hnil := parse_nil (T := T) (e := e) k Cx.std hlen'.2 hr.1.2 (fun _ => rfl)
      simp only [LenR.count]
      rw [← hset]
      exact codes_map (codes_whole (codes_untilEof (P.bind_fail hnil) h2 hB.right.fuel hel) hlen.1.1 hlen.1.2)
    · have : l.count vs.length = some vs.length := by cases l <;> simp [LenR.count] at hl' ⊢
      rw [this]
      simp only
      rw [← hset]
      refine codes_map (Codes.weaken ?_)
      have hrep := codes_rep h2 hel
      unfold pKV
      split
      · rename_i hp
        simp only [Bool.and_eq_true] at hp
        refine codes_ite_neg (by omega) (codes_ite_neg ?_ hrep)
        have g := hr.1.1
        simp only [hp.1.1, hp.1.2, Bool.not_true, Bool.false_or, Bool.and_self, bne_iff_ne, ne_eq] at g
        simp [g.1.1, g.1.2]
        intro h3
        have := g.2
        omega
      · exact hrep
  | .array n t, tl, l, inl, v, bs, hl, hd, hr, he, hlen, hv, hc, hw, hB => by
    cases v <;> simp only [hasTy] at hv
    rename_i vs
    simp only [layoutOk] at hl
    simp only [declOk] at hd
    simp only [ends] at he
    simp only [canon] at hc
    simp only [regular, Bool.and_eq_true, Bool.or_eq_true, Bool.not_eq_true'] at hr
    simp only [wire] at hw
    rw [if_neg (fun hh => hh hv.1)] at hw
    simp only [parse, pArray]
    refine codes_ite_neg ?_ (codes_map (Codes.weaken ?_))
    · intro hh
      simp only [Bool.and_eq_true, Bool.not_eq_true'] at hh
      rcases hr.1 with h | h
      · simp [h] at hh
      · simp [h] at hh
    · rw [← hv.1]
      exact codes_rep hw fun w hw' b hb hbl =>
        parse_codes hT t false LenR.std false w b hl hd hr.2 he (lenOk_std _ _ _) (hv.2 w hw')
          (hc w hw') hb (hB.sub hbl)
  | .refArray n t, tl, l, inl, v, bs, hl, hd, hr, he, hlen, hv, hc, hw, hB => by
    cases v <;> simp only [hasTy] at hv
    rename_i vs
    simp only [layoutOk] at hl
    simp only [declOk] at hd
    simp only [ends] at he
    simp only [canon] at hc
    simp only [regular, Bool.and_eq_true, Bool.or_eq_true, Bool.not_eq_true', beq_iff_eq] at hr
    simp only [wire] at hw
    rw [if_neg (fun hh => hh hv.1)] at hw
    simp only [parse]
    refine codes_ite_neg ?_ (codes_ite_pos ?_ (codes_map (Codes.weaken ?_)))
    · intro hh
      simp only [Bool.and_eq_true, bne_iff_ne, ne_eq] at hh
      rcases hr.1.2 with h | h
      · exact hh.1 h
      · simp [h] at hh
    · simp [hr.1.1.1, hr.1.1.2]
    · rw [← hv.1]
      exact codes_rep hw fun w hw' b hb hbl =>
        parse_codes hT t false LenR.std false w b hl hd hr.2 he (lenOk_std _ _ _) (hv.2 w hw')
          (hc w hw') hb (hB.sub hbl)
  | .option t, tl, l, inl, v, bs, hl, hd, hr, he, hlen, hv, hc, hw, hB => by
    simp only [layoutOk] at hl
    simp only [declOk] at hd
    simp only [ends] at he
    simp only [regular] at hr
    simp only [parse]
    cases v with
    | none =>
      simp only [wire, Except.ok.injEq] at hw
      subst hw
      exact codes_then (codes_bool false) (codes_ite_neg (by simp) (codes_pure _))
    | some v =>
      simp only [hasTy] at hv
      simp only [canon] at hc
      obtain ⟨x, y, h1, h2, rfl⟩ := cat_eq_ok hw
      simp only [Except.ok.injEq] at h1
      subst h1
      refine codes_bind (codes_bool true) (codes_ite_pos rfl (codes_map ?_))
      obtain ⟨inl', hcx⟩ := cast_opt T.toHost l inl t
      rw [hcx]
      exact parse_codes hT t tl (l.opt t) inl' v y hl hd hr he (lenOk_opt hlen) hv hc h2 hB.right
    | _ => simp [hasTy] at hv
  | .result t er, tl, l, inl, .variant 1 v, bs, hl, hd, hr, he, hlen, hv, hc, hw, hB => by
    simp only [layoutOk, Bool.and_eq_true] at hl
    simp only [declOk, Bool.and_eq_true] at hd
    simp only [ends, Bool.and_eq_true] at he
    simp only [regular, Bool.and_eq_true] at hr
    simp only [hasTy] at hv
    simp only [canon] at hc
    simp only [parse]
    obtain ⟨x, y, h1, h2, rfl⟩ := cat_eq_ok hw
    simp only [Except.ok.injEq] at h1
    subst h1
    exact codes_bind (codes_bool true) (codes_ite_pos rfl (codes_map
      (parse_codes hT t tl LenR.std false v y hl.1 hd.1 hr.1 he.1 (lenOk_std _ _ _) hv hc h2 hB.right)))
  | .result t er, tl, l, inl, .variant 0 v, bs, hl, hd, hr, he, hlen, hv, hc, hw, hB => by
    simp only [layoutOk, Bool.and_eq_true] at hl
    simp only [declOk, Bool.and_eq_true] at hd
    simp only [ends, Bool.and_eq_true] at he
    simp only [regular, Bool.and_eq_true] at hr
    simp only [hasTy] at hv
    simp only [canon] at hc
    simp only [parse]
    obtain ⟨x, y, h1, h2, rfl⟩ := cat_eq_ok hw
    simp only [Except.ok.injEq] at h1
    subst h1
    exact codes_bind (codes_bool false) (codes_ite_neg (by simp) (codes_map
      (parse_codes hT er tl LenR.std false v y hl.2 hd.2 hr.2 he.2 (lenOk_std _ _ _) hv hc h2 hB.right)))
  | .range t, tl, l, inl, .pair a (.pair b .unit), bs, hl, hd, hr, he, hlen, hv, hc, hw, hB => by
    simp only [layoutOk] at hl
    simp only [declOk] at hd
    simp only [ends] at he
    simp only [regular] at hr
    simp only [hasTy] at hv
    simp only [canon] at hc
    simp only [parse]
    obtain ⟨x, y, h1, h2, rfl⟩ := cat_eq_ok hw
    refine codes_bind (parse_codes hT t false LenR.std false a x hl hd hr he (lenOk_std _ _ _) hv.1 hc.1 h1 hB.left) ?_
    exact codes_then (parse_codes hT t false LenR.std false b y hl hd hr he (lenOk_std _ _ _) hv.2 hc.2 h2 hB.right)
      (codes_pure _)
  | .rangeInc t, tl, l, inl, .pair a (.pair b (.bool ex)), bs, hl, hd, hr, he, hlen, hv, hc, hw, hB => by
    simp only [layoutOk] at hl
    simp only [declOk] at hd
    simp only [ends] at he
    simp only [regular] at hr
    simp only [hasTy] at hv
    simp only [canon] at hc
    simp only [parse]
    obtain ⟨x, y, h1, h2, rfl⟩ := cat_eq_ok hw
    rw [hc.1]
    refine codes_bind (parse_codes hT t false LenR.std false a x hl hd hr he (lenOk_std _ _ _) hv.1 hc.2.1 h1 hB.left) ?_
    exact codes_then (parse_codes hT t false LenR.std false b y hl hd hr he (lenOk_std _ _ _) hv.2 hc.2.2 h2 hB.right)
      (codes_pure _)
  | .unit, tl, l, inl, v, bs, _, _, _, _, _, hv, _, hw, _ => by
    cases v <;> simp only [hasTy] at hv
    simp only [wire, Except.ok.injEq] at hw
    subst hw
    exact codes_pure _
  | .pair a b, tl, l, inl, v, bs, hl, hd, hr, he, hlen, hv, hc, hw, hB => by
    simp only [layoutOk, Bool.and_eq_true] at hl
    simp only [declOk, Bool.and_eq_true] at hd
    simp only [ends, Bool.and_eq_true] at he
    simp only [regular, Bool.and_eq_true] at hr
    cases v <;> simp only [hasTy] at hv
    rename_i v1 v2
    simp only [canon] at hc
    simp only [parse]
    obtain ⟨x, y, h1, h2, rfl⟩ := cat_eq_ok hw
    by_cases hb : b.isUnit = true
    · cases b <;> simp [Ty.isUnit] at hb
      have hv2 := hv.2
      cases v2 <;> simp only [hasTy] at hv2
      simp only [wire, Except.ok.injEq] at h2
      subst h2
      have h3 := parse_codes hT a (tl && true) LenR.std false v1 x hl.1 hd.1 hr.1 he.1 (lenOk_std _ _ _) hv.1 hc.1 h1
        hB.left
      simp only [Bool.and_true, List.append_nil] at h3 ⊢
      exact codes_map (f := fun x => Val.pair x .unit) h3
    · simp only [Bool.not_eq_true] at hb
      rw [hb] at he
      simp only [Bool.and_false] at he
      refine codes_bind (parse_codes hT a false LenR.std false v1 x hl.1 hd.1 hr.1 he.1 (lenOk_std _ _ _) hv.1 hc.1 h1
        hB.left) ?_
      exact codes_map (f := fun y => Val.pair v1 y) (parse_codes hT b tl LenR.std false v2 y hl.2 hd.2 hr.2 he.2
        (lenOk_std _ _ _) hv.2 hc.2 h2 hB.right)
  | .box t, tl, l, inl, v, bs, hl, hd, hr, he, hlen, hv, hc, hw, hB => by
    simp only [layoutOk] at hl
    simp only [declOk] at hd
    simp only [ends] at he
    simp only [regular] at hr
    simp only [hasTy] at hv
    simp only [canon] at hc
    simp only [wire] at hw
    simp only [parse]
    exact parse_codes hT t tl LenR.std false v bs hl hd hr he (lenOk_std _ _ _) hv hc hw hB
  | .via c t, tl, l, inl, v, bs, hl, hd, hr, he, hlen, hv, hc, hw, hB => by
    simp only [layoutOk] at hl
    simp only [declOk] at hd
    simp only [ends] at he
    simp only [regular] at hr
    simp only [hasTy] at hv
    simp only [canon] at hc
    simp only [wire] at hw
    simp only [parse]
    exact codes_convert (parse_codes hT t tl LenR.std false v bs hl hd hr he (lenOk_std _ _ _) hv.1 hc hw hB) hv.2
  | .struct d fs, tl, l, inl, v, bs, hl, hd, hr, he, hlen, hv, hc, hw, hB => by
    simp only [layoutOk, Bool.and_eq_true] at hl
    simp only [declOk] at hd
    simp only [ends] at he
    simp only [regular] at hr
    simp only [hasTy] at hv
    simp only [canon] at hc
    simp only [wire] at hw
    simp only [parse]
    exact parseFields_codes hT fs tl [] v bs hl.2 hd hr he hv hc hw hB
  | .enum d vs, tl, l, inl, v, bs, hl, hd, hr, he, hlen, hv, hc, hw, hB => by
    simp only [layoutOk] at hl
    simp only [declOk, Bool.and_eq_true, decide_eq_true_eq] at hd
    simp only [ends] at he
    simp only [regular] at hr
    cases v with
    | variant i v =>
      simp only [hasTy] at hv
      simp only [canon] at hc
      simp only [wire] at hw
      simp only [parse]
      obtain ⟨tag, bs', ht, hbs, hpk, hcs⟩ :=
        parseVariants_codes hT d vs tl i v bs 0 hl hd.1.1 hd.2 hr he hv hc hw hB
      simp only [Nat.zero_add] at hcs
      have htag : tag ≤ d.tagTy.max := by
        have := List.all_eq_true.mp hd.1.2 tag ht
        simpa using this
      obtain ⟨tt, pk⟩ := d
      cases pk with
      | false =>
        simp only [Bool.false_eq_true, if_false] at hbs
        subst hbs
        cases tt <;> simp only [LenTy.max] at htag
        case varint => exact codes_bind (codes_varint (by omega)) hcs
        all_goals exact codes_bind (codes_num (by simp only [LenTy.minSize]; omega)) hcs
      | true =>
        simp only [if_true, List.nil_append] at hbs
        subst hbs
        obtain ⟨h128, z, hz⟩ := hpk rfl
        subst hz
        cases tt <;> simp only [LenTy.max] at htag
        case varint => exact codes_peekVarint (h128 rfl) hcs
        all_goals exact codes_peek (by simp only [LenTy.minSize]; omega) hcs
    | _ => simp [hasTy] at hv
theorem parseFields_codes {T : Target} (hT : T.Ok) {e : Endian} {st : Bool} : ∀ (fs : Fields) (tl : Bool)
    (prev : List Val) (v : Val) (bs : Bytes),
    layoutOkFields T fs = true → declOkFields fs = true → regularFields T e fs = true →
    endsFields tl st fs = true → hasTyFields T fs v → canonFields (Fmt.code T.toHost e) fs v →
    wireFields (Fmt.code T.toHost e) fs prev v = .ok bs → Fits T bs →
    Codes tl st (parseFields T e fs prev) bs v
  | .nil, tl, _, v, bs, _, _, _, _, hv, _, hw, _ => by
    cases v <;> simp only [hasTyFields] at hv
    simp only [wireFields, Except.ok.injEq] at hw
    subst hw
    exact codes_pure _
  | .cons a t fs, tl, prev, v, bs, hl, hd, hr, he, hv, hc, hw, hB => by
    simp only [layoutOkFields, Bool.and_eq_true] at hl
    simp only [declOkFields, Bool.and_eq_true] at hd
    simp only [regularFields, Bool.and_eq_true, decide_eq_true_eq] at hr
    simp only [endsFields, Bool.and_eq_true, Bool.or_eq_true] at he
    cases v with
    | pair v rest =>
      simp only [hasTyFields] at hv
      simp only [canonFields] at hc
      simp only [wireFields] at hw
      simp only [parseFields]
      by_cases hsk : a.skip = true
      · rw [if_pos hsk] at hw hc ⊢
        rw [hc.1]
        exact codes_map (parseFields_codes hT fs tl prev rest bs hl.2 hd.1.2 hr.2 he.2 hv.2 hc.2 hw hB)
      rw [if_neg hsk] at hw hc ⊢
      have he1 := he.1.resolve_left hsk
      obtain ⟨xy, y, h1, h2, rfl⟩ := cat_eq_ok hw
      obtain ⟨x1, x2, h3, h4, rfl⟩ := cat_eq_ok h1
      simp only [Except.ok.injEq] at h3
      subst h3
      have hbody : Codes (tl && fs.isNil) st
          (if a.varint then P.map .num pVarint else parse T e t (a.cx T.toHost prev)) x2 v := by
        by_cases hvar : a.varint = true
        · rw [if_pos hvar] at h4 ⊢
          have ht : t = .prim .u64 := by
            have := hd.1.1.1
            simp only [Attrs.declOk, hvar, Bool.and_eq_true] at this
            have h2 := this.2
            split at h2
            · rfl
            · simp at h2
          subst ht
          have hv1 := hv.1
          cases v <;> simp only [hasTy] at hv1
          simp only [Except.ok.injEq] at h4
          subst h4
          exact codes_map (codes_varint hv1)
        · rw [if_neg hvar] at h4 ⊢
          unfold Attrs.cx
          rw [Attrs.wcx_len]
          exact parse_codes hT t _ (a.wlen prev) _ v x2 hl.1 hd.1.1.2 hr.1.2 he1.2
            (lenOk_wlen hd.1.1.1 he1.1) hv.1 hc.1 h4 hB.left.right
      have hbody2 : Codes (tl && fs.isNil) st
          (if a.pre.isEmpty then
              (if a.varint then P.map .num pVarint else parse T e t (a.cx T.toHost prev))
            else P.bind (pConst T a.pre) fun _ =>
              (if a.varint then P.map .num pVarint else parse T e t (a.cx T.toHost prev))) (a.pre ++ x2) v := by
        by_cases hp : a.pre.isEmpty = true
        · rw [if_pos hp]
          have : a.pre = [] := by simpa using hp
          rw [this]
          exact hbody
        · rw [if_neg hp]
          exact codes_bind (codes_const hr.1.1) hbody
      have hbody3 : ∀ q : P Val, Codes (tl && fs.isNil) st q (a.pre ++ x2) v →
          Codes (tl && fs.isNil) st (if a.defaultOnEof then pOnEof q a.dflt else q) (a.pre ++ x2) v := by
        intro q hq
        split
        · rename_i hde
          refine codes_onEof ?_ hq
          have := he1.1
          simp only [Attrs.ends, hde, Bool.and_true, Bool.and_eq_true, Bool.not_eq_true'] at this
          exact this.1
        · exact hq
      have hb3 := hbody3 _ hbody2
      cases hfs : fs.isNil with
      | true =>
        cases fs with
        | nil =>
          have hv2 := hv.2
          cases rest <;> simp only [hasTyFields] at hv2
          simp only [wireFields, Except.ok.injEq] at h2
          subst h2
          simp only [hfs, Bool.and_true, List.append_nil] at hb3 ⊢
          exact codes_map (f := fun v => Val.pair v .unit) hb3
        | cons _ _ _ => simp [Fields.isNil] at hfs
      | false =>
        simp only [hfs, Bool.and_false] at hb3
        exact codes_bind hb3
          (codes_map (parseFields_codes hT fs tl (prev ++ [v]) rest y hl.2 hd.1.2 hr.2 he.2 hv.2 hc.2 h2 hB.right))
    | _ => simp [hasTyFields] at hv
theorem parseVariants_codes {T : Target} (hT : T.Ok) {e : Endian} {st : Bool} (d : EnumDesc) : ∀ (vs : Variants)
    (tl : Bool) (i : Nat) (v : Val) (bs : Bytes) (k : Nat),
    layoutOkVariants T vs = true → vs.tags.Nodup → declOkVariants vs = true → regularVariants T e vs = true →
    endsVariants tl st vs = true → hasTyVariants T vs i v → canonVariants (Fmt.code T.toHost e) d vs i v →
    wireVariants (Fmt.code T.toHost e) d vs i v = .ok bs → Fits T bs →
    ∃ tag bs', tag ∈ vs.tags ∧ bs = (if d.peek then [] else wireNum e d.tagTy tag) ++ bs' ∧
      (d.peek = true → (d.tagTy = .varint → tag < 128) ∧ ∃ z, bs' = wireNum e d.tagTy tag ++ z) ∧
      Codes tl st (parseVariants T e vs tag k) bs' (.variant (k + i) v)
  | .nil, _, _, _, _, _, _, _, _, _, _, hv, _, _, _ => by simp [hasTyVariants] at hv
  | .cons tag fs vs, tl, 0, v, bs, k, hl, hn, hd, hr, he, hv, hc, hw, hB => by
    simp only [layoutOkVariants, Bool.and_eq_true] at hl
    simp only [declOkVariants, Bool.and_eq_true] at hd
    simp only [regularVariants, Bool.and_eq_true] at hr
    simp only [endsVariants, Bool.and_eq_true] at he
    simp only [hasTyVariants] at hv
    simp only [canonVariants] at hc
    simp only [wireVariants] at hw
    obtain ⟨x, y, h1, h2, rfl⟩ := cat_eq_ok hw
    simp only [Except.ok.injEq] at h1
    refine ⟨tag, y, by simp [Variants.tags], by rw [← h1]; rfl, ?_, ?_⟩
    · intro hp
      obtain ⟨g1, z, g2⟩ := hc.2 hp
      rw [g2] at h2
      simp only [Except.ok.injEq] at h2
      exact ⟨g1, z, h2.symm⟩
    · simp only [parseVariants, Nat.add_zero, if_true]
      exact codes_map (parseFields_codes hT fs tl [] v y hl.1 hd.1 hr.1 he.1 hv hc.1 h2 hB.right)
  | .cons tag0 fs vs, tl, i + 1, v, bs, k, hl, hn, hd, hr, he, hv, hc, hw, hB => by
    simp only [layoutOkVariants, Bool.and_eq_true] at hl
    simp only [declOkVariants, Bool.and_eq_true] at hd
    simp only [regularVariants, Bool.and_eq_true] at hr
    simp only [endsVariants, Bool.and_eq_true] at he
    simp only [Variants.tags, List.nodup_cons] at hn
    obtain ⟨tag, bs', g1, g2, g3, g4⟩ :=
      parseVariants_codes hT d vs tl i v bs (k + 1) hl.2 hn.2 hd.2 hr.2 he.2 hv hc hw hB
    refine ⟨tag, bs', by simp [Variants.tags, g1], g2, g3, ?_⟩
    simp only [parseVariants]
    refine codes_ite_neg (fun hh => hn.1 (hh ▸ g1)) ?_
    rwa [show k + (i + 1) = k + 1 + i by omega]
end

end Verif
