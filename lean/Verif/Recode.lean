import Verif.PropsAgree

/-!
# Writing back what has been read

`Recodes`: the bytes which a parser used are those which are written for its result.  If `flags`, bytes which are read as flags
may have been any but zero where a one is written.
-/

namespace Verif

/-- A byte which was read, and the byte which is written. -/
def nearByte (flags : Bool) (u w : UInt8) : Bool := u == w || (flags && u != 0 && w == 1)

/-- Bytes which were read, and bytes which are written. -/
inductive Near (flags : Bool) : Bytes → Bytes → Prop where
  | nil : Near flags [] []
  | cons {u w : UInt8} {us ws : Bytes} : nearByte flags u w = true → Near flags us ws → Near flags (u :: us) (w :: ws)

theorem Near.refl (flags : Bool) : ∀ bs, Near flags bs bs
  | [] => .nil
  | b :: bs => .cons (by simp [nearByte]) (Near.refl flags bs)

theorem Near.append {flags : Bool} {a b c d : Bytes} (h : Near flags a b) (h' : Near flags c d) :
    Near flags (a ++ c) (b ++ d) := by
  induction h with
  | nil => exact h'
  | cons h1 _ ih => exact .cons h1 ih

theorem Near.length {flags : Bool} {a b : Bytes} (h : Near flags a b) : a.length = b.length := by
  induction h with
  | nil => rfl
  | cons _ _ ih => simp [ih]

theorem Near.eq {a b : Bytes} (h : Near false a b) : a = b := by
  induction h with
  | nil => rfl
  | cons h1 _ ih => simp only [nearByte, Bool.false_and, Bool.or_false, beq_iff_eq] at h1; rw [h1, ih]

/-- What is read from at most `M` bytes is written (`w`) as almost the same bytes. -/
def Recodes {α : Type} (M : Nat) (flags : Bool) (p : P α) (w : α → Bytes → Prop) : Prop :=
  ∀ bs a rest, bs.length ≤ M → p bs = .ok a rest → ∃ used ws, bs = used ++ rest ∧ Near flags used ws ∧ w a ws

section
variable {α β : Type} {M : Nat} {fl : Bool}

theorem Recodes.mono {p : P α} {w w' : α → Bytes → Prop} (h : Recodes M fl p w) (hw : ∀ a ws, w a ws → w' a ws) :
    Recodes M fl p w' := fun bs a rest hm hp => by
  obtain ⟨u, ws, h1, h2, h3⟩ := h bs a rest hm hp
  exact ⟨u, ws, h1, h2, hw _ _ h3⟩

theorem recodes_pure {a : α} {w : α → Bytes → Prop} (h : w a []) : Recodes M fl (P.pure a) w := by
  intro bs b rest _ hp
  simp only [P.pure, PRes.ok.injEq] at hp
  obtain ⟨rfl, rfl⟩ := hp
  exact ⟨[], [], rfl, .nil, h⟩

theorem recodes_fail {w : α → Bytes → Prop} (er : Err) : Recodes M fl (P.fail er) w := fun _ _ _ _ h => by simp [P.fail] at h
theorem recodes_amb {w : α → Bytes → Prop} (er : Err) : Recodes M fl (P.amb er) w := fun _ _ _ _ h => by simp [P.amb] at h
theorem recodes_unspec {w : α → Bytes → Prop} : Recodes M fl P.unspec w := fun _ _ _ _ h => by simp [P.unspec] at h

theorem recodes_ite {c : Prop} [Decidable c] {p q : P α} {w : α → Bytes → Prop} (hp : c → Recodes M fl p w)
    (hq : ¬ c → Recodes M fl q w) : Recodes M fl (if c then p else q) w := by
  split
  · exact hp ‹_›
  · exact hq ‹_›

theorem recodes_bind {p : P α} {f : α → P β} {w : α → Bytes → Prop} {w' : β → Bytes → Prop} (hp : Recodes M fl p w)
    (hf : ∀ a x, w a x → Recodes M fl (f a) fun b ws => w' b (x ++ ws)) : Recodes M fl (P.bind p f) w' := by
  intro bs b rest hm h
  obtain ⟨a, mid, h1, h2⟩ := pBind_ok h
  obtain ⟨u, x, rfl, h3, h4⟩ := hp _ _ _ hm h1
  obtain ⟨v, y, rfl, h5, h6⟩ := hf _ x h4 _ _ _ (by simp at hm; omega) h2
  exact ⟨u ++ v, x ++ y, by simp, h3.append h5, h6⟩

theorem recodes_map {p : P α} {f : α → β} {w : β → Bytes → Prop} (hp : Recodes M fl p fun a ws => w (f a) ws) :
    Recodes M fl (P.map f p) w :=
  recodes_bind hp fun a x hx => recodes_pure (by simpa using hx)

/-- A parser followed by a check. -/
theorem recodes_check {p : P α} {f : α → P β} {w : α → Bytes → Prop} {w' : β → Bytes → Prop} (hp : Recodes M fl p w)
    (hf : ∀ a bs b rest, f a bs = .ok b rest → rest = bs ∧ ∀ x, w a x → w' b x) : Recodes M fl (P.bind p f) w' :=
  recodes_bind hp fun a x hx bs b rest _ h => by
    obtain ⟨rfl, h2⟩ := hf a bs b rest h
    exact ⟨[], [], rfl, .nil, by simpa using h2 x hx⟩

theorem recodes_take (n : Nat) : Recodes M fl (pTake n) fun bs ws => bs = ws ∧ bs.length = n := by
  intro bs a rest _ h
  unfold pTake at h
  split at h
  · simp only [PRes.ok.injEq] at h
    obtain ⟨rfl, rfl⟩ := h
    exact ⟨bs.take n, _, by simp, .refl _ _, rfl, by simp; omega⟩
  · cases h

theorem recodes_num (e : Endian) (n : Nat) : Recodes M fl (pNum e n) fun v ws => ws = e.bytes n v ∧ v < 256 ^ n :=
  recodes_map ((recodes_take n).mono fun bs ws h => by
    obtain ⟨rfl, rfl⟩ := h
    exact ⟨(e.bytes_num bs).symm, e.num_lt bs⟩)

/-- Numbers which stay in the input. -/
theorem recodes_peekNum (e : Endian) (n : Nat) : Recodes M fl (pPeekNum e n) fun _ ws => ws = [] := by
  intro bs a rest _ h
  obtain ⟨b, mid, h1, h2⟩ := pBind_ok h
  unfold pPeek at h1
  split at h1
  · simp only [PRes.ok.injEq] at h1
    obtain ⟨rfl, rfl⟩ := h1
    simp only [P.pure, PRes.ok.injEq] at h2
    obtain ⟨_, rfl⟩ := h2
    exact ⟨[], [], rfl, .nil, rfl⟩
  · cases h1

theorem recodes_rep {p : P Val} {w : Val → Except Err Bytes} {Q : Val → Prop}
    (hp : Recodes M fl p fun v ws => w v = .ok ws ∧ Q v) :
    ∀ n, Recodes M fl (pRep n p) fun vs ws => vs.length = n ∧ catAll w vs = .ok ws ∧ ∀ v ∈ vs, Q v
  | 0 => recodes_pure ⟨rfl, rfl, fun _ h => by cases h⟩
  | n + 1 => recodes_bind hp fun v y hy => recodes_bind (recodes_rep hp n) fun vs x hx => recodes_pure (by
    refine ⟨by simp [hx.1], ?_, fun u hu => ?_⟩
    · simp only [catAll, hy.1, hx.2.1, cat, List.append_nil]
    · rcases List.mem_cons.mp hu with rfl | hu
      · exact hy.2
      · exact hx.2.2 u hu)

/-- Flags. -/
theorem recodes_bool (e : Endian) : Recodes M true (pBool e) fun b ws => ws = [if b then 1 else 0] := by
  intro bs a rest _ h
  obtain ⟨n, mid, h1, h2⟩ := pBind_ok h
  obtain ⟨u, h3, h4⟩ := pBind_ok h1
  unfold pTake at h4
  simp only [P.pure, PRes.ok.injEq] at h2
  obtain ⟨rfl, rfl⟩ := h2
  split at h4
  · rename_i hl
    simp only [PRes.ok.injEq, P.pure] at h4
    obtain ⟨⟨rfl, rfl⟩, rfl, rfl⟩ := h4
    obtain ⟨b, bs, rfl⟩ : ∃ b t, bs = b :: t := by cases bs <;> simp_all
    refine ⟨[b], _, rfl, ?_, rfl⟩
    have h5 : e.num (List.take 1 (b :: bs)) = b.toNat := by cases e <;> simp [Endian.num, ofLe]
    rw [h5]
    refine .cons ?_ .nil
    by_cases hb : b.toNat = 0
    · have : b = 0 := UInt8.toNat_inj.mp hb
      subst this
      simp [nearByte]
    · have : b ≠ 0 := fun hh => hb (by subst hh; rfl)
      simp [nearByte, hb, this]
  · cases h4.1

end

/-! ## Types -/

/-- Lengths with one representation. -/
def LenR.firm (h : Host) : LenR → Prop
  | .typed lt dt => lt ≠ .varint ∧ dt = false
  | .fixed n => n ≤ h.usizeMax
  | .untilEof => False

mutual
/-- Every value has one representation (or, with `flags`, several which differ in the flags): no variable length integers,
times, sets and maps (whose elements may come twice), values which may be missing at the end, or conversions which change
what they are given. -/
def firm (fl : Bool) (T : Target) : Ty → Prop
  | .bool => fl = true
  | .varint64 | .duration | .systemTime | .set _ | .map _ _ => False
  | .option t => fl = true ∧ firm fl T t
  | .result a b => fl = true ∧ firm fl T a ∧ firm fl T b
  | .seq _ t | .array _ t | .refArray _ t | .range t | .rangeInc t | .box t => firm fl T t
  | .via c t => firm fl T t ∧ ∀ v w, c.apply v = .ok w → w = v
  | .pair a b => firm fl T a ∧ firm fl T b
  | .struct _ fs => firmFields fl T (· = []) fs
  | .enum d vs => d.tagTy ≠ .varint ∧ firmVariants fl T vs
  | _ => True
/-- Fields; the values of those before are known to be in `Q`. -/
def firmFields (fl : Bool) (T : Target) (Q : List Val → Prop) : Fields → Prop
  | .nil => True
  | .cons a t fs => if a.skip then hasTy T t a.dflt ∧ firmFields fl T Q fs
      else a.varint = false ∧ a.defaultOnEof = false ∧ (∀ prev, Q prev → (a.wlen prev).firm T.toHost) ∧ firm fl T t ∧
        firmFields fl T (fun prev => ∃ p v, prev = p ++ [v] ∧ Q p ∧ hasTy T t v) fs
/-- Variants. -/
def firmVariants (fl : Bool) (T : Target) : Variants → Prop
  | .nil => True
  | .cons _ fs vs => firmFields fl T (· = []) fs ∧ firmVariants fl T vs
end

mutual
/-- The value made for a type without encoding. -/
theorem wire_zst {F : Fmt} : ∀ (t : Ty) (l : LenR), zstEmpty t = true → wire F t l (zstVal t) = .ok []
  | .unit, _, _ => by simp [zstVal, wire]
  | .pair a b, _, hz => by
    simp only [zstEmpty, Bool.and_eq_true] at hz
    simp only [zstVal, wire]
    rw [wire_zst a _ hz.1, wire_zst b _ hz.2]; rfl
  | .array n t, _, hz => by
    simp only [zstEmpty, Bool.or_eq_true, beq_iff_eq] at hz
    simp only [zstVal, wire, List.length_replicate, ne_eq, not_true_eq_false, if_false]
    rcases hz with hz | hz
    · subst hz; rfl
    · exact catAll_nil fun v hv => by rw [List.eq_of_mem_replicate hv]; exact wire_zst t _ hz
  | .range t, _, hz => by
    simp only [zstEmpty] at hz
    simp only [zstVal, wire]
    rw [wire_zst t _ hz]; rfl
  | .struct d fs, _, hz => by
    simp only [zstEmpty] at hz
    simp only [zstVal, wire]
    exact wireFields_zst fs [] hz
  | .prim _, _, hz | .usize, _, hz | .bool, _, hz | .char, _, hz | .nonZero _, _, hz
  | .atomic _, _, hz | .ipv4, _, hz | .ipv6, _, hz | .ipAddr, _, hz
  | .duration, _, hz | .systemTime, _, hz | .endianness, _, hz
  | .varint64, _, hz | .uuid, _, hz | .str _, _, hz | .seq _ _, _, hz
  | .set _, _, hz | .map _ _, _, hz
  | .refArray _ _, _, hz | .option _, _, hz | .result _ _, _, hz
  | .rangeInc _, _, hz | .box _, _, hz | .via _ _, _, hz | .enum _ _, _, hz => by simp [zstEmpty] at hz
theorem wireFields_zst {F : Fmt} : ∀ (fs : Fields) (prev : List Val), zstEmptyFields fs = true →
    wireFields F fs prev (zstFields fs) = .ok []
  | .nil, _, _ => by simp [zstFields, wireFields]
  | .cons a t fs, prev, hz => by
    simp only [zstEmptyFields, Bool.and_eq_true, Bool.not_eq_true'] at hz
    have hpre : a.pre = [] := List.isEmpty_iff.mp hz.1.2
    simp only [zstFields, wireFields, hz.1.1.2, Bool.false_eq_true, if_false, hpre]
    split
    · exact wireFields_zst fs _ hz.2
    · rw [wire_zst t _ hz.1.1.1, wireFields_zst fs _ hz.2]; rfl
end

mutual
theorem hasTy_zst {T : Target} : ∀ (t : Ty), zstEmpty t = true → hasTy T t (zstVal t)
  | .unit, _ => by simp [zstVal, hasTy]
  | .pair a b, hz => by
    simp only [zstEmpty, Bool.and_eq_true] at hz
    simp only [zstVal, hasTy]
    exact ⟨hasTy_zst a hz.1, hasTy_zst b hz.2⟩
  | .array n t, hz => by
    simp only [zstEmpty, Bool.or_eq_true, beq_iff_eq] at hz
    simp only [zstVal, hasTy, List.length_replicate, true_and]
    rcases hz with hz | hz
    · subst hz; exact fun _ h => by cases h
    · exact fun v hv => by rw [List.eq_of_mem_replicate hv]; exact hasTy_zst t hz
  | .range t, hz => by
    simp only [zstEmpty] at hz
    simp only [zstVal, hasTy]
    exact ⟨hasTy_zst t hz, hasTy_zst t hz⟩
  | .struct d fs, hz => by
    simp only [zstEmpty] at hz
    simp only [zstVal, hasTy]
    exact hasTyFields_zst fs hz
  | .prim _, hz | .usize, hz | .bool, hz | .char, hz | .nonZero _, hz
  | .atomic _, hz | .ipv4, hz | .ipv6, hz | .ipAddr, hz
  | .duration, hz | .systemTime, hz | .endianness, hz
  | .varint64, hz | .uuid, hz | .str _, hz | .seq _ _, hz
  | .set _, hz | .map _ _, hz
  | .refArray _ _, hz | .option _, hz | .result _ _, hz
  | .rangeInc _, hz | .box _, hz | .via _ _, hz | .enum _ _, hz => by simp [zstEmpty] at hz
theorem hasTyFields_zst {T : Target} : ∀ (fs : Fields), zstEmptyFields fs = true → hasTyFields T fs (zstFields fs)
  | .nil, _ => by simp [zstFields, hasTyFields]
  | .cons a t fs, hz => by
    simp only [zstEmptyFields, Bool.and_eq_true, Bool.not_eq_true'] at hz
    simp only [zstFields, hasTyFields]
    exact ⟨hasTy_zst t hz.1.1.1, hasTyFields_zst fs hz.2⟩
end

section
variable {M : Nat} {fl : Bool} {T : Target} {e : Endian}

theorem recodes_lenTy {h : Host} (hh : h.Ok) (e : Endian) {lt : LenTy} (hl : lt ≠ .varint) :
    Recodes M fl (pLen h e lt) fun n ws => ws = wireNum e lt n ∧ n ≤ lt.max ∧ n ≤ h.usizeMax := by
  have hu := hh.lower
  cases lt
  case varint => exact absurd rfl hl
  case u7 =>
    refine recodes_check (recodes_num e 1) fun n bs m rest h => ?_
    split at h
    · cases h
    · simp only [P.pure, PRes.ok.injEq] at h
      obtain ⟨rfl, rfl⟩ := h
      exact ⟨rfl, fun x hx => ⟨hx.1, by simp only [LenTy.max]; omega, by omega⟩⟩
  case u64 =>
    refine recodes_check (recodes_num e 8) fun n bs m rest h => ?_
    split at h
    · cases h
    · simp only [P.pure, PRes.ok.injEq] at h
      obtain ⟨rfl, rfl⟩ := h
      exact ⟨rfl, fun x hx => ⟨hx.1, by have := hx.2; simp only [LenTy.max]; omega, by omega⟩⟩
  all_goals exact (recodes_num e _).mono fun n ws hx => ⟨hx.1, by have := hx.2; simp only [LenTy.max]; omega, by have := hx.2; omega⟩

/-- A length and what it is the length of. -/
theorem recodes_len {α : Type} {h : Host} (hh : h.Ok) {l : LenR} (hl : l.firm h) {f : Option Nat → P α} {w : α → Bytes → Prop}
    (hf : ∀ n, n ≤ h.usizeMax → Recodes M fl (f (some n)) fun a ws => ∀ x, wireLen e n l = .ok x → w a (x ++ ws)) :
    Recodes M fl (P.bind (pLenR h e (l.cast h)) f) w := by
  cases l with
  | untilEof => exact hl.elim
  | fixed n =>
    intro bs a rest hm hp
    simp only [LenR.firm] at hl
    simp only [LenR.cast, Nat.mod_eq_of_lt (Nat.lt_succ_of_le hl), pLenR] at hp
    obtain ⟨o, mid, h1, h2⟩ := pBind_ok hp
    simp only [P.pure, PRes.ok.injEq] at h1
    obtain ⟨rfl, rfl⟩ := h1
    obtain ⟨u, ws, h3, h4, h5⟩ := hf _ hl _ _ _ hm h2
    exact ⟨u, ws, h3, h4, h5 [] (by simp [wireLen])⟩
  | typed lt dt =>
    obtain ⟨h1, rfl⟩ := hl
    intro bs a rest hm hp
    obtain ⟨o, mid, h2, h3⟩ := pBind_ok hp
    obtain ⟨n, mid', h4, h5⟩ := pBind_ok h2
    simp only [P.pure, PRes.ok.injEq] at h5
    obtain ⟨rfl, rfl⟩ := h5
    obtain ⟨u, x, rfl, h6, h7⟩ := recodes_lenTy (M := M) (fl := fl) hh e h1 _ _ _ hm h4
    obtain ⟨v, y, rfl, h8, h9⟩ := hf _ h7.2.2 _ _ _ (by simp at hm; omega) h3
    refine ⟨u ++ v, x ++ y, by simp, h6.append h8, h9 x ?_⟩
    simp only [wireLen, if_neg (Nat.not_lt.mpr h7.2.1), h7.1]

/-- Elements which are written back, and fit in memory. -/
def Elems (T : Target) (e : Endian) (t : Ty) (n : Nat) (vs : List Val) (ws : Bytes) : Prop :=
  vs.length = n ∧ catAll (wire (Fmt.code T.toHost e) t LenR.std) vs = .ok ws ∧ (∀ v ∈ vs, hasTy T t v) ∧
    n * sizeOf T t ≤ T.isizeMax

theorem recodes_vec {t : Ty} {p : P Val} (hv : vecOk T e t = true)
    (hp : Recodes M fl p fun v ws => wire (Fmt.code T.toHost e) t LenR.std v = .ok ws ∧ hasTy T t v) (n : Nat) :
    Recodes M fl (pVec T e t p n) (Elems T e t n) := by
  intro bs vs rest hm h
  unfold pVec at h
  split at h
  · cases h
  · split at h
    · cases h
    · simp only at h
      split at h
      · exact absurd h precheck_ok
      · split at h
        · cases h
        · rename_i hn
          split at h
          · rename_i hz
            simp only [PRes.ok.injEq] at h
            obtain ⟨rfl, rfl⟩ := h
            simp only [Bool.and_eq_true, Bool.not_eq_true', beq_iff_eq] at hz
            simp only [vecOk, hz.1, hz.2, bne_self_eq_false, Bool.false_or, Bool.false_eq_true, if_false] at hv
            exact ⟨[], [], rfl, .nil, by simp, catAll_nil fun v hv' => by
              rw [List.eq_of_mem_replicate hv']; exact wire_zst t _ hv, fun v hv' => by
              rw [List.eq_of_mem_replicate hv']; exact hasTy_zst t hv, by omega⟩
          · obtain ⟨u, ws, h1, h2, h3, h4, h5⟩ := recodes_rep hp n _ _ _ hm h
            exact ⟨u, ws, h1, h2, h3, h4, h5, by omega⟩

/-- References: what they refer to is part of the input. -/
theorem recodes_ref {t : Ty} (hm : M ≤ T.isizeMax) (hl : layoutOk T t = true)
    (hp : Recodes M fl (parse T e t Cx.std) fun v ws => wire (Fmt.code T.toHost e) t LenR.std v = .ok ws ∧ hasTy T t v) (n : Nat) :
    Recodes M fl (pRef T t (parse T e t Cx.std) n) (Elems T e t n) := by
  unfold pRef
  refine recodes_ite (fun _ => recodes_fail _) fun _ => recodes_ite (fun hb => ?_) fun _ => recodes_unspec
  simp only [Bool.and_eq_true] at hb
  intro bs vs rest hbs h
  have hr := pRep_prim (e := e) (cx := Cx.std) hb.1 hl hb.2 n bs
  have : n * sizeOf T t ≤ bs.length := by
    refine Nat.le_of_not_lt fun hh => ?_
    have := hr.2 (by omega)
    rw [h] at this
    cases this
  obtain ⟨u, ws, h1, h2, h3, h4, h5⟩ := recodes_rep hp n _ _ _ hbs h
  exact ⟨u, ws, h1, h2, h3, h4, h5, by omega⟩

theorem recodes_ipv6 : Recodes M fl (pIpv6 T e) fun v ws => ∃ bs, v = .bytes bs ∧ bs.length = 16 ∧
    ws = if (Fmt.code T.toHost e).rev6 then bs.reverse else bs :=
  recodes_map ((recodes_take 16).mono fun bs ws h => by
    obtain ⟨rfl, hl⟩ := h
    refine ⟨_, rfl, ?_⟩
    unfold Fmt.code
    cases e.conv T.toHost <;> simp [hl])

theorem recodes_const {c : Bytes} : Recodes M fl (pConst T c) fun _ ws => ws = c :=
  recodes_ite (fun _ => recodes_unspec) fun _ => recodes_check (recodes_take _) fun bs r b rest h => by
    split at h
    · rename_i hc
      simp only [P.pure, PRes.ok.injEq] at h
      exact ⟨h.2.symm, fun x hx => by rw [← hx.1, hc]⟩
    · cases h

theorem recodes_str (T : Target) (n : Nat) : Recodes M fl (pStr T (some n)) fun v ws =>
    v = .bytes ws ∧ ws.length = n ∧ utf8Valid ws = true ∧ n ≤ T.isizeMax := by
  unfold pStr
  refine recodes_ite (fun _ => recodes_unspec) fun _ => recodes_ite (fun _ => recodes_amb _) fun hn =>
    recodes_check (recodes_take _) fun bs r b rest h => ?_
  unfold pStrVal at h
  split at h
  · rename_i hu
    simp only [P.pure, PRes.ok.injEq] at h
    obtain ⟨rfl, rfl⟩ := h
    exact ⟨rfl, fun x hx => by rw [← hx.1]; exact ⟨rfl, hx.2, hu, by omega⟩⟩
  · cases h

theorem LenR.firm_opt {h : Host} {l : LenR} (hl : l.firm h) (t : Ty) : (l.opt t).firm h := by
  cases t <;> first
    | exact hl
    | exact ⟨by decide, rfl⟩

theorem firm_std (h : Host) : LenR.std.firm h := ⟨by decide, rfl⟩

/-- A value of a type is written back. -/
abbrev Back (T : Target) (e : Endian) (t : Ty) (l : LenR) (v : Val) (ws : Bytes) : Prop :=
  wire (Fmt.code T.toHost e) t l v = .ok ws ∧ hasTy T t v

section
variable (hT : T.Ok) (hM : M ≤ T.isizeMax)
include hT hM

mutual
theorem parse_recodes : ∀ (t : Ty) (l : LenR) (inl : Bool), layoutOk T t = true → regular T e t = true → l.firm T.toHost → firm fl T t →
    Recodes M fl (parse T e t ⟨l.cast T.toHost, inl⟩) (Back T e t l)
  | .prim p, _, _, _, _, _, _ => by
    unfold parse
    exact recodes_map ((recodes_num e _).mono fun n ws h => ⟨by simp only [wire]; rw [h.1]; rfl, by simpa only [hasTy] using h.2⟩)
  | .usize, _, _, _, _, _, _ => by
    unfold parse
    refine recodes_check (recodes_num e _) fun n bs b rest h => ?_
    split at h
    · cases h
    · simp only [P.pure, PRes.ok.injEq] at h
      obtain ⟨rfl, rfl⟩ := h
      exact ⟨rfl, fun x hx => ⟨by simp only [wire]; rw [hx.1]; rfl, by simp only [hasTy]; omega⟩⟩
  | .bool, _, _, _, _, _, hf => by
    simp only [firm] at hf
    subst hf
    unfold parse
    exact recodes_map ((recodes_bool e).mono fun b ws h => ⟨by simp only [wire]; rw [h], by simp only [hasTy]⟩)
  | .char, _, _, _, _, _, _ => by
    unfold parse
    refine recodes_check (recodes_num e _) fun n bs b rest h => ?_
    split at h
    · rename_i hc
      simp only [P.pure, PRes.ok.injEq] at h
      obtain ⟨rfl, rfl⟩ := h
      exact ⟨rfl, fun x hx => ⟨by simp only [wire]; rw [hx.1]; rfl, by simpa only [hasTy] using hc⟩⟩
    · cases h
  | .nonZero p, _, _, _, _, _, _ => by
    unfold parse
    refine recodes_check (recodes_num e _) fun n bs b rest h => ?_
    split at h
    · cases h
    · rename_i hz
      simp only [P.pure, PRes.ok.injEq] at h
      obtain ⟨rfl, rfl⟩ := h
      exact ⟨rfl, fun x hx => ⟨by simp only [wire]; rw [hx.1]; rfl, by simp only [hasTy]; exact ⟨hx.2, hz⟩⟩⟩
  | .atomic p, _, _, _, _, _, _ => by
    unfold parse
    exact recodes_map ((recodes_num e _).mono fun n ws h => ⟨by simp only [wire]; rw [h.1]; rfl, by simpa only [hasTy] using h.2⟩)
  | .ipv4, _, _, _, _, _, _ => by
    unfold parse
    exact recodes_map ((recodes_num e _).mono fun n ws h => ⟨by simp only [wire]; rw [h.1]; rfl, by simpa only [hasTy] using h.2⟩)
  | .ipv6, _, _, _, _, _, _ => by
    unfold parse
    exact recodes_ipv6.mono fun v ws h => by
      obtain ⟨bs, rfl, hl, rfl⟩ := h; exact ⟨by simp only [wire], by simpa only [hasTy] using hl⟩
  | .ipAddr, _, _, _, _, _, _ => by
    unfold parse
    refine recodes_bind (recodes_num e 1) fun n x hx => recodes_ite (fun hn => ?_) fun _ => recodes_ite (fun hn => ?_) fun _ =>
      recodes_fail _
    · refine recodes_map ((recodes_num e 4).mono fun m ws h => ⟨?_, by simpa only [hasTy] using h.2⟩)
      simp only [wire]
      rw [hx.1, h.1, hn]
      cases e <;> rfl
    · refine recodes_map (recodes_ipv6.mono fun v ws h => ?_)
      obtain ⟨bs, rfl, hl, rfl⟩ := h
      refine ⟨?_, by simpa only [hasTy] using hl⟩
      simp only [wire]
      rw [hx.1, hn]
      cases e <;> rfl
  | .duration, _, _, _, _, _, hf => by simp only [firm] at hf
  | .systemTime, _, _, _, _, _, hf => by simp only [firm] at hf
  | .endianness, _, _, _, _, _, _ => by
    unfold parse
    refine recodes_check (recodes_num e 1) fun n bs b rest h => ?_
    split at h
    · rename_i hn
      simp only [P.pure, PRes.ok.injEq] at h
      obtain ⟨rfl, rfl⟩ := h
      exact ⟨rfl, fun x hx => ⟨by simp only [wire]; rw [hx.1, hn]; cases e <;> rfl, by simp only [hasTy]⟩⟩
    · split at h
      · rename_i hn
        simp only [P.pure, PRes.ok.injEq] at h
        obtain ⟨rfl, rfl⟩ := h
        exact ⟨rfl, fun x hx => ⟨by simp only [wire]; rw [hx.1, hn]; cases e <;> rfl, by simp only [hasTy]⟩⟩
      · cases h
  | .varint64, _, _, _, _, _, hf => by simp only [firm] at hf
  | .uuid, _, _, _, _, _, _ => by
    unfold parse
    exact recodes_map ((recodes_take 16).mono fun bs ws h => ⟨by simp only [wire]; rw [h.1], by simpa only [hasTy] using h.2⟩)
  | .unit, _, _, _, _, _, _ => by unfold parse; exact recodes_pure ⟨by simp only [wire], by simp only [hasTy]⟩
  | .str k, l, _, _, _, hl, _ => by
    unfold parse
    exact recodes_len hT.toOk hl fun n _ => (recodes_str T n).mono fun v ws h x hx => by
      obtain ⟨rfl, rfl, h3, h4⟩ := h
      exact ⟨by simp only [wire, Fmt.code, hx, cat], by simp only [hasTy]; exact ⟨h3, h4⟩⟩
  | .seq k t, l, _, hy, hr, hl, hf => by
    unfold parse
    simp only [firm] at hf
    simp only [layoutOk] at hy
    simp only [regular, Bool.and_eq_true] at hr
    have ih := parse_recodes t LenR.std false hy hr.1.2 (firm_std _) hf
    refine recodes_ite (fun _ => recodes_fail _) fun _ => recodes_len hT.toOk hl fun n hn => ?_
    have key : ∀ {q : P (List Val)}, Recodes M fl q (Elems T e t n) →
        Recodes M fl (P.map .list q) fun v ws => ∀ x, wireLen e n l = .ok x → Back T e (.seq k t) l v (x ++ ws) :=
      fun hq => recodes_map (hq.mono fun vs ws h x hx => by
        obtain ⟨rfl, h2, h3, h4⟩ := h
        refine ⟨?_, by simp only [hasTy]; exact ⟨h3, hn, h4⟩⟩
        simp only [wire]
        rw [h2]
        simp only [Fmt.code, hx, cat])
    have hvec := recodes_vec hr.1.1 ih n
    cases k <;> simp only [pSeq]
    · exact key hvec
    · exact key (recodes_ite (fun _ => recodes_unspec) fun _ => hvec)
    · exact key (recodes_ref hM hy ih n)
  | .set t, _, _, _, _, _, hf => by simp only [firm] at hf
  | .map k v, _, _, _, _, _, hf => by simp only [firm] at hf
  | .array n t, l, inl, hy, hr, hl, hf => by
    unfold parse
    simp only [firm] at hf
    simp only [layoutOk] at hy
    simp only [regular, Bool.and_eq_true] at hr
    have ih := parse_recodes t LenR.std false hy hr.2 (firm_std _) hf
    exact recodes_ite (fun _ => recodes_unspec) fun _ => recodes_map ((recodes_rep ih n).mono fun vs ws h => by
      refine ⟨?_, by simp only [hasTy]; exact ⟨h.1, h.2.2⟩⟩
      simp only [wire]
      rw [if_neg (fun hh => hh h.1), h.2.1])
  | .refArray n t, l, inl, hy, hr, hl, hf => by
    unfold parse
    simp only [firm] at hf
    simp only [layoutOk] at hy
    simp only [regular, Bool.and_eq_true] at hr
    have ih := parse_recodes t LenR.std false hy hr.2 (firm_std _) hf
    exact recodes_ite (fun _ => recodes_fail _) fun _ => recodes_ite (fun _ => recodes_map ((recodes_rep ih n).mono fun vs ws h => by
      refine ⟨?_, by simp only [hasTy]; exact ⟨h.1, h.2.2⟩⟩
      simp only [wire]
      rw [if_neg (fun hh => hh h.1), h.2.1])) fun _ => recodes_unspec
  | .option t, l, inl, hy, hr, hl, hf => by
    unfold parse
    simp only [firm] at hf
    simp only [layoutOk] at hy
    simp only [regular] at hr
    obtain ⟨inl', hx⟩ := cast_opt T.toHost l inl t
    have ih := parse_recodes t (l.opt t) inl' hy hr (LenR.firm_opt hl t) hf.2
    obtain ⟨rfl, hf⟩ := hf
    refine recodes_bind (recodes_bool e) fun b x hx' => recodes_ite (fun hb => ?_) fun hb => recodes_pure ⟨?_, by simp only [hasTy]⟩
    · rw [hx]
      exact recodes_map (ih.mono fun v ws h =>
        ⟨by simp only [wire]; rw [h.1, hx', hb]; rfl, by simp only [hasTy]; exact h.2⟩)
    · simp only [wire]
      rw [hx']
      simp [hb]
  | .result t er, l, inl, hy, hr, hl, hf => by
    unfold parse
    simp only [firm] at hf
    simp only [layoutOk, Bool.and_eq_true] at hy
    simp only [regular, Bool.and_eq_true] at hr
    have ih1 := parse_recodes t LenR.std false hy.1 hr.1 (firm_std _) hf.2.1
    have ih2 := parse_recodes er LenR.std false hy.2 hr.2 (firm_std _) hf.2.2
    obtain ⟨rfl, hf⟩ := hf
    refine recodes_bind (recodes_bool e) fun b x hx => recodes_ite (fun hb => ?_) fun hb => ?_
    · exact recodes_map (ih1.mono fun v ws h =>
        ⟨by simp only [wire]; rw [h.1, hx, hb]; rfl, by simp only [hasTy]; exact h.2⟩)
    · exact recodes_map (ih2.mono fun v ws h =>
        ⟨by simp only [wire]; rw [h.1, hx]; simp [hb, cat], by simp only [hasTy]; exact h.2⟩)
  | .range t, l, inl, hy, hr, hl, hf => by
    unfold parse
    simp only [firm] at hf
    simp only [layoutOk] at hy
    simp only [regular] at hr
    have ih := parse_recodes t LenR.std false hy hr (firm_std _) hf
    exact recodes_bind ih fun a x hx => recodes_bind ih fun b y hy => recodes_pure
      ⟨by simp only [wire]; rw [hx.1, hy.1]; simp [cat], by simp only [hasTy]; exact ⟨hx.2, hy.2⟩⟩
  | .rangeInc t, l, inl, hy, hr, hl, hf => by
    unfold parse
    simp only [firm] at hf
    simp only [layoutOk] at hy
    simp only [regular] at hr
    have ih := parse_recodes t LenR.std false hy hr (firm_std _) hf
    exact recodes_bind ih fun a x hx => recodes_bind ih fun b y hy => recodes_pure
      ⟨by simp only [wire]; rw [hx.1, hy.1]; simp [cat], by simp only [hasTy]; exact ⟨hx.2, hy.2⟩⟩
  | .pair a b, l, inl, hy, hr, hl, hf => by
    unfold parse
    simp only [firm] at hf
    simp only [layoutOk, Bool.and_eq_true] at hy
    simp only [regular, Bool.and_eq_true] at hr
    exact recodes_bind (parse_recodes a LenR.std false hy.1 hr.1 (firm_std _) hf.1) fun x p hp =>
      recodes_bind (parse_recodes b LenR.std false hy.2 hr.2 (firm_std _) hf.2) fun y q hq => recodes_pure
        ⟨by simp only [wire]; rw [hp.1, hq.1]; simp [cat], by simp only [hasTy]; exact ⟨hp.2, hq.2⟩⟩
  | .box t, l, inl, hy, hr, hl, hf => by
    unfold parse
    simp only [firm] at hf
    simp only [layoutOk] at hy
    simp only [regular] at hr
    exact (parse_recodes t LenR.std false hy hr (firm_std _) hf).mono fun v ws h =>
      ⟨by simp only [wire]; exact h.1, by simp only [hasTy]; exact h.2⟩
  | .via c t, l, inl, hy, hr, hl, hf => by
    unfold parse
    simp only [firm] at hf
    simp only [layoutOk] at hy
    simp only [regular] at hr
    refine recodes_check (parse_recodes t LenR.std false hy hr (firm_std _) hf.1) fun v bs w rest h => ?_
    cases hw : c.apply v with
    | error er => simp only [pConvert, hw] at h; cases h
    | ok w' =>
      simp only [pConvert, hw, P.pure, PRes.ok.injEq] at h
      obtain ⟨rfl, rfl⟩ := h
      have := hf.2 v _ hw
      subst this
      exact ⟨rfl, fun x hx => ⟨by simp only [wire]; exact hx.1, by simp only [hasTy]; exact ⟨hx.2, hw⟩⟩⟩
  | .struct d fs, l, inl, hy, hr, hl, hf => by
    unfold parse
    simp only [firm] at hf
    simp only [layoutOk, Bool.and_eq_true] at hy
    simp only [regular] at hr
    exact (parseFields_recodes fs [] hy.2 hr (· = []) rfl hf).mono fun v ws h =>
      ⟨by simp only [wire]; exact h.1, by simp only [hasTy]; exact h.2⟩
  | .enum d vs, l, inl, hy, hr, hl, hf => by
    unfold parse
    simp only [firm] at hf
    simp only [layoutOk] at hy
    simp only [regular] at hr
    refine recodes_bind (w := fun tag x => x = if d.peek then [] else wireNum e d.tagTy tag) ?_ fun tag x hx =>
      (parseVariants_recodes d vs tag 0 hy hr hf.2).mono fun v ws h => by
        obtain ⟨i, u, rfl, h1, h2⟩ := h
        rw [Nat.zero_add]
        refine ⟨?_, by simp only [hasTy]; exact h2⟩
        simp only [wire]
        rw [h1, hx]
    obtain ⟨lt, pk, nm⟩ := d
    cases pk <;> cases lt <;> simp only [pTag, ne_eq, not_true_eq_false, false_and, reduceCtorEq] at hf ⊢
    all_goals first
      | exact (recodes_num e _).mono fun n ws h => h.1
      | exact recodes_peekNum e _
theorem parseFields_recodes : ∀ (fs : Fields) (prev : List Val), layoutOkFields T fs = true → regularFields T e fs = true →
    ∀ Q : List Val → Prop, Q prev → firmFields fl T Q fs →
    Recodes M fl (parseFields T e fs prev) fun v ws => wireFields (Fmt.code T.toHost e) fs prev v = .ok ws ∧ hasTyFields T fs v
  | .nil, _, _, _, _, _, _ => by
    unfold parseFields; exact recodes_pure ⟨by simp only [wireFields], by simp only [hasTyFields]⟩
  | .cons a t fs, prev, hy, hr, Q, hq, hf => by
    unfold parseFields
    simp only [firmFields] at hf
    simp only [layoutOkFields, Bool.and_eq_true] at hy
    simp only [regularFields, Bool.and_eq_true] at hr
    refine recodes_ite (fun hk => ?_) fun hk => ?_
    · rw [if_pos hk] at hf
      exact recodes_map ((parseFields_recodes fs prev hy.2 hr.2 Q hq hf.2).mono fun v ws h =>
        ⟨by simp only [wireFields, hk, if_true]; exact h.1, by simp only [hasTyFields]; exact ⟨hf.1, h.2⟩⟩)
    · rw [if_neg hk] at hf
      obtain ⟨hv, hd, hl, ht, hfs⟩ := hf
      simp only [hv, hd, Bool.false_eq_true, if_false]
      have hw : (a.wcx prev).len = a.wlen prev := by
        unfold Attrs.wcx Attrs.wlen
        cases a.opaqueTy
        · rcases a.len with _ | ⟨_ | _ | _⟩ <;> rfl
        · rfl
      have h1 : Recodes M fl (parse T e t (a.cx T.toHost prev)) (Back T e t (a.wlen prev)) := by
        unfold Attrs.cx
        rw [hw]
        exact parse_recodes t (a.wlen prev) _ hy.1 hr.1.2 (hl prev hq) ht
      have h2 : Recodes M fl (if a.pre.isEmpty then parse T e t (a.cx T.toHost prev)
          else P.bind (pConst T a.pre) fun _ => parse T e t (a.cx T.toHost prev)) fun v ws =>
          cat (.ok a.pre) (wire (Fmt.code T.toHost e) t (a.wlen prev) v) = .ok ws ∧ hasTy T t v :=
        recodes_ite (fun hp => h1.mono fun v ws h => ⟨by rw [List.isEmpty_iff.mp hp, h.1]; rfl, h.2⟩) fun _ =>
          recodes_bind recodes_const fun _ x hx => h1.mono fun v ws h => ⟨by rw [h.1, hx]; rfl, h.2⟩
      refine recodes_bind h2 fun v x hx => recodes_map
        ((parseFields_recodes fs (prev ++ [v]) hy.2 hr.2 _ ⟨prev, v, rfl, hq, hx.2⟩ hfs).mono fun u ws h =>
          ⟨?_, by simp only [hasTyFields]; exact ⟨hx.2, h.2⟩⟩)
      simp only [wireFields, hk, hv, if_false, Bool.false_eq_true]
      rw [hx.1, h.1]
      rfl
theorem parseVariants_recodes (d : EnumDesc) : ∀ (vs : Variants) (tag i : Nat), layoutOkVariants T vs = true →
    regularVariants T e vs = true → firmVariants fl T vs →
    Recodes M fl (parseVariants T e vs tag i) fun v ws => ∃ k u, v = .variant (i + k) u ∧
      wireVariants (Fmt.code T.toHost e) d vs k u = .ok ((if d.peek then [] else wireNum e d.tagTy tag) ++ ws) ∧
      hasTyVariants T vs k u
  | .nil, _, _, _, _, _ => by unfold parseVariants; exact recodes_fail _
  | .cons tag' fs vs, tag, i, hy, hr, hf => by
    unfold parseVariants
    simp only [firmVariants] at hf
    simp only [layoutOkVariants, Bool.and_eq_true] at hy
    simp only [regularVariants, Bool.and_eq_true] at hr
    refine recodes_ite (fun ht => ?_) fun _ => ?_
    · subst ht
      exact recodes_map ((parseFields_recodes fs [] hy.1 hr.1 (· = []) rfl hf.1).mono fun v ws h => ⟨0, v, rfl, by
        simp only [wireVariants]; rw [h.1]; rfl, by simp only [hasTyVariants]; exact h.2⟩)
    · exact (parseVariants_recodes d vs tag (i + 1) hy.2 hr.2 hf.2).mono fun v ws h => by
        obtain ⟨k, u, rfl, h1, h2⟩ := h
        exact ⟨k + 1, u, by rw [Nat.add_assoc, Nat.add_comm 1 k], by simp only [wireVariants]; exact h1,
          by simp only [hasTyVariants]; exact h2⟩
end

end

end

end Verif
