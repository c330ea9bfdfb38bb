import Verif.DebugRead
import Verif.PropsRefuse

/-!
# Writing in debug builds
-/

namespace Verif

/-! ## Only panics -/

/-- The result of a debug build is that of a release build or the panic of an overflow. -/
def OrPanic {α : Type} (a b : Except Err α) : Prop := a = b ∨ a = .error (.panic .arithOverflow)

theorem sumNeededD_only {h : Host} {f g : Val → Except Err Nat} : ∀ {n : Nat} {vs : List Val},
    (∀ v ∈ vs, OrPanic (f v) (g v)) → OrPanic (sumNeededD h f n vs) (sumNeeded h g n vs)
  | _, [], _ => .inl rfl
  | n, v :: vs, hf => by
    simp only [sumNeededD, sumNeeded]
    rcases hf v List.mem_cons_self with h1 | h1 <;> rw [h1]
    · cases g v with
      | error er => exact .inl rfl
      | ok a =>
        simp only
        by_cases hn : n + a ≤ h.usizeMax
        · rw [addD_ok hn]
          have : h.wrap (n + a) = n + a := Nat.mod_eq_of_lt (by omega)
          rw [this]
          exact sumNeededD_only fun w hw => hf w (List.mem_cons_of_mem _ hw)
        · have : h.addD n a = .error .arithOverflow := if_neg hn
          rw [this]
          exact .inr rfl
    · exact .inr rfl

theorem addNeededD_only {h : Host} {a b a' b' : Except Err Nat} (ha : OrPanic a a') (hb : OrPanic b b') :
    OrPanic (addNeededD h a b) (addNeeded h a' b') := by
  rcases ha with rfl | rfl
  · cases a with
    | error er => exact .inl rfl
    | ok x =>
      rcases hb with rfl | rfl
      · cases b with
        | error er => exact .inl rfl
        | ok y =>
          simp only [addNeededD, addNeeded]
          by_cases hn : x + y ≤ h.usizeMax
          · rw [addD_ok hn]
            have : h.wrap (x + y) = x + y := Nat.mod_eq_of_lt (by omega)
            rw [this]
            exact .inl rfl
          · have : h.addD x y = .error .arithOverflow := if_neg hn
            rw [this]
            exact .inr rfl
      · exact .inr rfl
  · exact .inr rfl

theorem sliceNeededD_only {h : Host} (len size : Nat) :
    OrPanic (sliceNeededD h len size) (.ok (h.wrap (4 + h.wrap (len * size)))) := by
  unfold sliceNeededD
  by_cases hn : len * size ≤ h.usizeMax
  · rw [mulD_ok hn]
    have : h.wrap (len * size) = len * size := Nat.mod_eq_of_lt (by omega)
    rw [this]
    exact addNeededD_only (.inl rfl) (.inl rfl)
  · have : h.mulD len size = .error .arithOverflow := if_neg hn
    rw [this]
    exact .inr rfl

theorem isLength_only {n : Nat} {a b : Except Err Nat} (hab : OrPanic a b) : OrPanic (isLength n a) (isLength n b) := by
  unfold isLength
  split
  · exact .inl rfl
  · exact hab

/-- The sizes added up are the same, or the debug build panics. -/
theorem run_sizeD_only {h : Host} : ∀ (p : WProg) (s : Nat),
    p.run (sizeCalculatorD h) s = p.run (sizeCalculator h) s ∨ (p.run (sizeCalculatorD h) s).1 = .error (.panic .arithOverflow)
  | .done r, s => .inl rfl
  | .bytes bs k, s => by
    simp only [WProg.run, sizeCalculatorD, sizeCalculator]
    by_cases hn : s + bs.length ≤ h.usizeMax
    · rw [addD_ok hn]
      have : h.wrap (s + bs.length) = s + bs.length := Nat.mod_eq_of_lt (by omega)
      rw [this]
      exact run_sizeD_only k _
    · have : h.addD s bs.length = .error .arithOverflow := if_neg hn
      rw [this]
      exact .inr rfl
  | .num n v k, s => by
    simp only [WProg.run, sizeCalculatorD, sizeCalculator]
    by_cases hn : s + n ≤ h.usizeMax
    · rw [addD_ok hn]
      have : h.wrap (s + n) = s + n := Nat.mod_eq_of_lt (by omega)
      rw [this]
      exact run_sizeD_only k _
    · have : h.addD s n = .error .arithOverflow := if_neg hn
      rw [this]
      exact .inr rfl
  | .room n k, s => by
    simp only [WProg.run, sizeCalculatorD, sizeCalculator]
    exact run_sizeD_only k _

theorem sizeNeededD_only (T : Target) (t : Ty) (v : Val) : OrPanic (sizeNeededD T t v) (sizeNeeded T t v) := by
  unfold sizeNeededD sizeNeeded
  rcases run_sizeD_only (h := T.toHost) (encode T T.native t Cx.std v) 0 with h | h
  · rw [h]
    exact .inl rfl
  · generalize (encode T T.native t Cx.std v).run (sizeCalculatorD T.toHost) 0 = r at h
    obtain ⟨x, n⟩ := r
    simp only at h
    subst h
    exact .inr rfl

/-- `bytes_needed` of a debug build gives the same number or panics. -/
theorem bytesNeededD_only (T : Target) : ∀ (t : Ty) (v : Val), OrPanic (bytesNeededD T t v) (bytesNeeded T t v)
  | .prim p, v | .nonZero p, v | .atomic p, v => by cases v <;> exact .inl rfl
  | .usize, v | .bool, v | .char, v | .ipv4, v | .ipv6, v | .duration, v | .systemTime, v | .endianness, v | .varint64, v
  | .uuid, v | .unit, v => by cases v <;> exact .inl rfl
  | .ipAddr, v => by
    cases v with
    | variant i w => rcases i with _ | _ | i <;> exact .inl rfl
    | _ => exact .inl rfl
  | .str k, v => by
    cases v with
    | bytes bs => exact isLength_only (sliceNeededD_only _ _)
    | _ => exact .inl rfl
  | .seq k t, v => by
    cases v with
    | list vs =>
      simp only [bytesNeededD, bytesNeeded]
      refine isLength_only ?_
      split
      · exact sliceNeededD_only _ _
      · exact sumNeededD_only fun w _ => bytesNeededD_only T t w
    | _ => exact .inl rfl
  | .set t, v => by
    cases v with
    | list vs => exact isLength_only (sumNeededD_only fun w _ => bytesNeededD_only T t w)
    | _ => exact .inl rfl
  | .map k t, v => by
    cases v with
    | list vs =>
      simp only [bytesNeededD, bytesNeeded]
      refine isLength_only (sumNeededD_only fun w _ => ?_)
      cases w with
      | pair a b =>
        cases b with
        | pair b c =>
          cases c with
          | unit => exact addNeededD_only (bytesNeededD_only T k _) (bytesNeededD_only T t _)
          | _ => exact .inl rfl
        | _ => exact .inl rfl
      | _ => exact .inl rfl
    | _ => exact .inl rfl
  | .array n t, v | .refArray n t, v => by
    cases v with
    | list vs => exact sumNeededD_only fun w _ => bytesNeededD_only T t w
    | _ => exact .inl rfl
  | .option t, v => by
    cases v with
    | some w => exact addNeededD_only (.inl rfl) (bytesNeededD_only T t w)
    | _ => exact .inl rfl
  | .result t er, v => by
    cases v with
    | variant i w =>
      rcases i with _ | _ | i
      · exact addNeededD_only (.inl rfl) (bytesNeededD_only T er w)
      · exact addNeededD_only (.inl rfl) (bytesNeededD_only T t w)
      · exact .inl rfl
    | _ => exact .inl rfl
  | .range t, v | .rangeInc t, v => by
    cases v with
    | pair a b =>
      cases b with
      | pair b c => exact addNeededD_only (bytesNeededD_only T t a) (bytesNeededD_only T t b)
      | _ => exact .inl rfl
    | _ => exact .inl rfl
  | .pair a b, v => by
    cases v with
    | pair x y => exact addNeededD_only (bytesNeededD_only T a x) (bytesNeededD_only T b y)
    | _ => exact .inl rfl
  | .box t, v | .via c t, v => by
    simp only [bytesNeededD, bytesNeeded]
    exact bytesNeededD_only T t v
  | .struct d fs, v | .enum d vs, v => by
    simp only [bytesNeededD, bytesNeeded]
    exact sizeNeededD_only T _ v

/-- Writing to a buffer: the same, or a panic. -/
theorem run_bufferD_only {h : Host} {e : Endian} : ∀ (p : WProg) (s : BufC),
    p.run (bufferCollectorD h e) s = p.run (bufferCollector h e) s ∨ (p.run (bufferCollectorD h e) s).1 = .error (.panic .arithOverflow) := by
  have step : ∀ (bs : Bytes) (s : BufC), BufC.writeD h bs s = BufC.write bs s ∨ (BufC.writeD h bs s).1 = .error (.panic .arithOverflow) := by
    intro bs s
    unfold BufC.writeD
    by_cases hn : s.pos + bs.length ≤ h.usizeMax
    · rw [addD_ok hn]
      exact .inl rfl
    · have : h.addD s.pos bs.length = .error .arithOverflow := if_neg hn
      rw [this]
      exact .inr rfl
  have next : ∀ (bs : Bytes) (k : WProg), (∀ s, k.run (bufferCollectorD h e) s = k.run (bufferCollector h e) s ∨
        (k.run (bufferCollectorD h e) s).1 = .error (.panic .arithOverflow)) → ∀ s : BufC,
      wnext (BufC.writeD h bs s) (k.run (bufferCollectorD h e)) = wnext (BufC.write bs s) (k.run (bufferCollector h e)) ∨
      (wnext (BufC.writeD h bs s) (k.run (bufferCollectorD h e))).1 = .error (.panic .arithOverflow) := by
    intro bs k ih s
    rcases step bs s with h1 | h1
    · rw [h1]
      generalize BufC.write bs s = r
      obtain ⟨x, s'⟩ := r
      cases x with
      | ok u => exact ih s'
      | error er => exact .inl rfl
    · generalize BufC.writeD h bs s = r at h1
      obtain ⟨x, s'⟩ := r
      simp only at h1
      subst h1
      exact .inr rfl
  intro p
  induction p with
  | done r => exact fun s => .inl rfl
  | bytes bs k ih => exact fun s => next bs k ih s
  | num n v k ih => exact fun s => next (numBytes h e n v) k ih s
  | room n k ih =>
    intro s
    simp only [WProg.run]
    show (if BufC.canWrite n s = some false then _ else _) = _ ∨ _
    by_cases hc : BufC.canWrite n s = some false
    · exact .inl (by simp [bufferCollector, defaultOps, hc])
    · simpa [bufferCollectorD, bufferCollector, defaultOps, hc] using ih s

/-! ## Sizes which fit -/

/-- A size, if it fits in `usize`. -/
def need (h : Host) (n : Nat) : Except Err Nat := if n ≤ h.usizeMax then .ok n else .error (.panic .arithOverflow)

theorem need_fits {h : Host} {n : Nat} (hn : n ≤ h.usizeMax) : need h n = .ok n := if_pos hn

theorem need_large {h : Host} {n : Nat} (hn : ¬ n ≤ h.usizeMax) : need h n = .error (.panic .arithOverflow) := if_neg hn

theorem need_small {h : Host} (hh : h.Ok) {n : Nat} (hn : n < 2 ^ 32) : need h n = .ok n := need_fits (by have := hh.lower; omega)

theorem addNeededD_fits {h : Host} {a b : Nat} : addNeededD h (.ok a) (.ok b) = need h (a + b) := by
  simp only [addNeededD, need]
  by_cases hn : a + b ≤ h.usizeMax
  · rw [addD_ok hn, if_pos hn]
  · have : h.addD a b = .error .arithOverflow := if_neg hn
    rw [this, if_neg hn]

theorem addNeededD_ok (h : Host) (a b : Nat) : addNeededD h (need h a) (need h b) = need h (a + b) := by
  by_cases ha : a ≤ h.usizeMax
  · by_cases hb : b ≤ h.usizeMax
    · rw [need_fits ha, need_fits hb, addNeededD_fits]
    · rw [need_fits ha, need_large hb, need_large (by omega)]
      rfl
  · rw [need_large ha, need_large (n := a + b) (by omega)]
    rfl

theorem addNeededD_ok_right (h : Host) (a b : Nat) : addNeededD h (.ok a) (need h b) = need h (a + b) := by
  by_cases hb : b ≤ h.usizeMax
  · rw [need_fits hb, addNeededD_fits]
  · rw [need_large hb, need_large (by omega)]
    rfl

theorem sliceNeededD_eq (h : Host) (len size : Nat) : sliceNeededD h len size = need h (4 + len * size) := by
  unfold sliceNeededD
  by_cases hn : len * size ≤ h.usizeMax
  · rw [mulD_ok hn]
    exact addNeededD_fits
  · have : h.mulD len size = .error .arithOverflow := if_neg hn
    rw [this, need_large (by omega)]

theorem sumNeededD_cat {h : Host} {f : Val → Except Err Bytes} {g : Val → Except Err Nat} :
    ∀ {n : Nat} {vs : List Val} {bs : Bytes}, n ≤ h.usizeMax →
    catAll f vs = .ok bs → (∀ v ∈ vs, ∀ b, f v = .ok b → g v = need h b.length) →
    sumNeededD h g n vs = need h (n + bs.length)
  | n, [], bs, hn, hc, _ => by
    simp only [catAll, Except.ok.injEq] at hc
    subst hc
    exact (need_fits hn).symm
  | n, v :: vs, bs, hn, hc, hg => by
    obtain ⟨x, y, h1, h2, rfl⟩ := cat_eq_ok hc
    simp only [sumNeededD]
    rw [hg v List.mem_cons_self x h1, List.length_append]
    by_cases hx : x.length ≤ h.usizeMax
    · rw [need_fits hx]
      simp only
      by_cases hs : n + x.length ≤ h.usizeMax
      · rw [addD_ok hs]
        simp only
        rw [sumNeededD_cat hs h2 fun w hw => hg w (List.mem_cons_of_mem _ hw), Nat.add_assoc]
      · have : h.addD n x.length = .error .arithOverflow := if_neg hs
        rw [this, need_large (by omega)]
    · rw [need_large hx, need_large (by omega)]

theorem sizeCalculatorD_bytes (h : Host) (bs : Bytes) (s : Nat) : (sizeCalculatorD h).bytes bs s = match h.addD s bs.length with
    | .ok n => (.ok (), n)
    | .error p => (.error (.panic p), s) := rfl

theorem sizeCalculatorD_num (h : Host) (n v s : Nat) : (sizeCalculatorD h).num n v s = match h.addD s n with
    | .ok n => (.ok (), n)
    | .error p => (.error (.panic p), s) := rfl

/-- The sizes added up, if they fit. -/
theorem run_sizeD {h : Host} {e : Endian} : ∀ (p : WProg) (s : Nat), s ≤ h.usizeMax → (p.out h e).2 = .ok () →
    if s + (p.out h e).1.length ≤ h.usizeMax then p.run (sizeCalculatorD h) s = (.ok (), s + (p.out h e).1.length)
    else (p.run (sizeCalculatorD h) s).1 = .error (.panic .arithOverflow)
  | .done r, s, hs, hr => by
    simp only [WProg.out] at hr
    subst hr
    simp [WProg.out, WProg.run, hs]
  | .bytes bs k, s, hs, hr => by
    simp only [WProg.out] at hr
    simp only [WProg.out, WProg.run, sizeCalculatorD_bytes, List.length_append]
    by_cases hn : s + bs.length ≤ h.usizeMax
    · have := run_sizeD k (s + bs.length) hn hr
      rw [addD_ok hn]
      simpa only [Nat.add_assoc] using this
    · have : h.addD s bs.length = .error .arithOverflow := if_neg hn
      rw [this, if_neg (by omega)]
  | .num n v k, s, hs, hr => by
    simp only [WProg.out] at hr
    simp only [WProg.out, WProg.run, sizeCalculatorD_num, List.length_append, numBytes_length]
    by_cases hn : s + n ≤ h.usizeMax
    · have := run_sizeD k (s + n) hn hr
      rw [addD_ok hn]
      simpa only [Nat.add_assoc] using this
    · have : h.addD s n = .error .arithOverflow := if_neg hn
      rw [this, if_neg (by omega)]
  | .room n k, s, hs, hr => by
    simp only [WProg.out] at hr
    exact run_sizeD k s hs hr

theorem sizeNeededD_eq {T : Target} (hT : T.Ok) {F : Fmt} {t : Ty} {v : Val} {bs : Bytes} (hl : layoutOk T t = true)
    (hd : declOk t = true) (hs : sliceOk T t = true) (hv : hasTy T t v) (hw : wire F t LenR.std v = .ok bs) :
    sizeNeededD T t v = need T.toHost bs.length := by
  have h1 := encode_wire (e := T.native) hT t Cx.std v hl hd hs hv
  have h2 := wire_sameLen F (Fmt.code T.toHost T.native) t LenR.std v
  rw [hw] at h2
  unfold sizeNeededD
  cases hw' : wire (Fmt.code T.toHost T.native) t LenR.std v with
  | error er => rw [hw'] at h2; simp [SameLen] at h2
  | ok bs' =>
    rw [hw'] at h2
    simp only [SameLen] at h2
    have h3 : Cx.std.len = LenR.std := rfl
    rw [h3, hw'] at h1
    have h1 : (encode T T.native t Cx.std v).out T.toHost T.native = (bs', .ok ()) := h1
    have h4 := run_sizeD (h := T.toHost) (e := T.native) (encode T T.native t Cx.std v) 0 (Nat.zero_le _) (by rw [h1])
    rw [h1] at h4
    simp only [Nat.zero_add, ← h2] at h4
    generalize (encode T T.native t Cx.std v).run (sizeCalculatorD T.toHost) 0 = r at h4
    obtain ⟨x, n⟩ := r
    by_cases hn : bs.length ≤ T.usizeMax
    · rw [if_pos hn] at h4
      cases h4
      exact (need_fits hn).symm
    · rw [if_neg hn] at h4
      simp only at h4
      subst h4
      exact (need_large hn).symm

/-- `bytes_needed` of a debug build: the length of the encoding, or a panic if it does not fit in `usize`. -/
theorem bytesNeededD_eq {T : Target} (hT : T.Ok) {F : Fmt} : ∀ (t : Ty) (l : LenR) (v : Val) (bs : Bytes),
    (t.isContainer = true ∨ (∃ u, t = .option u) → l = LenR.std) →
    layoutOk T t = true → declOk t = true → sliceOk T t = true → hasTy T t v → wire F t l v = .ok bs →
    bytesNeededD T t v = need T.toHost bs.length
  | .prim p, _, v, bs, _, _, _, _, hv, hw | .nonZero p, _, v, bs, _, _, _, _, hv, hw
  | .atomic p, _, v, bs, _, _, _, _, hv, hw => by
    cases v <;> simp only [hasTy] at hv
    simp only [wire, Except.ok.injEq] at hw
    subst hw
    cases p <;> simp [bytesNeededD, Prim.size, need_small hT.toOk]
  | .usize, _, v, bs, _, _, _, _, hv, hw | .bool, _, v, bs, _, _, _, _, hv, hw
  | .char, _, v, bs, _, _, _, _, hv, hw | .ipv4, _, v, bs, _, _, _, _, hv, hw
  | .unit, _, v, bs, _, _, _, _, hv, hw => by
    cases v <;> simp only [hasTy] at hv
    simp only [wire, Except.ok.injEq] at hw
    subst hw
    simp [bytesNeededD, need_small hT.toOk]
  | .ipv6, _, v, bs, _, _, _, _, hv, hw => by
    cases v <;> simp only [hasTy] at hv
    simp only [wire, Except.ok.injEq] at hw
    subst hw
    simp only [bytesNeededD]
    split <;> simp [hv, need_small hT.toOk]
  | .uuid, _, v, bs, _, _, _, _, hv, hw => by
    cases v <;> simp only [hasTy] at hv
    simp only [wire, Except.ok.injEq] at hw
    subst hw
    simp [bytesNeededD, hv, need_small hT.toOk]
  | .ipAddr, _, .variant 0 (.num x), bs, _, _, _, _, hv, hw => by
    simp only [wire, Except.ok.injEq] at hw
    subst hw
    simp [bytesNeededD, need_small hT.toOk]
  | .ipAddr, _, .variant 1 (.bytes x), bs, _, _, _, _, hv, hw => by
    simp only [wire, Except.ok.injEq] at hw
    simp only [hasTy] at hv
    subst hw
    simp only [bytesNeededD]
    split <;> simp [hv, need_small hT.toOk]
  | .duration, _, .pair (.num s) (.num n), bs, _, _, _, _, hv, hw => by
    simp only [wire, Except.ok.injEq] at hw
    subst hw
    simp [bytesNeededD, need_small hT.toOk]
  | .systemTime, _, .pair (.num s) (.num n), bs, _, _, _, _, hv, hw => by
    simp only [wire] at hw
    split at hw
    · simp only [Except.ok.injEq] at hw
      subst hw
      simp [bytesNeededD, need_small hT.toOk]
    · simp at hw
  | .endianness, _, .variant 0 .unit, bs, _, _, _, _, hv, hw
  | .endianness, _, .variant 1 .unit, bs, _, _, _, _, hv, hw => by
    simp only [wire, Except.ok.injEq] at hw
    subst hw
    simp [bytesNeededD, need_small hT.toOk]
  | .varint64, _, v, bs, _, _, _, _, hv, hw => by
    cases v <;> simp only [hasTy] at hv
    simp only [wire, Except.ok.injEq] at hw
    subst hw
    simp only [bytesNeededD]
    rw [specVarint_length hv, viExtra_eq hv, need_small hT.toOk (by have := specExtra_le ‹Nat›; omega)]
  | .str k, l, v, bs, hstd, _, _, _, hv, hw => by
    rw [hstd (.inl rfl)] at hw
    cases v <;> simp only [hasTy] at hv
    obtain ⟨x, y, h1, h2, rfl⟩ := cat_eq_ok hw
    simp only [Except.ok.injEq] at h2
    subst h2
    simp only [bytesNeededD]
    rw [isLength_ok (wireLen_small h1), sliceNeededD_eq, List.length_append, wireLen_std h1, Nat.mul_one]
  | .seq k t, l, v, bs, hstd, hl, hd, hs, hv, hw => by
    rw [hstd (.inl rfl)] at hw
    cases v <;> simp only [hasTy] at hv
    rename_i vs
    simp only [layoutOk] at hl
    simp only [declOk] at hd
    simp only [sliceOk, Bool.and_eq_true, Bool.or_eq_true, Bool.not_eq_true'] at hs
    obtain ⟨x, y, h1, h2, rfl⟩ := cat_eq_ok hw
    have h4 : 4 ≤ T.usizeMax := by have := hT.lower; omega
    simp only [bytesNeededD]
    rw [isLength_ok (wireLen_small h1)]
    split
    · rename_i hp
      have hb : bulkPlain t = true := by
        rcases hs.1 with h | h
        · rw [hp] at h; simp at h
        · exact h
      rw [sliceNeededD_eq, List.length_append, wireLen_std h1,
        catAll_length h2 fun w hw' b hb' => wire_prim_length hp hl hb (hv.1 w hw') hb']
    · rw [sumNeededD_cat h4 h2 fun w hw' b hb' =>
        bytesNeededD_eq hT t LenR.std w b (fun _ => rfl) hl hd hs.2 (hv.1 w hw') hb']
      rw [List.length_append, wireLen_std h1]
  | .set t, l, v, bs, hstd, hl, hd, hs, hv, hw => by
    rw [hstd (.inl rfl)] at hw
    cases v <;> simp only [hasTy] at hv
    rename_i vs
    simp only [layoutOk] at hl
    simp only [declOk] at hd
    simp only [sliceOk, Bool.and_eq_true] at hs
    obtain ⟨x, y, h1, h2, rfl⟩ := cat_eq_ok hw
    have h4 : 4 ≤ T.usizeMax := by have := hT.lower; omega
    simp only [bytesNeededD]
    rw [isLength_ok (wireLen_small h1), sumNeededD_cat h4 h2 fun w hw' b hb' =>
        bytesNeededD_eq hT t LenR.std w b (fun _ => rfl) hl hd hs.2 (hv.1 w hw') hb']
    rw [List.length_append, wireLen_std h1]
  | .map k t, l, v, bs, hstd, hl, hd, hs, hv, hw => by
    rw [hstd (.inl rfl)] at hw
    cases v <;> simp only [hasTy] at hv
    rename_i vs
    simp only [layoutOk, Bool.and_eq_true] at hl
    simp only [declOk, Bool.and_eq_true] at hd
    simp only [sliceOk, Bool.and_eq_true] at hs
    obtain ⟨x, y, h1, h2, rfl⟩ := cat_eq_ok hw
    have h4 : 4 ≤ T.usizeMax := by have := hT.lower; omega
    simp only [bytesNeededD]
    rw [isLength_ok (wireLen_small h1), sumNeededD_cat h4 h2 fun w hw' b hb' => ?_,
      List.length_append, wireLen_std h1]
    obtain ⟨a, c, rfl, ha, hc⟩ := hv.1 w hw'
    obtain ⟨b1, b2, g1, g2, rfl⟩ := cat_eq_ok hb'
    simp only
    rw [bytesNeededD_eq hT k LenR.std a b1 (fun _ => rfl) hl.1 hd.1 hs.1.2 ha g1,
      bytesNeededD_eq hT t LenR.std c b2 (fun _ => rfl) hl.2 hd.2 hs.2 hc g2, addNeededD_ok, List.length_append]
  | .array n t, l, v, bs, _, hl, hd, hs, hv, hw | .refArray n t, l, v, bs, _, hl, hd, hs, hv, hw => by
    cases v <;> simp only [hasTy] at hv
    rename_i vs
    simp only [layoutOk] at hl
    simp only [declOk] at hd
    simp only [sliceOk, Bool.and_eq_true] at hs
    simp only [wire] at hw
    rw [if_neg (fun hh => hh hv.1)] at hw
    simp only [bytesNeededD]
    have h := sumNeededD_cat (h := T.toHost) (n := 0) (Nat.zero_le _) hw fun w hw' b hb' =>
        bytesNeededD_eq hT t LenR.std w b (fun _ => rfl) hl hd hs.2 (hv.2 w hw') hb'
    rwa [Nat.zero_add] at h
  | .option t, l, v, bs, hstd, hl, hd, hs, hv, hw => by
    rw [hstd (.inr ⟨t, rfl⟩)] at hw
    simp only [layoutOk] at hl
    simp only [declOk] at hd
    simp only [sliceOk] at hs
    cases v with
    | none =>
      simp only [wire, Except.ok.injEq] at hw
      subst hw; simp [bytesNeededD, need_small hT.toOk]
    | some v =>
      simp only [hasTy] at hv
      obtain ⟨x, y, h1, h2, rfl⟩ := cat_eq_ok hw
      simp only [Except.ok.injEq] at h1
      subst h1
      simp only [bytesNeededD]
      rw [bytesNeededD_eq hT t _ v y (fun _ => by cases t <;> rfl) hl hd hs hv h2, addNeededD_ok_right, List.length_append]
      simp
    | _ => simp [hasTy] at hv
  | .result t er, l, .variant 1 v, bs, _, hl, hd, hs, hv, hw => by
    simp only [layoutOk, Bool.and_eq_true] at hl
    simp only [declOk, Bool.and_eq_true] at hd
    simp only [sliceOk, Bool.and_eq_true] at hs
    simp only [hasTy] at hv
    obtain ⟨x, y, h1, h2, rfl⟩ := cat_eq_ok hw
    simp only [Except.ok.injEq] at h1
    subst h1
    simp only [bytesNeededD]
    rw [bytesNeededD_eq hT t LenR.std v y (fun _ => rfl) hl.1 hd.1 hs.1 hv h2, addNeededD_ok_right, List.length_append]
    rfl
  | .result t er, l, .variant 0 v, bs, _, hl, hd, hs, hv, hw => by
    simp only [layoutOk, Bool.and_eq_true] at hl
    simp only [declOk, Bool.and_eq_true] at hd
    simp only [sliceOk, Bool.and_eq_true] at hs
    simp only [hasTy] at hv
    obtain ⟨x, y, h1, h2, rfl⟩ := cat_eq_ok hw
    simp only [Except.ok.injEq] at h1
    subst h1
    simp only [bytesNeededD]
    rw [bytesNeededD_eq hT er LenR.std v y (fun _ => rfl) hl.2 hd.2 hs.2 hv h2, addNeededD_ok_right, List.length_append]
    rfl
  | .range t, l, .pair a (.pair b .unit), bs, _, hl, hd, hs, hv, hw
  | .rangeInc t, l, .pair a (.pair b (.bool _)), bs, _, hl, hd, hs, hv, hw => by
    simp only [layoutOk] at hl
    simp only [declOk] at hd
    simp only [sliceOk] at hs
    simp only [hasTy] at hv
    obtain ⟨x, y, h1, h2, rfl⟩ := cat_eq_ok hw
    simp only [bytesNeededD]
    rw [bytesNeededD_eq hT t LenR.std a x (fun _ => rfl) hl hd hs hv.1 h1,
      bytesNeededD_eq hT t LenR.std b y (fun _ => rfl) hl hd hs hv.2 h2, addNeededD_ok, List.length_append]
  | .pair a b, l, v, bs, _, hl, hd, hs, hv, hw => by
    simp only [layoutOk, Bool.and_eq_true] at hl
    simp only [declOk, Bool.and_eq_true] at hd
    simp only [sliceOk, Bool.and_eq_true] at hs
    cases v <;> simp only [hasTy] at hv
    obtain ⟨x, y, h1, h2, rfl⟩ := cat_eq_ok hw
    simp only [bytesNeededD]
    rw [bytesNeededD_eq hT a LenR.std _ x (fun _ => rfl) hl.1 hd.1 hs.1 hv.1 h1,
      bytesNeededD_eq hT b LenR.std _ y (fun _ => rfl) hl.2 hd.2 hs.2 hv.2 h2, addNeededD_ok, List.length_append]
  | .box t, l, v, bs, _, hl, hd, hs, hv, hw => by
    simp only [layoutOk] at hl
    simp only [declOk] at hd
    simp only [sliceOk] at hs
    simp only [hasTy] at hv
    simp only [wire] at hw
    simp only [bytesNeededD]
    exact bytesNeededD_eq hT t LenR.std v bs (fun _ => rfl) hl hd hs hv hw
  | .via c t, l, v, bs, _, hl, hd, hs, hv, hw => by
    simp only [layoutOk] at hl
    simp only [declOk] at hd
    simp only [sliceOk] at hs
    simp only [hasTy] at hv
    simp only [wire] at hw
    simp only [bytesNeededD]
    exact bytesNeededD_eq hT t LenR.std v bs (fun _ => rfl) hl hd hs hv.1 hw
  | .struct d fs, l, v, bs, _, hl, hd, hs, hv, hw => by
    simp only [bytesNeededD]
    exact sizeNeededD_eq hT hl hd hs hv (by simpa only [wire] using hw)
  | .enum d vs, l, v, bs, _, hl, hd, hs, hv, hw => by
    simp only [bytesNeededD]
    refine sizeNeededD_eq (F := F) hT hl hd hs hv ?_
    cases v <;> simp only [hasTy] at hv
    simpa only [wire] using hw

/-- Writing to a buffer which has room: the same. -/
theorem run_bufferD_ok {h : Host} {e : Endian} : ∀ (p : WProg) (s : BufC), s.buf.length ≤ h.usizeMax →
    (p.run (bufferCollector h e) s).1 = .ok () → p.run (bufferCollectorD h e) s = p.run (bufferCollector h e) s := by
  have next : ∀ (bs : Bytes) (k : WProg), (∀ s : BufC, s.buf.length ≤ h.usizeMax → (k.run (bufferCollector h e) s).1 = .ok () →
      k.run (bufferCollectorD h e) s = k.run (bufferCollector h e) s) → ∀ s : BufC, s.buf.length ≤ h.usizeMax →
      (wnext (BufC.write bs s) (k.run (bufferCollector h e))).1 = .ok () →
      wnext (BufC.writeD h bs s) (k.run (bufferCollectorD h e)) = wnext (BufC.write bs s) (k.run (bufferCollector h e)) := by
    intro bs k ih s hb hr
    unfold BufC.writeD
    unfold BufC.write at hr ⊢
    by_cases hn : s.pos + bs.length ≤ s.buf.length
    · rw [addD_ok (by omega)]
      simp only [if_pos hn, wnext] at hr ⊢
      refine ih _ ?_ hr
      simp only [List.length_append, List.length_take, List.length_drop]
      omega
    · rw [if_neg hn] at hr
      simp [wnext] at hr
  intro p
  induction p with
  | done r => exact fun s _ _ => rfl
  | bytes bs k ih => exact fun s hb hr => by rw [run_bytes] at hr ⊢; rw [run_bytes]; exact next bs k ih s hb hr
  | num n v k ih => exact fun s hb hr => by rw [run_num] at hr ⊢; rw [run_num]; exact next (numBytes h e n v) k ih s hb hr
  | room n k ih =>
    intro s hb hr
    simp only [WProg.run] at hr ⊢
    by_cases hc : BufC.canWrite n s = some false
    · simp [bufferCollector, defaultOps, hc] at hr
    · simp only [bufferCollector, bufferCollectorD, defaultOps, hc, if_false] at hr ⊢
      exact ih s hb hr

end Verif
