import Verif.WireMin

/-!
# Parsing an encoding gives back the value; parsing a part of it fails
-/

namespace Verif

/-- `bs` is read as `a` whatever follows (or as the whole input, if `tail`); if
`strict`, any strict prefix of `bs` gives an end-of-input error. -/
def Codes {α : Type} (tail strict : Bool) (p : P α) (bs : Bytes) (a : α) : Prop :=
  (∀ rest, (tail = true → rest = []) → p (bs ++ rest) = .ok a rest) ∧
  (strict = true → ∀ x y, bs = x ++ y → y ≠ [] → p x = .fail .unexpectedEndOfInput)

section
variable {α β : Type} {tl st : Bool}

theorem Codes.weaken {p : P α} {bs : Bytes} {a : α} (h : Codes false st p bs a) : Codes tl st p bs a :=
  ⟨fun rest _ => h.1 rest (by simp), h.2⟩

theorem codes_pure (a : α) : Codes tl st (P.pure a) [] a := by
  refine ⟨fun rest _ => rfl, fun _ x y h hy => ?_⟩
  exact absurd (List.append_eq_nil_iff.mp h.symm).2 hy

theorem codes_bind {p : P α} {f : α → P β} {b1 b2 : Bytes} {a : α} {b : β}
    (h1 : Codes false st p b1 a) (h2 : Codes tl st (f a) b2 b) : Codes tl st (P.bind p f) (b1 ++ b2) b := by
  refine ⟨fun rest hr => ?_, fun hs x y hxy hy => ?_⟩
  · rw [List.append_assoc, P.bind_ok (h1.1 _ (by simp))]
    exact h2.1 rest hr
  · rcases List.append_eq_append_iff.mp hxy with ⟨c, h3, h4⟩ | ⟨c, h3, h4⟩
    · -- x = b1 ++ c
      subst h3
      rw [P.bind_ok (h1.1 c (by simp))]
      exact h2.2 hs c y h4 hy
    · -- b1 = x ++ c
      by_cases hc : c = []
      · subst hc
        simp only [List.append_nil] at h3
        subst h3
        have := h1.1 [] (by simp)
        simp only [List.append_nil] at this
        rw [P.bind_ok this]
        simp only [List.nil_append] at h4
        exact h2.2 hs [] y (by simpa using h4.symm) hy
      · rw [P.bind_fail (h1.2 hs x c h3 hc)]

theorem codes_map {p : P α} {f : α → β} {bs : Bytes} {a : α} (h : Codes tl st p bs a) :
    Codes tl st (P.map f p) bs (f a) := by
  refine ⟨fun rest hr => P.map_ok (h.1 rest hr), fun hs x y hxy hy => P.map_fail (h.2 hs x y hxy hy)⟩

theorem codes_take {n : Nat} {bs : Bytes} (h : bs.length = n) : Codes tl st (pTake n) bs bs := by
  subst h
  refine ⟨fun rest _ => ?_, fun _ x y hxy hy => ?_⟩
  · rw [pTake_ok (by simp)]; simp
  · subst hxy
    exact pTake_fail (by
      have : 0 < y.length := List.length_pos_iff.mpr hy
      simp; omega)

theorem codes_num {e : Endian} {n v : Nat} (h : v < 256 ^ n) : Codes tl st (pNum e n) (e.bytes n v) v := by
  have := codes_map (tl := tl) (st := st) (f := e.num) (codes_take (n := n) (bs := e.bytes n v) (by simp))
  rwa [Endian.num_bytes h] at this

theorem codes_varint {v : Nat} (h : v < 2 ^ 64) : Codes tl st pVarint (specVarint v) v := by
  obtain ⟨b, h1, h2, h3⟩ := specVarint_cons h
  rw [h1, show b :: leBytes (specExtra v) v = [b] ++ leBytes (specExtra v) v from rfl]
  refine codes_bind (a := [b]) (codes_take rfl) ?_
  have := codes_map (tl := tl) (st := st) (f := specVarintVal b)
    (codes_take (n := leadingOnes b.toNat) (bs := leBytes (specExtra v) v) (by simp [h2]))
  rwa [h3] at this

theorem codes_ite_pos {c : Prop} [Decidable c] {p q : P α} {bs : Bytes} {a : α} (hc : c)
    (h : Codes tl st p bs a) : Codes tl st (if c then p else q) bs a := by rw [if_pos hc]; exact h

theorem codes_ite_neg {c : Prop} [Decidable c] {p q : P α} {bs : Bytes} {a : α} (hc : ¬ c)
    (h : Codes tl st q bs a) : Codes tl st (if c then p else q) bs a := by rw [if_neg hc]; exact h

theorem codes_onEof {p : P α} {d a : α} {bs : Bytes} (hst : st = false) (h : Codes tl st p bs a) :
    Codes tl st (pOnEof p d) bs a := by
  subst hst
  refine ⟨fun rest hr => ?_, by simp⟩
  unfold pOnEof
  rw [h.1 rest hr]

theorem codes_guard {p : P Nat} {bs : Bytes} {n m : Nat} {er : Err} (h : Codes false st p bs n) (hn : n ≤ m) :
    Codes tl st (P.bind p fun n => if n > m then P.fail er else P.pure n) bs n := by
  have := codes_bind (tl := tl) (f := fun n => if n > m then P.fail er else P.pure n) h
    (codes_ite_neg (by omega) (codes_pure n))
  simpa using this

theorem codes_len {h : Host} (hh : h.Ok) {e : Endian} {lt : LenTy} {n : Nat} (hn : n ≤ lt.max)
    (hu : n ≤ h.usizeMax) : Codes tl st (pLen h e lt) (wireNum e lt n) n := by
  have hv : lt.max < 256 ^ 8 := by cases lt <;> decide
  cases lt <;> simp only [LenTy.max] at hn <;> simp only [wireNum, pLen, LenTy.minSize]
  · exact codes_guard (codes_num (by omega)) hn
  · exact codes_num (by omega)
  · exact codes_num (by omega)
  · exact codes_num (by omega)
  · exact codes_guard (codes_num (by omega)) hu
  · exact codes_guard (codes_varint (by omega)) hu

/-- A length prefix may be missing only without `strict`. -/
def LenR.ends (tail strict : Bool) : LenR → Bool
  | .typed _ d => !(strict && d)
  | .fixed _ => true
  | .untilEof => tail && !strict

/-- The length to read for a container of `n` elements. -/
def LenR.count : LenR → Nat → Option Nat
  | .untilEof, _ => none
  | _, n => some n

theorem codes_lenR {h : Host} (hh : h.Ok) {e : Endian} {l : LenR} {n : Nat} {bs : Bytes}
    (hw : wireLen e n l = .ok bs) (hu : n ≤ h.usizeMax) (he : l.ends tl st = true) :
    Codes false st (pLenR h e (l.cast h)) bs (l.count n) := by
  cases l with
  | typed lt d =>
    simp only [wireLen] at hw
    split at hw
    · simp at hw
    rename_i hn
    simp only [Except.ok.injEq] at hw
    subst hw
    have := codes_len (tl := false) (st := st) hh (e := e) (n := n) (lt := lt) (by omega) hu
    cases d with
    | false => exact codes_map this
    | true =>
      have hst : st = false := by simpa [LenR.ends] using he
      exact codes_map (codes_onEof hst this)
  | fixed m =>
    simp only [wireLen] at hw
    split at hw
    · rename_i hn
      subst hn
      simp only [Except.ok.injEq] at hw
      subst hw
      simp only [LenR.cast, pLenR]
      rw [Nat.mod_eq_of_lt (by omega)]
      exact codes_pure _
    · simp at hw
  | untilEof =>
    simp only [wireLen, Except.ok.injEq] at hw
    subst hw
    exact codes_pure _

theorem codes_rep {p : P Val} {f : Val → Except Err Bytes} : ∀ {vs : List Val} {bs : Bytes},
    catAll f vs = .ok bs → (∀ v ∈ vs, ∀ b, f v = .ok b → b.length ≤ bs.length → Codes false st p b v) →
    Codes false st (pRep vs.length p) bs vs
  | [], bs, h, _ => by
    simp only [catAll, Except.ok.injEq] at h
    subst h
    exact codes_pure []
  | v :: vs, bs, h, hc => by
    obtain ⟨x, y, h1, h2, rfl⟩ := cat_eq_ok h
    simp only [List.length_append] at hc
    refine codes_bind (hc v List.mem_cons_self x h1 (by omega)) ?_
    have := codes_bind (codes_rep h2 fun w hw b hb hl => hc w (List.mem_cons_of_mem _ hw) b hb (by omega))
      (f := fun vs => P.pure (v :: vs)) (codes_pure (tl := false) (st := st) (v :: vs))
    simpa using this

theorem codes_untilEof {p : P Val} {f : Val → Except Err Bytes} (hp : p [] = .fail .unexpectedEndOfInput) :
    ∀ {vs : List Val} {bs : Bytes} {fuel : Nat},
    catAll f vs = .ok bs → bs.length < fuel →
    (∀ v ∈ vs, ∀ b, f v = .ok b → b.length ≤ bs.length → Codes false st p b v) →
    pUntilEof fuel p bs = .ok vs []
  | [], bs, fuel, h, hf, _ => by
    simp only [catAll, Except.ok.injEq] at h
    subst h
    cases fuel with
    | zero => omega
    | succ fuel => simp [pUntilEof, hp, Err.isEof]
  | v :: vs, bs, fuel, h, hf, hc => by
    obtain ⟨x, y, h1, h2, rfl⟩ := cat_eq_ok h
    simp only [List.length_append] at hc hf
    have hcx := hc v List.mem_cons_self x h1 (by omega)
    cases fuel with
    | zero => omega
    | succ fuel =>
      have hx : x ≠ [] := by
        intro hx
        subst hx
        have := hcx.1 [] (by simp)
        simp only [List.append_nil] at this
        rw [hp] at this
        simp at this
      have hxl : 0 < x.length := List.length_pos_iff.mpr hx
      have ih := codes_untilEof hp h2 (fuel := fuel) (by omega)
        fun w hw b hb hl => hc w (List.mem_cons_of_mem _ hw) b hb (by omega)
      simp only [pUntilEof, hcx.1 y (by simp)]
      rw [if_pos (by simp; omega), ih]

theorem codes_whole {p : P α} {bs : Bytes} {a : α} (h : p bs = .ok a []) (ht : tl = true) (hst : st = false) :
    Codes tl st p bs a := by
  subst hst
  refine ⟨fun rest hr => ?_, by simp⟩
  rw [hr ht]
  simpa using h

/-- Elements of a `Vec`. -/
theorem codes_vec {T : Target} {e : Endian} {t : Ty} {p : P Val} {vs : List Val} {bs : Bytes} (hT : T.Ok)
    (hb : (isPrimitive T t && !bulkOk T e t) = false) (hm : minBytes T t * vs.length ≤ bs.length)
    (hB : bs.length ≤ T.isizeMax) (hs : vs.length * sizeOf T t ≤ T.isizeMax)
    (hz : (!isPrimitive T t && sizeOf T t == 0) = true → bs = [] ∧ vs = List.replicate vs.length (zstVal t))
    (hc : (!isPrimitive T t && sizeOf T t == 0) = false → Codes false st (pRep vs.length p) bs vs) :
    Codes false st (pVec T e t p vs.length) bs vs := by
  have hus : T.isizeMax ≤ T.usizeMax := by have := hT.isize; omega
  generalize hn : vs.length = n at *
  have hcore : Codes false st (fun bs : Bytes =>
      if n * sizeOf T t > T.isizeMax then .fail (.panic .capacityOverflow)
      else if !isPrimitive T t && sizeOf T t == 0 then .ok (List.replicate n (zstVal t)) bs
      else pRep n p bs) bs vs := by
    have hs' : ¬ n * sizeOf T t > T.isizeMax := by omega
    simp only [hs', if_false]
    cases hzz : (!isPrimitive T t && sizeOf T t == 0) with
    | true =>
      simp only [if_true]
      obtain ⟨h1, h2⟩ := hz hzz
      subst h1
      rw [← h2]
      exact codes_pure vs
    | false =>
      simp only [Bool.false_eq_true, if_false]
      exact hc hzz
  have hm' : ¬ minBytes T t * n > T.usizeMax := by omega
  refine ⟨fun rest hr => ?_, fun hst x y hxy hy => ?_⟩
  · have := hcore.1 rest hr
    simp only [pVec, hb, Bool.false_eq_true, if_false, hm']
    rw [if_neg (by simp only [List.length_append]; omega)]
    exact this
  · have := hcore.2 hst x y hxy hy
    simp only [pVec, hb, Bool.false_eq_true, if_false, hm']
    split
    · exact (congrArg precheck this).trans rfl
    · exact this

theorem codes_strVal {bs : Bytes} (h : utf8Valid bs = true) : Codes tl st (pStrVal bs) [] (.bytes bs) := by
  unfold pStrVal
  exact codes_ite_pos h (codes_pure _)

theorem codes_const {T : Target} {c : Bytes} (h : c.length ≤ T.isizeMax) : Codes false st (pConst T c) c () := by
  unfold pConst
  refine codes_ite_neg (by omega) ?_
  have := codes_bind (st := st) (tl := false) (codes_take (n := c.length) (bs := c) rfl)
    (f := fun bs => if bs = c then P.pure () else P.fail (.expectedConstant c)) (b := ()) (b2 := [])
    (codes_ite_pos rfl (codes_pure ()))
  simpa using this

theorem codes_peek {e : Endian} {n tag : Nat} {f : Nat → P β} {bs : Bytes} {b : β} (ht : tag < 256 ^ n)
    (h : Codes tl st (f tag) (e.bytes n tag ++ bs) b) :
    Codes tl st (P.bind (pPeekNum e n) f) (e.bytes n tag ++ bs) b := by
  have hpk : ∀ z, P.bind (pPeekNum e n) f (e.bytes n tag ++ z) = f tag (e.bytes n tag ++ z) := by
    intro z
    refine P.bind_ok ?_
    refine (P.map_ok (a := e.bytes n tag) (rest := e.bytes n tag ++ z) ?_).trans ?_
    · unfold pPeek
      rw [if_pos (by simp)]
      congr 1
      rw [List.take_left' (by simp)]
    · rw [Endian.num_bytes ht]
  refine ⟨fun rest hr => ?_, fun hst x y hxy hy => ?_⟩
  · rw [List.append_assoc, hpk, ← List.append_assoc]
    exact h.1 rest hr
  · by_cases hx : x.length < n
    · refine P.bind_fail (P.map_fail ?_)
      unfold pPeek
      rw [if_neg (by omega)]
    · have hpre : ∃ z, x = e.bytes n tag ++ z := by
        rcases List.append_eq_append_iff.mp hxy with ⟨c, h3, h4⟩ | ⟨c, h3, h4⟩
        · exact ⟨c, h3⟩
        · have : c.length = 0 := by
            have := congrArg List.length h3
            simp at this; omega
          have : c = [] := List.length_eq_zero_iff.mp this
          subst this
          exact ⟨[], by simpa using h3.symm⟩
      obtain ⟨z, hz⟩ := hpre
      have := h.2 hst x y hxy hy
      rw [hz] at this ⊢
      rw [hpk]; exact this

theorem codes_peekVarint {tag : Nat} {f : Nat → P β} {bs : Bytes} {b : β} (ht : tag < 128)
    (h : Codes tl st (f tag) (specVarint tag ++ bs) b) :
    Codes tl st (P.bind pPeekVarint f) (specVarint tag ++ bs) b := by
  have hk : specExtra tag = 0 := by unfold specExtra; rw [if_pos (by omega)]
  obtain ⟨c, h1, h2, h3⟩ := specVarint_cons (v := tag) (by omega)
  rw [hk] at h1 h2 h3
  have h1 : specVarint tag = [c] := by simpa [leBytes] using h1
  rw [h1] at h ⊢
  have hpk : ∀ z, P.bind pPeekVarint f (c :: z) = f tag (c :: z) := by
    intro z
    refine P.bind_ok ?_
    unfold pPeekVarint
    rw [P.bind_ok (a := [c]) (rest := c :: z) (by simp [pPeek])]
    refine (P.map_ok (a := []) (rest := c :: z) ?_).trans ?_
    · simp only [hd, List.headD_cons, h2]; simp [pPeek]
    · simp only [hd, List.headD_cons]
      have : specVarintVal c [] = tag := by simpa [leBytes] using h3
      rw [this]
  refine ⟨fun rest hr => ?_, fun hst x y hxy hy => ?_⟩
  · have := h.1 rest hr
    simp only [List.cons_append, List.nil_append] at this ⊢
    rw [hpk]; exact this
  · cases x with
    | nil =>
      refine P.bind_fail (P.bind_fail ?_)
      simp [pPeek]
    | cons c' x =>
      have := h.2 hst _ y hxy hy
      simp only [List.cons_append, List.nil_append, List.cons.injEq] at hxy
      rw [← hxy.1] at this ⊢
      rw [hpk]; exact this

end

/-! ## Sets and maps -/

theorem setOf_eq {vs : List Val} (h : vs.Nodup) : setOf vs = vs := by
  have key : ∀ (vs acc : List Val), (acc ++ vs).Nodup →
      vs.foldl (fun acc v => if v ∈ acc then acc else acc ++ [v]) acc = acc ++ vs := by
    intro vs
    induction vs with
    | nil => intro acc _; simp
    | cons v vs ih =>
      intro acc hn
      have hv : v ∉ acc := fun hm => by
        rw [List.nodup_append] at hn
        exact hn.2.2 v hm v List.mem_cons_self rfl
      simp only [List.foldl_cons, if_neg hv]
      rw [ih (acc ++ [v]) (by simpa using hn)]
      simp
  exact key vs [] (by simpa using h)

theorem keys_append (a b : List Val) : keys (a ++ b) = keys a ++ keys b := by
  induction a with
  | nil => rfl
  | cons x a ih => cases x <;> simp [keys, ih]

theorem mapInsert_new {k v : Val} : ∀ {acc : List Val}, k ∉ keys acc → mapInsert k v acc = acc ++ [.pair k v]
  | [], _ => rfl
  | x :: acc, h => by
    cases x <;> simp only [keys] at h <;> simp only [mapInsert, List.cons_append]
    case pair k' v' =>
      simp only [List.mem_cons, not_or] at h
      rw [if_neg (fun hh => h.1 hh.symm), mapInsert_new h.2]
    all_goals rw [mapInsert_new h]

theorem mapOf_eq {vs : List Val} (h : (keys vs).Nodup) (hp : ∀ kv ∈ vs, ∃ a b, kv = .pair a b) :
    mapOf vs = vs := by
  have key : ∀ (vs acc : List Val), (keys (acc ++ vs)).Nodup → (∀ kv ∈ vs, ∃ a b, kv = .pair a b) →
      vs.foldl mapStep acc = acc ++ vs := by
    intro vs
    induction vs with
    | nil => intro acc _ _; simp
    | cons x vs ih =>
      intro acc hn hp
      obtain ⟨a, b, rfl⟩ := hp x List.mem_cons_self
      have hv : a ∉ keys acc := fun hm => by
        rw [keys_append, List.nodup_append] at hn
        exact hn.2.2 a hm a (by simp [keys]) rfl
      simp only [List.foldl_cons, mapStep]
      rw [mapInsert_new hv, ih (acc ++ [Val.pair a b]) (by simpa using hn)
        fun kv hkv => hp kv (List.mem_cons_of_mem _ hkv)]
      simp
  exact key vs [] (by simpa using h) hp

end Verif
