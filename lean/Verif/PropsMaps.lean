import Verif.PropsRoundTrip
import Verif.Valid
import Verif.Structs

/-!
# Maps and sets (C26)
-/

namespace Verif

open Samples

/-! ## What a map made from entries should be -/

/-- The value of the last entry with the given key. -/
def lastFor (k : Val) : List Val → Option Val
  | [] => none
  | .pair a b :: es => (lastFor k es).or (if a = k then some b else none)
  | _ :: es => lastFor k es

/-- `us` is the map in which each key of `es` has its last value: no key occurs twice, and
there are as many entries as distinct keys. -/
structure LastWins (es us : List Val) : Prop where
  /-- no key occurs twice -/
  nodup : (keys us).Nodup
  /-- the entries are the last ones -/
  last : ∀ a b, .pair a b ∈ us ↔ lastFor a es = some b
  /-- as many as there are distinct keys -/
  count : us.length = (keys es).eraseDups.length

/-- `us` is the set of the values in `es`. -/
structure SetOf (es us : List Val) : Prop where
  /-- no value occurs twice -/
  nodup : us.Nodup
  /-- the same values -/
  mem : ∀ v, v ∈ us ↔ v ∈ es
  /-- as many as there are distinct values -/
  count : us.length = es.eraseDups.length

/-! ## Lists without repetitions -/

theorem nodup_eraseDups : ∀ (n : Nat) (l : List Val), l.length ≤ n →
    l.eraseDups.Nodup ∧ ∀ v, v ∈ l.eraseDups ↔ v ∈ l
  | _, [], _ => by simp
  | 0, _ :: _, h => by simp at h
  | n + 1, x :: l, h => by
    rw [List.eraseDups_cons]
    have hf : (List.filter (fun b => !b == x) l).length ≤ l.length := List.length_filter_le _ _
    simp only [List.length_cons] at h
    obtain ⟨h1, h2⟩ := nodup_eraseDups n (List.filter (fun b => !b == x) l) (by omega)
    constructor
    · rw [List.nodup_cons]
      exact ⟨fun hx => by rw [h2] at hx; simp at hx, h1⟩
    · intro v
      rw [List.mem_cons, List.mem_cons, h2, List.mem_filter]
      by_cases hv : v = x <;> simp [hv]

theorem nodup_length_le {l : List Val} : ∀ {m : List Val}, l.Nodup → (∀ v ∈ l, v ∈ m) → l.length ≤ m.length := by
  induction l with
  | nil => intro m _ _; simp
  | cons x l ih =>
    intro m hn hm
    rw [List.nodup_cons] at hn
    have hx : x ∈ m := hm x List.mem_cons_self
    have := ih (m := m.erase x) hn.2 (fun v hv => by
      rw [List.mem_erase_of_ne (fun hh : v = x => hn.1 (by rw [← hh]; exact hv))]
      exact hm v (List.mem_cons_of_mem _ hv))
    rw [List.length_erase_of_mem hx] at this
    have h1 : 0 < m.length := List.length_pos_of_mem hx
    simp only [List.length_cons]
    omega

theorem same_length {l es : List Val} (hn : l.Nodup) (hm : ∀ v, v ∈ l ↔ v ∈ es) :
    l.length = es.eraseDups.length := by
  obtain ⟨h1, h2⟩ := nodup_eraseDups es.length es (Nat.le_refl _)
  exact Nat.le_antisymm (nodup_length_le hn fun v hv => (h2 v).2 ((hm v).1 hv))
    (nodup_length_le h1 fun v hv => (hm v).2 ((h2 v).1 hv))

/-! ## The model's sets and maps -/

theorem setOf_set (vs : List Val) : SetOf vs (setOf vs) := by
  have hm : ∀ v, v ∈ setOf vs ↔ v ∈ vs := by
    have key : ∀ (vs acc : List Val) (v : Val),
        v ∈ vs.foldl (fun acc v => if v ∈ acc then acc else acc ++ [v]) acc ↔ v ∈ acc ∨ v ∈ vs := by
      intro vs
      induction vs with
      | nil => intro acc v; simp
      | cons w vs ih =>
        intro acc v
        simp only [List.foldl_cons]
        rw [ih]
        by_cases hw : w ∈ acc
        · rw [if_pos hw, List.mem_cons]
          constructor
          · rintro (h | h)
            · exact .inl h
            · exact .inr (.inr h)
          · rintro (h | rfl | h)
            · exact .inl h
            · exact .inl hw
            · exact .inr h
        · rw [if_neg hw, List.mem_append, List.mem_singleton, List.mem_cons, or_assoc]
    intro v
    have := key vs [] v
    unfold setOf
    simpa using this
  exact ⟨(setOf_spec vs).1, hm, same_length (setOf_spec vs).1 hm⟩

/-- All entries are pairs. -/
def Paired (es : List Val) : Prop := ∀ x ∈ es, ∃ a b, x = .pair a b

theorem mem_keys {es : List Val} (hp : Paired es) {a : Val} : a ∈ keys es ↔ ∃ b, Val.pair a b ∈ es := by
  induction es with
  | nil => simp [keys]
  | cons x es ih =>
    obtain ⟨a', b', rfl⟩ := hp x List.mem_cons_self
    have := ih fun x hx => hp x (List.mem_cons_of_mem _ hx)
    simp only [keys, List.mem_cons, this, Val.pair.injEq]
    constructor
    · rintro (rfl | ⟨b, h⟩)
      · exact ⟨b', .inl ⟨rfl, rfl⟩⟩
      · exact ⟨b, .inr h⟩
    · rintro ⟨b, ⟨h, _⟩ | h⟩
      · exact .inl h
      · exact .inr ⟨b, h⟩

theorem keys_length {es : List Val} (hp : Paired es) : (keys es).length = es.length := by
  induction es with
  | nil => rfl
  | cons x es ih =>
    obtain ⟨a', b', rfl⟩ := hp x List.mem_cons_self
    simp [keys, ih fun x hx => hp x (List.mem_cons_of_mem _ hx)]

theorem mem_mapInsert {k v a b : Val} : ∀ {acc : List Val}, Paired acc → (keys acc).Nodup →
    (.pair a b ∈ mapInsert k v acc ↔ if a = k then b = v else .pair a b ∈ acc)
  | [], _, _ => by
    simp only [mapInsert, List.mem_singleton, Val.pair.injEq, List.not_mem_nil]
    split <;> simp_all
  | x :: acc, hp, hn => by
    obtain ⟨a', b', rfl⟩ := hp x List.mem_cons_self
    have hp' : Paired acc := fun x hx => hp x (List.mem_cons_of_mem _ hx)
    simp only [keys, List.nodup_cons] at hn
    have ih := mem_mapInsert (k := k) (v := v) (a := a) (b := b) hp' hn.2
    simp only [mapInsert]
    split
    · rename_i h1
      subst h1
      simp only [List.mem_cons, Val.pair.injEq]
      split
      · rename_i h2
        subst h2
        constructor
        · rintro (h | h)
          · exact h.2
          · exact absurd ((mem_keys hp').2 ⟨b, h⟩) hn.1
        · intro h; exact .inl ⟨rfl, h⟩
      · rename_i h2
        simp [h2]
    · rename_i h1
      simp only [List.mem_cons, Val.pair.injEq, ih]
      split
      · rename_i h2
        subst h2
        constructor
        · rintro (h | h)
          · exact absurd h.1.symm h1
          · exact h
        · exact .inr
      · exact Iff.rfl

theorem lastFor_append {k : Val} {a b : List Val} : lastFor k (a ++ b) = (lastFor k b).or (lastFor k a) := by
  induction a with
  | nil => simp [lastFor]
  | cons x a ih => cases x <;> simp [lastFor, ih, Option.or_assoc]

theorem mapOf_last {es : List Val} (hp : Paired es) : LastWins es (mapOf es) := by
  have key : ∀ (vs pre acc : List Val), Paired vs → Paired acc → (keys acc).Nodup →
      (∀ a b, .pair a b ∈ acc ↔ lastFor a pre = some b) →
      ∀ a b, .pair a b ∈ vs.foldl mapStep acc ↔ lastFor a (pre ++ vs) = some b := by
    intro vs
    induction vs with
    | nil => intro pre acc _ _ _ h a b; simpa using h a b
    | cons w vs ih =>
      intro pre acc h0 h1 h2 h a b
      obtain ⟨k, v, rfl⟩ := h0 w List.mem_cons_self
      have hs := mapInsert_spec (P := fun _ _ => True) (k := k) (v := v) trivial
        (fun x hx => by obtain ⟨a, b, h⟩ := h1 x hx; exact ⟨a, b, h, trivial⟩) h2
      have := ih (pre ++ [.pair k v]) (mapInsert k v acc) (fun x hx => h0 x (List.mem_cons_of_mem _ hx))
        (fun x hx => by obtain ⟨a, b, h, _⟩ := hs.1 x hx; exact ⟨a, b, h⟩) hs.2.1 (fun a b => by
          rw [mem_mapInsert h1 h2, lastFor_append]
          simp only [lastFor, Option.none_or]
          split
          · rename_i h3
            subst h3
            simp [eq_comm]
          · rename_i h3
            rw [if_neg (fun hh => h3 hh.symm), h]
            simp) a b
      simpa [mapStep] using this
  have hs := mapOf_spec (P := fun _ _ => True) (vs := es)
    (fun x hx => by obtain ⟨a, b, h⟩ := hp x hx; exact ⟨a, b, h, trivial⟩)
  have hp' : Paired (mapOf es) := fun x hx => by obtain ⟨a, b, h, _⟩ := hs.2 x hx; exact ⟨a, b, h⟩
  have hlast : ∀ a b, .pair a b ∈ mapOf es ↔ lastFor a es = some b := by
    have := key es [] [] hp (by intro x hx; simp at hx) (by simp [keys]) (by simp [lastFor])
    unfold mapOf
    simpa using this
  refine ⟨hs.1, hlast, ?_⟩
  rw [← keys_length hp']
  refine same_length hs.1 fun a => ?_
  rw [mem_keys hp', mem_keys hp]
  simp only [hlast]
  clear hlast hs hp'
  induction es with
  | nil => simp [lastFor]
  | cons x es ih =>
    obtain ⟨a', b', rfl⟩ := hp x List.mem_cons_self
    have ih := ih fun x hx => hp x (List.mem_cons_of_mem _ hx)
    simp only [lastFor, List.mem_cons, Val.pair.injEq]
    constructor
    · rintro ⟨b, h⟩
      rw [Option.or_eq_some_iff] at h
      rcases h with h | ⟨_, h⟩
      · obtain ⟨b, h⟩ := ih.1 ⟨b, h⟩
        exact ⟨b, .inr h⟩
      · split at h
        · rename_i h1; exact ⟨b', .inl ⟨h1.symm, rfl⟩⟩
        · cases h
    · rintro ⟨b, ⟨h1, h2⟩ | h⟩
      · subst h1
        rcases hl : lastFor a es with _ | w
        · exact ⟨b', by simp⟩
        · exact ⟨w, by simp⟩
      · obtain ⟨w, h⟩ := ih.2 ⟨b, h⟩
        exact ⟨w, by rw [h]; rfl⟩

/-! ## Reading entries with repeated keys -/

section
variable {T : Target} (hT : T.Ok) {e : Endian}
include hT

/-- The encoding of any entries, also with repeated keys, is parsed as the map made from them. -/
theorem map_codes {k t : Ty} {es : List Val} {bs : Bytes} (hl : layoutOk T (.map k t) = true)
    (hd : declOk (.map k t) = true) (hr : regular T e (.map k t) = true) (he : ends false false (.map k t) = true)
    (hv : ∀ kv ∈ es, ∃ a b, kv = .pair a (.pair b .unit) ∧ hasTy T k a ∧ hasTy T t b)
    (hn : es.length ≤ T.usizeMax) (hsz : es.length * (sizeOf T k + sizeOf T t) ≤ T.isizeMax)
    (hc : canon (Fmt.code T.toHost e) (.map k t) (.list es))
    (hw : wire (Fmt.code T.toHost e) (.map k t) LenR.std (.list es) = .ok bs) (hB : Fits T bs) :
    Codes false false (parse T e (.map k t) Cx.std) bs (.list (mapOf es)) := by
  simp only [layoutOk, Bool.and_eq_true] at hl
  simp only [declOk, Bool.and_eq_true] at hd
  simp only [ends, Bool.and_eq_true] at he
  simp only [canon] at hc
  obtain ⟨x, y, h1, h2, rfl⟩ := cat_eq_ok hw
  simp only [regular, Bool.and_eq_true] at hr
  simp only [parse]
  have hel : ∀ w ∈ es, ∀ b, (fun kv => match kv with
        | .pair a (.pair b .unit) => cat (wire (Fmt.code T.toHost e) k LenR.std a) (wire (Fmt.code T.toHost e) t LenR.std b)
        | _ => .error .illTyped) w = .ok b → b.length ≤ y.length →
      Codes false false (pPair (parse T e k Cx.std) (parse T e t Cx.std)) b w := by
    intro w hw' b hb hbl
    obtain ⟨a1, a2, rfl, ht1, ht2⟩ := hv w hw'
    obtain ⟨c1, c2⟩ := hc a1 a2 hw'
    obtain ⟨b1, b2, g1, g2, rfl⟩ := cat_eq_ok hb
    simp only [List.length_append] at hbl
    unfold pPair
    refine codes_bind (parse_codes hT k false LenR.std false a1 b1 hl.1 hd.1 hr.1.2 he.1 (lenOk_std _ _ _) ht1
      c1 g1 (hB.right.sub (by omega))) ?_
    exact codes_then (parse_codes hT t false LenR.std false a2 b2 hl.2 hd.2 hr.2 he.2 (lenOk_std _ _ _) ht2
      c2 g2 (hB.right.sub (by omega))) (codes_pure _)
  have hus : T.isizeMax ≤ T.usizeMax := by have := hT.isize; omega
  refine codes_bind (codes_lenR (tl := false) hT.toOk h1 hn (by simp [LenR.ends, LenR.std])) ?_
  simp only [LenR.count, LenR.std]
  refine codes_map (f := fun vs => Val.list (mapOf vs)) ?_
  have hrep := codes_rep h2 hel
  unfold pKV
  split
  · rename_i hp
    simp only [Bool.and_eq_true] at hp
    refine codes_ite_neg (by omega) (codes_ite_neg ?_ hrep)
    have g := hr.1.1
    simp only [hp.1.1, hp.1.2, Bool.not_true, Bool.false_or, Bool.and_self, bne_iff_ne, ne_eq] at g
    simp [g.1.1, g.1.2]
    intro h3
    have := g.2
    omega
  · exact hrep

/-- The same for sets. -/
theorem set_codes {t : Ty} {es : List Val} {bs : Bytes} (hl : layoutOk T (.set t) = true)
    (hd : declOk (.set t) = true) (hr : regular T e (.set t) = true) (he : ends false false (.set t) = true)
    (hv : ∀ w ∈ es, hasTy T t w)
    (hn : es.length ≤ T.usizeMax) (hsz : es.length * sizeOf T t ≤ T.isizeMax)
    (hc : canon (Fmt.code T.toHost e) (.set t) (.list es))
    (hw : wire (Fmt.code T.toHost e) (.set t) LenR.std (.list es) = .ok bs) (hB : Fits T bs) :
    Codes false false (parse T e (.set t) Cx.std) bs (.list (setOf es)) := by
  simp only [layoutOk] at hl
  simp only [declOk] at hd
  simp only [ends] at he
  simp only [canon] at hc
  obtain ⟨x, y, h1, h2, rfl⟩ := cat_eq_ok hw
  simp only [regular, Bool.and_eq_true, Bool.or_eq_true, Bool.not_eq_true', bne_iff_ne, ne_eq] at hr
  simp only [parse]
  have hel : ∀ w ∈ es, ∀ b, wire (Fmt.code T.toHost e) t LenR.std w = .ok b → b.length ≤ y.length →
      Codes false false (parse T e t Cx.std) b w := fun w hw' b hb hbl =>
    parse_codes hT t false LenR.std false w b hl hd hr.2 he (lenOk_std _ _ _) (hv w hw')
      (hc w hw') hb (hB.right.sub hbl)
  have hus : T.isizeMax ≤ T.usizeMax := by have := hT.isize; omega
  refine codes_bind (codes_lenR (tl := false) hT.toOk h1 hn (by simp [LenR.ends, LenR.std])) ?_
  simp only [LenR.count, LenR.std]
  refine codes_map (f := fun vs => Val.list (setOf vs)) ?_
  have hrep := codes_rep h2 hel
  unfold pColl
  split
  · rename_i hp
    simp only [Bool.and_eq_true] at hp
    refine codes_ite_neg (by omega) (codes_ite_neg ?_ hrep)
    rcases hr.1 with h | h
    · rw [hp.1] at h; simp at h
    · simp [h.1, h.2]
  · exact hrep

end

section
variable {T : Target} (hT : T.Ok) {e : Endian} {k t : Ty} {es : List Val} {bs : Bytes}
  (hl : layoutOk T (.map k t) = true) (hd : declOk (.map k t) = true) (hr : regular T e (.map k t) = true)
  (he : ends false false (.map k t) = true)
  (hv : ∀ kv ∈ es, ∃ a b, kv = .pair a (.pair b .unit) ∧ hasTy T k a ∧ hasTy T t b)
  (hn : es.length ≤ T.usizeMax) (hsz : es.length * (sizeOf T k + sizeOf T t) ≤ T.isizeMax)
  (hc : canon (Fmt.code T.toHost e) (.map k t) (.list es))
  (hw : wire (Fmt.code T.toHost e) (.map k t) LenR.std (.list es) = .ok bs)
include hT hl hd hr he hv hn hsz hc hw

/-- **C26**: an input with a number of entries and these entries, in which keys may be repeated, is read as the
map in which the last entry of each key wins; it has as many entries as there are distinct keys.  Exactly
the input is used, whatever follows it.

Missing: the exceptions of C01. -/
theorem C26_last_wins_partial {base : Nat} {rest : Bytes} (hm : InMem T base (bs ++ rest)) :
    ∃ us, LastWins es us ∧ readWithLengthFromBuffer T e (.map k t) base (bs ++ rest) = (.ok (.list us), bs.length) := by
  have hf : Fits T bs := hm.fits.sub (by simp)
  have h := (map_codes hT hl hd hr he hv hn hsz hc hw hf).1 rest (by simp)
  have hp : Paired es := fun x hx => by obtain ⟨a, b, h, _⟩ := hv x hx; exact ⟨a, _, h⟩
  refine ⟨_, mapOf_last hp, ?_⟩
  have hmin : minBytes T (.map k t) ≤ (bs ++ rest).length := by
    obtain ⟨x, y, h1, _, rfl⟩ := cat_eq_ok hw
    have := wireLen_min h1
    simp only [LenR.std, LenR.min, LenTy.minSize] at this
    simp only [minBytes, List.length_append]
    omega
  rw [buffer_ok hT hl hm hmin h]
  simp

/-- C26 for the stream readers. -/
theorem C26_last_wins_stream_partial {grow : Nat → Nat} (hg : ∀ n, n ≤ grow n) {b : Bool} {src : Src} (hs : src.Clean)
    (hi : src.data = bs) (hf : Fits T bs) (hnr : noRefs (.map k t) = true) :
    ∃ us, LastWins es us ∧ (readFromStream T e (.map k t) grow b src).1 = .ok (.list us) := by
  have h := (map_codes hT hl hd hr he hv hn hsz hc hw hf).1 [] (by simp)
  rw [List.append_nil] at h
  have hp : Paired es := fun x hx => by obtain ⟨a, b, h, _⟩ := hv x hx; exact ⟨a, _, h⟩
  refine ⟨_, mapOf_last hp, ?_⟩
  subst hi
  have h4 := stream_outcome hT hl (e := e) hg (b := b) hs hf hnr
  rw [h] at h4
  exact h4.1

end

section
variable {T : Target} (hT : T.Ok) {e : Endian} {t : Ty} {es : List Val} {bs : Bytes}
  (hl : layoutOk T (.set t) = true) (hd : declOk (.set t) = true) (hr : regular T e (.set t) = true)
  (he : ends false false (.set t) = true) (hv : ∀ w ∈ es, hasTy T t w)
  (hn : es.length ≤ T.usizeMax) (hsz : es.length * sizeOf T t ≤ T.isizeMax)
  (hc : canon (Fmt.code T.toHost e) (.set t) (.list es))
  (hw : wire (Fmt.code T.toHost e) (.set t) LenR.std (.list es) = .ok bs)
include hT hl hd hr he hv hn hsz hc hw

/-- C26 for sets with repeated values. -/
theorem C26_set_partial {base : Nat} {rest : Bytes} (hm : InMem T base (bs ++ rest)) :
    ∃ us, SetOf es us ∧ readWithLengthFromBuffer T e (.set t) base (bs ++ rest) = (.ok (.list us), bs.length) := by
  have hf : Fits T bs := hm.fits.sub (by simp)
  have h := (set_codes hT hl hd hr he hv hn hsz hc hw hf).1 rest (by simp)
  refine ⟨_, setOf_set es, ?_⟩
  have hmin : minBytes T (.set t) ≤ (bs ++ rest).length := by
    obtain ⟨x, y, h1, _, rfl⟩ := cat_eq_ok hw
    have := wireLen_min h1
    simp only [LenR.std, LenR.min, LenTy.minSize] at this
    simp only [minBytes, List.length_append]
    omega
  rw [buffer_ok hT hl hm hmin h]
  simp

/-- C26 for sets and the stream readers. -/
theorem C26_set_stream_partial {grow : Nat → Nat} (hg : ∀ n, n ≤ grow n) {b : Bool} {src : Src} (hs : src.Clean)
    (hi : src.data = bs) (hf : Fits T bs) (hnr : noRefs (.set t) = true) :
    ∃ us, SetOf es us ∧ (readFromStream T e (.set t) grow b src).1 = .ok (.list us) := by
  have h := (set_codes hT hl hd hr he hv hn hsz hc hw hf).1 [] (by simp)
  rw [List.append_nil] at h
  refine ⟨_, setOf_set es, ?_⟩
  subst hi
  have h4 := stream_outcome hT hl (e := e) hg (b := b) hs hf hnr
  rw [h] at h4
  exact h4.1

end

/-! ## Any order of iteration -/

theorem keys_perm {a b : List Val} (h : a.Perm b) : (keys a).Perm (keys b) := by
  induction h with
  | nil => exact .nil
  | cons x _ ih => cases x <;> simp only [keys] <;> first | exact ih.cons _ | exact ih
  | swap x y l => cases x <;> cases y <;> simp only [keys] <;> first | exact .swap _ _ _ | exact .refl _
  | trans _ _ ih1 ih2 => exact ih1.trans ih2

/-- **C26**: a map (or set) `vs` whose iterator yields its entries in the order `ws` is
read back as a map with the same entries.

Missing: the exceptions of C01. -/
theorem C26_any_order_partial {T : Target} (hT : T.Ok) {e : Endian} {t : Ty} (ht : (∃ a, t = .set a) ∨ ∃ a b, t = .map a b)
    (hl : layoutOk T t = true) (hd : declOk t = true) (hr : regular T e t = true) (he : ends true false t = true)
    {vs ws : List Val} (hv : hasTy T t (.list vs)) (hc : canon (Fmt.code T.toHost e) t (.list vs)) (hp : ws.Perm vs)
    {bs : Bytes} {junk : Nat → UInt8} (hw : writeToVec T e t (.list ws) junk = .ok bs) {base : Nat}
    (hm : InMem T base bs) :
    ∃ us, readFromBuffer T e t base bs = .ok (.list us) ∧ us.Perm vs := by
  refine ⟨ws, C01_round_trip_partial hT hl hd hr ?_ ?_ hw he hm, hp⟩
  · rcases ht with ⟨a, rfl⟩ | ⟨a, b, rfl⟩ <;> simp only [hasTy] at hv ⊢
    · exact ⟨fun v h => hv.1 v (hp.mem_iff.1 h), hp.nodup_iff.2 hv.2.1, by rw [hp.length_eq]; exact hv.2.2⟩
    · exact ⟨fun v h => hv.1 v (hp.mem_iff.1 h), (keys_perm hp).nodup_iff.2 hv.2.1, by rw [hp.length_eq]; exact hv.2.2⟩
  · rcases ht with ⟨a, rfl⟩ | ⟨a, b, rfl⟩ <;> simp only [canon] at hc ⊢
    · exact fun v h => hc v (hp.mem_iff.1 h)
    · exact fun x y h => hc x y (hp.mem_iff.1 h)

/-! ## Any input -/

theorem repeatM_all {σ : Type} {R : ReaderOps σ} {p : M Val} {P : Val → Prop} (hp : ∀ s v s', p.run R s = (.ok v, s') → P v) :
    ∀ {n : Nat} {s s' : σ} {vs : List Val}, (repeatM n p).run R s = (.ok vs, s') → vs.length = n ∧ ∀ v ∈ vs, P v
  | 0, s, s', vs, h => by
    simp only [repeatM, M.pure, Prog.run, Prod.mk.injEq, Except.ok.injEq] at h
    rw [← h.1]; simp
  | n + 1, s, s', vs, h => by
    simp only [repeatM] at h
    obtain ⟨v, s1, h1, h2⟩ := M.run_bind_inv h
    obtain ⟨ws, s2, h3, h4⟩ := M.run_bind_inv h2
    simp only [M.pure, Prog.run, Prod.mk.injEq, Except.ok.injEq] at h4
    obtain ⟨h5, h6⟩ := repeatM_all hp h3
    rw [← h4.1]
    exact ⟨by simp [h5], fun w hw => by
      rw [List.mem_cons] at hw
      rcases hw with rfl | h
      · exact hp _ _ _ h1
      · exact h6 w h⟩

/-- **C26**, any reader and any input: if reading a map (of which not both keys and values are copied in bulk) succeeds, then
a length `n` and `n` entries were read one after the other, and the result has the last entry of each key. -/
theorem C26_any_input {T : Target} {e : Endian} {k t : Ty} {cx : Cx} {σ : Type} {R : ReaderOps σ} {s s' : σ} {v : Val}
    (hb : isPrimitive T k = false ∨ isPrimitive T t = false) (hu : cx.len ≠ .untilEof)
    (h : (decode T e (.map k t) cx).run R s = (.ok v, s')) :
    ∃ n s1 es us, (readLenR T.toHost e cx.len).run R s = (.ok (some n), s1) ∧
      (repeatM n (M.bind (decode T e k Cx.std) fun a => M.bind (decode T e t Cx.std) fun b =>
        M.pure (.pair a (.pair b .unit)))).run R s1 = (.ok es, s') ∧ es.length = n ∧
      v = .list us ∧ LastWins es us := by
  simp only [decode] at h
  obtain ⟨r, s1, h1, h2⟩ := M.run_bind_inv h
  rcases r with _ | n
  · exfalso
    rcases hl : cx.len with ⟨lt, _ | _⟩ | n | _ <;> rw [hl] at h1 hu
    · simp only [readLenR] at h1
      obtain ⟨a, b, _, h⟩ := M.run_bind_inv (f := fun a => M.pure (some a)) h1
      simp [M.pure, Prog.run] at h
    · simp only [readLenR] at h1
      obtain ⟨a, b, _, h⟩ := M.run_bind_inv (f := fun a => M.pure (some a)) h1
      simp [M.pure, Prog.run] at h
    · simp [readLenR, M.pure, Prog.run] at h1
    · exact hu rfl
  · obtain ⟨es, s2, h3, h4⟩ := M.run_bind_inv (f := fun vs => M.pure (Val.list (mapOf vs))) h2
    simp only [M.pure, Prog.run, Prod.mk.injEq, Except.ok.injEq] at h4
    obtain ⟨rfl, rfl⟩ := h4
    unfold readKV at h3
    rw [if_neg (by simp only [elemOf, Bool.and_eq_true]; rintro ⟨⟨h5, h6⟩, _⟩; rcases hb with h | h <;> simp [h] at h5 h6)] at h3
    have hp : ∀ s v s', (readPair (elemOf T k (decode T e k Cx.std)) (elemOf T t (decode T e t Cx.std))).run R s = (.ok v, s') →
        ∃ a b, v = .pair a b := by
      intro s v s' h
      obtain ⟨a, _, _, h⟩ := M.run_bind_inv h
      obtain ⟨b, _, _, h⟩ := M.run_bind_inv h
      simp only [M.pure, Prog.run, Prod.mk.injEq, Except.ok.injEq] at h
      exact ⟨_, _, h.1.symm⟩
    obtain ⟨h5, h6⟩ := repeatM_all hp h3
    refine ⟨n, s1, es, mapOf es, h1, ?_, h5, rfl, mapOf_last h6⟩
    exact h3

/-! ## Examples -/

/-- `HashMap<u8, bool>` with entries 1 ↦ true, 2 ↦ true, 1 ↦ false -/
def repeated : List Val := [.pair (.num 1) (.pair (.bool true) .unit), .pair (.num 2) (.pair (.bool true) .unit),
  .pair (.num 1) (.pair (.bool false) .unit)]

theorem repeated_ty : ∀ kv ∈ repeated, ∃ a b, kv = .pair a (.pair b .unit) ∧ hasTy x64 (.prim .u8) a ∧
    hasTy x64 .bool b := by
  intro kv h
  simp only [repeated, List.mem_cons, List.not_mem_nil, or_false] at h
  rcases h with rfl | rfl | rfl <;> exact ⟨_, _, rfl, by simp [hasTy, Prim.size], by simp [hasTy]⟩

example : ∃ us, LastWins repeated us ∧
    readWithLengthFromBuffer x64 .little (.map (.prim .u8) .bool) 4096 ([3, 0, 0, 0, 1, 1, 2, 1, 1, 0] ++ [9]) =
      (.ok (.list us), 10) :=
  C26_last_wins_partial x64_ok (by decide) (by decide) (by decide) (by decide)
    repeated_ty (by decide) (by decide) (by simp [canon, repeated]) (by decide)
    ⟨by decide, by decide, by decide⟩

example : LastWins repeated [.pair (.num 1) (.pair (.bool false) .unit), .pair (.num 2) (.pair (.bool true) .unit)] :=
  mapOf_last (es := repeated) (by simp [Paired, repeated])

example : ∃ us, SetOf [.num 4, .num 5, .num 4] us ∧
    readWithLengthFromBuffer x64 .big (.set (.prim .u16)) 4096 ([0, 0, 0, 3, 0, 4, 0, 5, 0, 4] ++ []) =
      (.ok (.list us), 10) :=
  C26_set_partial x64_ok (by decide) (by decide) (by decide) (by decide)
    (by simp [hasTy, Prim.size]) (by decide) (by decide) (by simp [canon]) (by decide)
    ⟨by decide, by decide, by decide⟩

example : ∃ us, readFromBuffer x64 .little (.set (.prim .u8)) 4096 [2, 0, 0, 0, 9, 3] = .ok (.list us) ∧
    us.Perm [.num 3, .num 9] :=
  C26_any_order_partial x64_ok (.inl ⟨_, rfl⟩) (by decide) (by decide) (by decide) (by decide)
    (by simp [hasTy, Prim.size]; decide) (by simp [canon]) (ws := [.num 9, .num 3]) (.swap _ _ _) (junk := fun _ => 0)
    (by decide) ⟨by decide, by decide, by decide⟩

example : ∃ n s1 es us, (readLenR Host.x64 .little Cx.std.len).run (bufferReader Host.x64)
      (BufSt.init 4096 [2, 0, 0, 0, 1, 1, 1, 0]) = (.ok (some n), s1) ∧
    (repeatM n (M.bind (decode x64 .little (.prim .u8) Cx.std) fun a => M.bind (decode x64 .little .bool Cx.std) fun b =>
        M.pure (.pair a (.pair b .unit)))).run (bufferReader Host.x64) s1 =
      (.ok es, ((decode x64 .little (.map (.prim .u8) .bool) Cx.std).run (bufferReader Host.x64)
        (BufSt.init 4096 [2, 0, 0, 0, 1, 1, 1, 0])).2) ∧ es.length = n ∧
      Val.list [.pair (.num 1) (.pair (.bool false) .unit)] = .list us ∧ LastWins es us :=
  C26_any_input (T := x64) (cx := Cx.std) (.inr rfl) (by simp [Cx.std]) (Prod.ext rfl rfl)

/-! ## Cases -/

section Cases
open Samples

example : ∃ us, LastWins repeated us ∧ (readFromStream x64 .little (.map (.prim .u8) .bool) (· + 100) true
    ⟨[3, 0, 0, 0, 1, 1, 2, 1, 1, 0], [.give 5]⟩).1 = .ok (.list us) :=
  C26_last_wins_stream_partial x64_ok (by decide) (by decide) (by decide) (by decide)
    repeated_ty (by decide) (by decide) (by simp [canon, repeated]) (by decide) (fun n => by omega) (by simp [Src.Clean]) rfl
    ⟨by decide, by decide⟩ (by decide)

example : ∃ us, SetOf [.num 4, .num 5, .num 4] us ∧ (readFromStream x64 .big (.set (.prim .u16)) (· + 100) false
    ⟨[0, 0, 0, 3, 0, 4, 0, 5, 0, 4], [.give 5]⟩).1 = .ok (.list us) :=
  C26_set_stream_partial x64_ok (by decide) (by decide) (by decide) (by decide)
    (by simp [hasTy, Prim.size]) (by decide) (by decide) (by simp [canon]) (by decide) (fun n => by omega) (by simp [Src.Clean]) rfl
    ⟨by decide, by decide⟩ (by decide)

end Cases

end Verif
