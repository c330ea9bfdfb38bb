import Verif.Wp
import Verif.Sound

/-!
# Reading by type, whatever the reader answers
-/

namespace Verif

section
variable {μ : Mode} {m : Nat} {V : Val → Prop}

theorem good_repeatM {α : Type} {V : α → Prop} {p : M α} (hp : Good μ m V p) :
    ∀ n, Good μ (m * n) (fun vs => vs.length = n ∧ ∀ v ∈ vs, V v) (repeatM n p)
  | 0 => good_pure (by simp)
  | n + 1 => by
    have := good_bind (W := fun vs : List α => vs.length = n + 1 ∧ ∀ v ∈ vs, V v) hp
      (f := fun v => M.bind (repeatM n p) fun vs => M.pure (v :: vs)) fun v hv =>
      good_bind (n := 0) (good_repeatM hp n) fun vs hvs => good_pure (by
        refine ⟨by simp [hvs.1], fun w hw => ?_⟩
        simp only [List.mem_cons] at hw
        rcases hw with rfl | hw
        · exact hv
        · exact hvs.2 w hw)
    rw [Nat.mul_succ, Nat.add_comm]
    exact this

/-- What the methods for containers rely on. -/
structure ElemGood (μ : Mode) (h : Host) (e : Endian) (V : Val → Prop) (el : Elem) : Prop where
  read : Good μ el.min V el.read
  mem : el.prim = true → ∀ m, m.length ≤ el.size → V (el.ofMem m)
  flip : el.prim = true → ∀ m m', m.length ≤ el.size → el.flip m = .ok m' → V (el.ofMem m')

variable {h : Host} {e : Endian} {el : Elem}

theorem chunks_le {size n : Nat} {bs : Bytes} : ∀ m ∈ chunks size n bs, m.length ≤ size := by
  induction n generalizing bs with
  | zero => intro m hm; cases hm
  | succ n ih =>
    intro m hm
    simp only [chunks, List.mem_cons] at hm
    rcases hm with rfl | hm
    · rw [List.length_take]; omega
    · exact ih m hm

theorem mapPanic_spec {f : Bytes → Except Panic Bytes} : ∀ {L L' : List Bytes}, mapPanic f L = .ok L' →
    L'.length = L.length ∧ ∀ m' ∈ L', ∃ m ∈ L, f m = .ok m'
  | [], _, h => by simp only [mapPanic, Except.ok.injEq] at h; subst h; simp
  | a :: L, _, h => by
    simp only [mapPanic] at h
    split at h
    · cases h
    · rename_i b hb
      split at h
      · cases h
      · rename_i bs hbs
        simp only [Except.ok.injEq] at h
        subst h
        obtain ⟨h1, h2⟩ := mapPanic_spec hbs
        refine ⟨by simp [h1], fun m' hm' => ?_⟩
        simp only [List.mem_cons] at hm'
        rcases hm' with rfl | hm'
        · exact ⟨a, List.mem_cons_self, hb⟩
        · obtain ⟨m, h3, h4⟩ := h2 m' hm'
          exact ⟨m, List.mem_cons_of_mem _ h3, h4⟩

theorem mapPanic_total {f : Bytes → Except Panic Bytes} : ∀ {L : List Bytes}, (∀ m ∈ L, ∃ m', f m = .ok m') →
    ∃ L', mapPanic f L = .ok L'
  | [], _ => ⟨[], rfl⟩
  | a :: L, h => by
    obtain ⟨b, hb⟩ := h a List.mem_cons_self
    obtain ⟨bs, hbs⟩ := mapPanic_total fun m hm => h m (List.mem_cons_of_mem _ hm)
    exact ⟨b :: bs, by simp [mapPanic, hb, hbs]⟩

/-- A bulk copy. -/
theorem good_bulk (he : ElemGood μ h e V el) (hp : el.prim = true) (n : Nat) (mem : Bytes)
    (hc : μ.np = true → e.conv h = true → ∀ m, m.length = el.size → ∃ m', el.flip m = .ok m')
    (hmem : mem.length = n * el.size) :
    Good μ 0 (fun vs => vs.length = n ∧ ∀ v ∈ vs, V v) (liftVals el (convSlice h e el (chunks el.size n mem))) := by
  unfold convSlice
  by_cases hv : e.conv h = true
  · rw [if_pos hv]
    cases hm : mapPanic el.flip (chunks el.size n mem) with
    | error p =>
      refine good_fail fun hn => ?_
      obtain ⟨L', hL'⟩ := mapPanic_total (f := el.flip) (L := chunks el.size n mem) fun m hm =>
        hc hn hv m (chunks_mem (by omega) m hm)
      rw [hm] at hL'
      cases hL'
    | ok L' =>
      obtain ⟨h1, h2⟩ := mapPanic_spec hm
      refine good_pure ⟨by rw [List.length_map, h1, chunks_length], fun v hv => ?_⟩
      obtain ⟨m', h3, rfl⟩ := List.mem_map.mp hv
      obtain ⟨m, h4, h5⟩ := h2 m' h3
      exact he.flip hp m m' (chunks_le m h4) h5
  · rw [if_neg hv]
    refine good_pure ⟨by rw [List.length_map, chunks_length], fun v hv => ?_⟩
    obtain ⟨m, h3, rfl⟩ := List.mem_map.mp hv
    exact he.mem hp m (chunks_le m h3)

theorem good_readVec' (he : ElemGood μ h e V el) (n : Nat) (hz : el.prim = false → el.size = 0 → V el.zst)
    (hc : μ.np = true → el.prim = true → e.conv h = true → ∀ m, m.length = el.size → ∃ m', el.flip m = .ok m')
    (hcap : μ.np = true → (μ.exact = true → el.min * n ≤ μ.B) → n * el.size ≤ h.isizeMax) :
    Good μ (if el.prim then n * el.size else 0) (fun vs => vs.length = n ∧ ∀ v ∈ vs, V v) (readVec h e el n) := by
  unfold readVec
  refine good_ite (fun _ => good_fail fun _ => rfl) fun _ => ?_
  intro r hr
  have main : ∀ x, (μ.exact = true → x ≠ some false → el.min * n ≤ r) →
      (if x = some false then M.fail .unexpectedEndOfInput
      else if n * el.size > h.isizeMax then M.fail (.panic .capacityOverflow)
      else .alloc n el.min <|
        if el.prim then
          M.bind (readBytes (n * el.size)) fun mem =>
            liftVals el (convSlice h e el (chunks el.size n mem))
        else if el.size = 0 then M.pure (List.replicate n el.zst)
        else repeatM n el.read : M (List Val)).Wp μ.exact μ.alloc
        (μ.post (if el.prim then n * el.size else 0) (fun vs => vs.length = n ∧ ∀ v ∈ vs, V v) r) r := by
    intro x hx
    by_cases hxf : x = some false
    · rw [if_pos hxf]; exact ⟨Nat.le_refl _, fun _ => rfl⟩
    · rw [if_neg hxf]
      by_cases hcp : n * el.size > h.isizeMax
      · rw [if_pos hcp]
        refine ⟨Nat.le_refl _, fun hn => absurd (hcap hn fun hex => ?_) (by omega)⟩
        have := hx hex hxf; omega
      · rw [if_neg hcp]
        refine ⟨fun _ hex => .inl (by rw [Nat.mul_comm]; exact hx hex hxf), ?_⟩
        refine good_ite (m := if el.prim then n * el.size else 0) (V := fun vs : List Val => vs.length = n ∧ ∀ v ∈ vs, V v) (fun hp => ?_) (fun hp => ?_) r hr
        · rw [if_pos hp]
          exact good_bind (n := 0) (good_readBytes _) fun mem hmem =>
            good_bulk he hp n mem (fun hn => hc hn hp) hmem
        · rw [if_neg hp]
          refine good_ite (fun hs => good_pure ?_) fun hs => (good_repeatM he.read n).low (Nat.zero_le _)
          refine ⟨List.length_replicate, fun v hv => ?_⟩
          obtain ⟨_, rfl⟩ := List.mem_replicate.mp hv
          exact hz (by simpa using hp) hs
  exact ⟨main _ fun _ hx => by simpa using hx, fun hex => main _ fun h' => by rw [hex] at h'; cases h'⟩

theorem good_readVec (he : ElemGood μ h e V el) (n : Nat) (hz : el.prim = false → el.size = 0 → V el.zst)
    (hc : μ.np = true → el.prim = true → e.conv h = true → ∀ m, m.length = el.size → ∃ m', el.flip m = .ok m')
    (hcap : μ.np = true → (μ.exact = true → el.min * n ≤ μ.B) → n * el.size ≤ h.isizeMax) :
    Good μ 0 (fun vs => vs.length = n ∧ ∀ v ∈ vs, V v) (readVec h e el n) :=
  (good_readVec' he n hz hc hcap).low (Nat.zero_le _)

theorem good_readUntilEof {p : M Val} (hp : Good μ m V p) (hn : μ.np = true → μ.uses = true ∧ 0 < m) :
    ∀ (fuel r : Nat), r ≤ μ.B → (μ.np = true → r < fuel) →
      (readUntilEof fuel p).Wp μ.exact μ.alloc (μ.post 0 (fun vs => ∀ v ∈ vs, V v) r) r
  | 0, r, _, hf => ⟨Nat.le_refl _, fun h => absurd (hf h) (by omega)⟩
  | fuel + 1, r, hr, hf => by
    refine Prog.Wp.bind ((hp r hr).mono fun r' x hx => ?_)
    cases x with
    | ok v =>
      simp only
      refine Prog.Wp.bind ((good_readUntilEof hp hn fuel r' (by have := hx.1; omega) fun h => ?_).mono
        fun r'' y hy => ?_)
      · have h1 := hx.2.1 (hn h).1
        have := hf h
        have := (hn h).2
        omega
      · cases y with
        | ok vs =>
          refine ⟨by have := hx.1; have := hy.1; omega, fun _ => by have := hx.1; have := hy.1; omega, ?_⟩
          intro w hw
          simp only [List.mem_cons] at hw
          rcases hw with rfl | hw
          · exact hx.2.2
          · exact hy.2.2 w hw
        | error e => exact ⟨by have := hx.1; have := hy.1; omega, hy.2⟩
    | error e =>
      simp only
      split
      · exact ⟨hx.1, fun _ => hx.1, by simp⟩
      · exact hx

/-- An operation which borrows `n` bytes or falls back to something else. -/
theorem good_borrow {α : Type} {V : α → Prop} {n : Nat} {f : Nat → Bytes → M α} {q : M α}
    (hf : ∀ a bs, bs.length = n → ∀ r, n ≤ r → r ≤ μ.B →
      (f a bs).Wp μ.exact μ.alloc (μ.post m V r) (r - n)) (hq : Good μ m V q) :
    Good μ m V (.borrow n fun
      | some (.error er) => M.fail er
      | some (.ok (a, bs)) => f a bs
      | none => q) := by
  intro r hr
  exact ⟨fun hn a bs hb => hf a bs hb r hn hr, fun er r' he hr' => ⟨hr', fun _ => he⟩, hq r hr⟩

theorem good_readCow (hh : h.Ok) (he : ElemGood μ h e V el) (n : Nat)
    (hz : el.prim = false → el.size = 0 → V el.zst)
    (hc : μ.np = true → el.prim = true → e.conv h = true → ∀ m, m.length = el.size → ∃ m', el.flip m = .ok m')
    (hcap : μ.np = true → (μ.exact = true → el.min * n ≤ μ.B) → n * el.size ≤ h.isizeMax)
    (hmin : μ.uses = true → el.prim = true → el.min ≤ el.size)
    (hw : μ.np = true → el.prim = true → el.size ≠ 0 ∧ n * el.size ≤ h.usizeMax ∧ μ.B ≤ h.isizeMax) :
    Good μ 0 (fun c => ∀ v ∈ c.vals, V v) (readCow h e el n) := by
  have hvec : Good μ 0 (fun c : CowVal => ∀ v ∈ c.vals, V v) (M.map .owned (readVec h e el n)) :=
    good_map (good_readVec he n hz hc hcap) fun vs hvs => hvs.2
  unfold readCow
  refine good_ite (fun hp => ?_) fun _ => hvec
  simp only [Bool.and_eq_true] at hp
  have hp := hp.1
  have hcs : ∀ (k : Nat) (bs : Bytes), ∀ v ∈ (chunks el.size k bs).map el.ofMem, V v := by
    intro k bs v hv
    obtain ⟨m, h3, rfl⟩ := List.mem_map.mp hv
    exact he.mem hp m (chunks_le m h3)
  intro r hr
  refine ⟨fun hn a bs hb => ?_, fun er r' he' hr' => ⟨hr', fun _ => he'⟩, hvec r hr⟩
  simp only
  rw [if_neg (by simpa using hb)]
  by_cases ha : (el.align == 1 || a % el.align == 0) = true
  · rw [if_pos ha]
    by_cases hs : el.size = 0
    · rw [if_pos hs]
      exact ⟨by omega, fun hnp => absurd hs (hw hnp hp).1⟩
    · rw [if_neg hs]
      exact ⟨by omega, fun _ => by omega, hcs _ _⟩
  · rw [if_neg ha]
    by_cases hcp : n * el.size > h.isizeMax
    · rw [if_pos hcp]
      refine ⟨by omega, fun hnp => ?_⟩
      have := hw hnp hp
      rw [wmul, Nat.mod_eq_of_lt (by omega)] at hn
      omega
    · rw [if_neg hcp]
      have := hh.isize
      have hwm : wmul h n el.size = n * el.size := by rw [wmul, Nat.mod_eq_of_lt (by omega)]
      rw [hwm] at hn ⊢
      refine ⟨fun hu hex => .inr ?_, by omega, fun _ => by omega, hcs _ _⟩
      have := Nat.mul_le_mul_left n (hmin hu hp)
      omega

theorem good_readCollection (he : ElemGood μ h e V el) (n : Nat)
    (hw : μ.np = true → el.prim = true → el.size ≠ 0) :
    Good μ 0 (fun vs => ∀ v ∈ vs, V v) (readCollection h e el n) := by
  have hrep : Good μ 0 (fun vs => ∀ v ∈ vs, V v) (repeatM n el.read) :=
    (good_repeatM he.read n).weaken (Nat.zero_le _) fun _ h => h.2
  unfold readCollection
  refine good_ite (fun hp => ?_) fun _ => hrep
  simp only [Bool.and_eq_true] at hp
  have hp := hp.1
  refine good_ite (fun _ => good_fail fun _ => rfl) fun _ => ?_
  intro r hr
  refine ⟨fun hn a bs hb => ?_, fun er r' he' hr' => ⟨hr', fun _ => he'⟩, hrep r hr⟩
  simp only
  split
  · rename_i hs
    exact ⟨by omega, fun hnp => absurd hs (hw hnp hp)⟩
  · refine ⟨by omega, fun _ => by omega, ?_⟩
    intro v hv
    obtain ⟨m, h3, rfl⟩ := List.mem_map.mp hv
    exact he.mem hp m (chunks_le m h3)

/-- An entry of a map. -/
def isEntry (V W : Val → Prop) (x : Val) : Prop := ∃ a b, x = .pair a (.pair b .unit) ∧ V a ∧ W b

theorem good_readPair {ek ev : Elem} {W : Val → Prop} (hk : ElemGood μ h e V ek) (hv : ElemGood μ h e W ev) :
    Good μ (ek.min + ev.min) (isEntry V W) (readPair ek ev) :=
  good_bind hk.read fun a ha => good_bind (n := 0) hv.read fun b hb => good_pure ⟨a, b, rfl, ha, hb⟩

theorem good_readKV {ek ev : Elem} {W : Val → Prop} (hk : ElemGood μ h e V ek) (hv : ElemGood μ h e W ev) (n : Nat)
    (hw : μ.np = true → ek.prim = true → ev.prim = true → ek.size + ev.size ≠ 0) :
    Good μ 0 (fun vs => ∀ x ∈ vs, isEntry V W x) (readKV h e ek ev n) := by
  have hrep : Good μ 0 (fun vs => ∀ x ∈ vs, isEntry V W x) (repeatM n (readPair ek ev)) :=
    (good_repeatM (good_readPair hk hv) n).weaken (Nat.zero_le _) fun _ h => h.2
  unfold readKV
  refine good_ite (fun hp => ?_) fun _ => hrep
  simp only [Bool.and_eq_true] at hp
  have hp := hp.1
  refine good_ite (fun _ => good_fail fun _ => rfl) fun _ => ?_
  intro r hr
  refine ⟨fun hn a bs hb => ?_, fun er r' he' hr' => ⟨hr', fun _ => he'⟩, hrep r hr⟩
  simp only
  split
  · rename_i hs
    exact ⟨by omega, fun hnp => absurd hs (hw hnp hp.1 hp.2)⟩
  · refine ⟨by omega, fun _ => by omega, ?_⟩
    intro v hv'
    obtain ⟨m, h3, rfl⟩ := List.mem_map.mp hv'
    have := chunks_le m h3
    refine ⟨_, _, rfl, hk.mem hp.1 _ (by rw [List.length_take]; omega), hv.mem hp.2 _ (by rw [List.length_drop]; omega)⟩

theorem good_borrowBytes (n : Nat) : Good μ n (fun x => x.2.length = n) (borrowBytes n) := by
  intro r hr
  exact ⟨fun hn a bs hb => ⟨by omega, fun _ => by omega, hb⟩, fun er r' he hr' => ⟨hr', fun _ => he⟩,
    Nat.le_refl _, fun _ => rfl⟩

theorem good_borrowRest : Good μ 0 (fun _ => True) borrowRest := by
  intro r hr
  exact ⟨fun a bs hb => ⟨by omega, fun _ => by omega, trivial⟩, Nat.le_refl _, fun _ => rfl⟩

theorem good_convert {c : Conv} (hc : μ.np = true → c.calm = true) (v : Val) :
    Good μ 0 (fun w => c.apply v = .ok w) (convert c v) := by
  unfold convert
  cases h : c.apply v with
  | ok w => exact good_pure rfl
  | error er =>
    refine good_fail fun hn => ?_
    have := hc hn
    cases c <;> simp only [Conv.calm] at this
    all_goals unfold Conv.apply at h; split at h <;> first | cases h | skip
    all_goals try (split at h <;> first | cases h | skip)
    all_goals first | rfl | contradiction

theorem good_asStr (bs : Bytes) : Good μ 0 (Valid T (.str k)) (asStr bs) :=
  good_ite (fun hu => good_pure (by simpa only [Valid] using hu)) fun _ => good_fail fun _ => rfl

theorem good_durationNew (s n : Nat) (hnp : μ.np = false) :
    Good μ 0 (fun d => d.1 < 2 ^ 64 ∧ d.2 < 1000000000) (durationNew s n) :=
  good_ite (fun _ => good_pure ⟨by assumption, Nat.mod_lt _ (by decide)⟩) fun _ =>
    good_fail fun h => by rw [hnp] at h; cases h

theorem good_readDuration (h : Host) (e : Endian) (hnp : μ.np = false) :
    Good μ 12 (fun d => d.1 < 2 ^ 64 ∧ d.2 < 1000000000) (readDuration h e) :=
  good_bind (n := 4) (good_readNum h e 8) fun _ _ => good_bind (n := 0) (good_readNum h e 4) fun _ _ =>
    good_durationNew _ _ hnp

theorem good_readIpv6 (h : Host) (e : Endian) : Good μ 16 (fun v => ∃ bs, v = .bytes bs ∧ bs.length = 16) (readIpv6 h e) :=
  good_map (good_readBytes 16) fun bs hb => ⟨_, rfl, by split <;> simp [hb]⟩

theorem good_readBool (h : Host) (e : Endian) : Good μ 1 (fun _ => True) (readBool h e) :=
  good_map (good_readNum h e 1) fun _ _ => trivial

end

section
variable {T : Target} {e : Endian} {μ : Mode}

theorem good_lenBind {α : Type} {V : α → Prop} {h : Host} (hh : h.Ok) (e : Endian) {l : Lim} {lr : LenR}
    (hl : μ.np = true → l.admits h lr) {f : Option Nat → M α}
    (hs : ∀ n, (μ.np = true → n ≤ l.bound) → Good μ 0 V (f (some n)))
    (hn : (μ.np = true → l.rest = true) → Good μ 0 V (f none)) :
    Good μ lr.low V (M.bind (readLenR h e lr) f) := by
  cases lr with
  | typed lt d =>
    have h1 : ∀ x : Option Nat, (∃ n, x = some n ∧ n ≤ lt.cap h) → Good μ 0 V (f x) := by
      rintro x ⟨n, rfl, hn⟩
      exact hs n fun hnp => Nat.le_trans hn (hl hnp)
    cases d with
    | false => exact good_bind (n := 0) (good_map (good_readLen hh e lt) fun n hn => ⟨n, rfl, hn⟩) h1
    | true =>
      exact good_bind (n := 0) (good_map (good_onEof (good_readLen hh e lt) (Nat.zero_le _)) fun n hn => ⟨n, rfl, hn⟩) h1
  | fixed n => exact hs n hl
  | untilEof => exact hn hl

theorem good_readTag (h : Host) (e : Endian) (d : EnumDesc) :
    Good μ (if d.peek then 0 else d.tagTy.minSize) (fun _ => True) (readTag h e d) := by
  obtain ⟨lt, pk⟩ := d
  cases pk
  · cases lt
    case varint => exact (good_readVarint h e).weaken (Nat.le_refl _) fun _ _ => trivial
    all_goals exact (good_readNum h e _).weaken (Nat.le_refl _) fun _ _ => trivial
  · cases lt
    case varint => exact (good_peekVarint h e).weaken (Nat.le_refl _) fun _ _ => trivial
    all_goals exact (good_peekNum h e _).weaken (Nat.le_refl _) fun _ _ => trivial

theorem Attrs.lim_admits {a : Attrs} (h : Host) (prev : List Val) : (a.lim h).admits h (a.cx h prev).len := by
  unfold Attrs.lim Attrs.cx Attrs.wcx
  by_cases ho : a.opaqueTy = true
  · simp only [ho, if_true]; exact Nat.le_refl _
  · simp only [ho]
    rcases hl : a.len with _ | k
    · exact Nat.le_refl _
    · cases k with
      | typed lt => exact Nat.le_refl _
      | expr f => exact Nat.le_of_lt_succ (Nat.mod_lt _ (Nat.succ_pos _))
      | untilEof => rfl

theorem Lim.admits_opt {h : Host} {l : Lim} {cx : Cx} (hl : l.admits h cx.len) (t : Ty) :
    (l.opt h t).admits h (cx.opt t).len := by
  unfold Lim.opt Cx.opt
  split
  · exact Nat.le_refl _
  · rename_i hne
    split
    · rename_i s; exact absurd rfl (hne s)
    · exact hl

theorem capOk_spec {exact : Bool} {B bound : Nat} {t : Ty} (h : capOk T exact B bound t = true) {n : Nat}
    (hn : n ≤ bound) (hx : exact = true → minBytes T t * n ≤ B) : n * sizeOf T t ≤ T.isizeMax := by
  simp only [capOk, Bool.or_eq_true, Bool.and_eq_true, decide_eq_true_eq] at h
  rcases h with h | ⟨⟨h1, h2⟩, h3⟩
  · exact Nat.le_trans (Nat.mul_le_mul_right _ hn) h
  · refine Nat.le_trans (Nat.mul_le_mul_right _ ?_) h3
    refine Nat.le_trans ?_ (hx h1)
    exact Nat.le_mul_of_pos_left n (by omega)

theorem elemGood {t : Ty} (hl : layoutOk T t = true)
    (hr : Good μ (minBytes T t) (Valid T t) (decode T e t Cx.std)) :
    ElemGood μ T.toHost e (Valid T t) (elemOf T t (decode T e t Cx.std)) where
  read := hr
  mem hp m hm := ofMem_valid t m (prim_raw t hp) hl (by rintro p rfl; exact hm)
  flip hp m m' hm hf := ofMem_valid t m' (prim_raw t hp) hl (by
    rintro p rfl
    replace hf : convMem T (.prim p) m = .ok m' := hf
    rw [convMem_prim_length (T := T) hf]; exact hm)

theorem u8Good : ElemGood μ T.toHost e (Valid T (.prim .u8)) (u8Elem T e) where
  read := good_map (good_readNum T.toHost e 1) fun n hn => by simpa [Valid, Prim.size] using hn
  mem _ m hm := ofMem_valid _ m rfl rfl (by rintro p h; cases h; exact hm)
  flip _ m m' hm hf := ofMem_valid _ m' rfl rfl (by
    rintro p h; cases h
    replace hf : convMem T (.prim .u8) m = .ok m' := hf
    rw [convMem_prim_length (T := T) hf]; exact hm)

theorem u8Flip (m : Bytes) : ∃ m', (u8Elem T e).flip m = .ok m' := ⟨m.reverse, rfl⟩

theorem convs_flip {t : Ty} {rd : M Val} (hl : layoutOk T t = true) (h : convs T e t = true)
    (hp : isPrimitive T t = true) (hc : e.conv T.toHost = true) (m : Bytes) (hm : m.length = sizeOf T t) :
    ∃ m', (elemOf T t rd).flip m = .ok m' := by
  simp only [convs, hp, hc, Bool.not_true, Bool.false_or] at h
  obtain ⟨m', h1, _⟩ := convMem_eq t m hp hl h hm
  exact ⟨m', h1⟩

theorem good_readStr (hT : T.Ok) (k : StrKind) {l : Lim}
    (hnp : μ.np = true → μ.B ≤ T.isizeMax ∧ μ.B < T.fuel ∧ μ.uses = true)
    (hc : μ.np = true → calm T e μ.exact μ.B l (.str k) = true) :
    (∀ n, (μ.np = true → n ≤ l.bound) → Good μ 0 (Valid T (.str k)) (readStr T e k (some n))) ∧
    Good μ 0 (Valid T (.str k)) (readStr T e k none) := by
  have hcap : k ≠ .ref → ∀ n, (μ.np = true → n ≤ l.bound) → μ.np = true → (μ.exact = true → 1 * n ≤ μ.B) →
      n * 1 ≤ T.isizeMax := by
    intro hk n hn h hx
    have h1 := hc h
    have : capOk T μ.exact μ.B l.bound (.prim .u8) = true := by
      cases k <;> simp_all [calm]
    have := capOk_spec this (hn h) (by intro hex; have := hx hex; simpa [minBytes, Prim.size] using this)
    simpa [sizeOf, Prim.size] using this
  have heof : k ≠ .ref → Good μ 0 (Valid T (.str k))
      (M.bind (readUntilEof T.fuel (u8Elem T e).read) fun vs => asStr (toBytes vs)) := fun hk => by
    refine good_bind (m := 0) (n := 0) (V := fun vs => ∀ v ∈ vs, Valid T (.prim .u8) v) ?_ fun vs _ => good_asStr _
    exact fun r hr => good_readUntilEof u8Good.read (fun h => ⟨(hnp h).2.2, Nat.zero_lt_one⟩) T.fuel r hr fun h => by
      have := hnp h; omega
  constructor
  · intro n hn
    cases k with
    | owned =>
      exact good_bind (n := 0) (good_readVec u8Good n (fun h => by cases h) (fun _ _ _ m _ => u8Flip m)
        (hcap (by simp) n hn)) fun _ _ => good_asStr _
    | cow =>
      refine good_bind (n := 0) (good_readCow hT.toOk u8Good n (fun h => by cases h) (fun _ _ _ m _ => u8Flip m)
        (hcap (by simp) n hn) (fun _ _ => Nat.le_refl _) fun h _ => ⟨Nat.one_ne_zero, ?_, (hnp h).1⟩) fun _ _ => good_asStr _
      have h1 := hc h
      simp only [calm, Bool.and_eq_true, decide_eq_true_eq] at h1
      have := hn h
      show n * 1 ≤ _
      omega
    | ref =>
      exact (good_bind (n := 0) (good_borrowBytes n) fun _ _ => good_asStr _).low (Nat.zero_le _)
  · cases k with
    | owned => exact heof (by simp)
    | cow => exact heof (by simp)
    | ref => exact good_bind (n := 0) good_borrowRest fun _ _ => good_asStr _

theorem good_readConstant (c : Bytes) (hc : μ.np = true → c.length ≤ T.isizeMax) :
    Good μ c.length (fun _ => True) (readConstant T.toHost e (u8Elem T e) c) := by
  intro r hr
  refine ⟨fun hn a bs hb => ?_, fun er r' he' hr' => ⟨hr', fun _ => he'⟩, ?_⟩
  · simp only
    split
    · exact ⟨by omega, fun _ => by omega, trivial⟩
    · exact ⟨by omega, fun _ => rfl⟩
  · simp only
    have h8 : Good μ c.length (fun vs : List Val => vs.length = c.length ∧ ∀ v ∈ vs, Valid T (.prim .u8) v)
        (readVec T.toHost e (u8Elem T e) c.length) :=
      (good_readVec' u8Good c.length (fun h => by cases h) (fun _ _ _ m _ => u8Flip m) fun h _ => by
        have := hc h
        show c.length * 1 ≤ _
        omega).low (by show c.length ≤ c.length * 1; omega)
    exact good_bind (n := 0) h8 (fun data hd => good_ite (fun _ => good_pure trivial) fun _ => good_fail fun _ => rfl) r hr

variable (hT : T.Ok) (hnp : μ.np = true → μ.B ≤ T.isizeMax ∧ μ.B < T.fuel ∧ μ.uses = true)
include hT hnp

omit hT hnp in
/-- The standard context. -/
theorem std_admits (h : Host) : (Lim.std h).admits h Cx.std.len := Nat.le_refl _

mutual
/-- Reading a value by any reader: bytes used, validity of the value, memory reserved, no panic. -/
theorem decode_good : ∀ (t : Ty) (cx : Cx) (l : Lim), layoutOk T t = true → declOk t = true → sane T t →
    (μ.uses = true → minOk T t = true) →
    (μ.np = true → calm T e μ.exact μ.B l t = true ∧ l.admits T.toHost cx.len) →
    Good μ (lowAt T t cx.len) (Valid T t) (decode T e t cx)
  | .prim p, _, _, _, _, _, _, _ => by
    unfold decode; exact good_map (good_readNum _ _ _) fun n hn => by simp only [Valid]; exact hn
  | .usize, _, _, _, _, _, _, _ => by
    unfold decode
    exact good_bind (n := 0) (good_readNum _ _ _) fun n _ => good_ite (fun _ => good_fail fun _ => rfl) fun h =>
      good_pure (by simp only [Valid]; omega)
  | .bool, _, _, _, _, _, _, _ => by unfold decode; exact good_map (good_readBool _ _) fun _ _ => by simp [Valid]
  | .char, _, _, _, _, _, _, _ => by
    unfold decode
    exact good_bind (n := 0) (good_readNum _ _ _) fun n _ => good_ite (fun h => good_pure (by simpa only [Valid] using h))
      fun _ => good_fail fun _ => rfl
  | .nonZero p, _, _, _, _, _, _, _ => by
    unfold decode
    exact good_bind (n := 0) (good_readNum _ _ _) fun n hn => good_ite (fun _ => good_fail fun _ => rfl) fun h =>
      good_pure (by simp only [Valid]; exact ⟨hn, h⟩)
  | .atomic p, _, _, _, _, _, _, _ => by
    unfold decode; exact good_map (good_readNum _ _ _) fun n hn => by simp only [Valid]; exact hn
  | .ipv4, _, _, _, _, _, _, _ => by
    unfold decode; exact good_map (good_readNum _ _ _) fun n hn => by simp only [Valid]; exact hn
  | .ipv6, _, _, _, _, _, _, _ => by
    unfold decode
    exact (good_readIpv6 _ _).weaken (Nat.le_refl _) fun v ⟨bs, hv, hb⟩ => by subst hv; simpa only [Valid] using hb
  | .ipAddr, _, _, _, _, _, _, _ => by
    unfold decode
    exact good_bind (n := 4) (good_readNum _ e 1) fun _ _ => good_ite
      (fun _ => good_map (good_readNum _ _ _) fun n hn => by simpa only [Valid] using hn) fun _ => good_ite
      (fun _ => (good_map (good_readIpv6 _ _) fun v ⟨bs, hv, hb⟩ => by subst hv; simpa only [Valid] using hb).low
        (by omega)) fun _ => good_fail fun _ => rfl
  | .duration, _, _, _, _, _, _, hc => by
    unfold decode
    have hn : μ.np = false := by
      cases h : μ.np with
      | false => rfl
      | true => have := (hc h).1; simp [calm] at this
    exact good_map (good_readDuration _ _ hn) fun d hd => by simpa only [Valid] using hd
  | .systemTime, _, _, _, _, _, _, hc => by
    unfold decode
    have hn : μ.np = false := by
      cases h : μ.np with
      | false => rfl
      | true => have := (hc h).1; simp [calm] at this
    exact good_bind (n := 0) (good_readDuration _ _ hn) fun d hd => good_ite
      (fun h => good_pure (by simp only [Valid]; exact ⟨h, hd.2⟩)) fun _ => good_fail fun _ => rfl
  | .endianness, _, _, _, _, _, _, _ => by
    unfold decode
    exact good_bind (n := 0) (good_readNum _ _ _) fun _ _ => good_ite (fun _ => good_pure (by simp [Valid])) fun _ =>
      good_ite (fun _ => good_pure (by simp [Valid])) fun _ => good_fail fun _ => rfl
  | .varint64, _, _, _, _, _, _, _ => by
    unfold decode; exact good_map (good_readVarint _ _) fun n hn => by simpa only [Valid] using hn
  | .uuid, _, _, _, _, _, _, _ => by
    unfold decode; exact good_map (good_readBytes _) fun n hn => by simp only [Valid]; exact hn
  | .str k, cx, l, _, _, _, _, hc => by
    have := good_readStr (e := e) (l := l) hT k hnp fun h => (hc h).1
    unfold decode
    exact good_lenBind hT.toOk e (fun h => (hc h).2) this.1 fun _ => this.2
  | .seq k t, cx, l, hlay, hd, hs, hm, hc => by
    simp only [layoutOk] at hlay
    simp only [declOk] at hd
    have hs' : (k = .ref → raw t = true) ∧
        (k ≠ .ref → isPrimitive T t = true ∨ sizeOf T t ≠ 0 ∨ inhab t = true) ∧ sane T t := by
      cases k <;> simp only [sane] at hs <;> simp [hs]
    have hm' : μ.uses = true → (k = .cow → isPrimitive T t = true → bulkPlain t = true) ∧ minOk T t = true := by
      intro h
      have := hm h
      cases k <;> simp only [minOk, Bool.and_eq_true, Bool.or_eq_true, Bool.not_eq_true'] at this <;> simp [this]
      rintro hp
      rcases this.1 with h1 | h1
      · rw [hp] at h1; cases h1
      · exact h1
    have ih : Good μ (minBytes T t) (Valid T t) (decode T e t Cx.std) := by
      rw [← lowAt_std]
      refine decode_good t Cx.std (Lim.std T.toHost) hlay hd hs'.2.2 (fun h => (hm' h).2) fun h => ⟨?_, std_admits _⟩
      have := (hc h).1
      simp only [calm, Bool.and_eq_true] at this
      exact this.2
    have el := elemGood hlay ih
    have hz : k ≠ .ref → (elemOf T t (decode T e t Cx.std)).prim = false →
        (elemOf T t (decode T e t Cx.std)).size = 0 → Valid T t (elemOf T t (decode T e t Cx.std)).zst := by
      intro hk hp hsz
      rcases hs'.2.1 hk with h | h | h
      · exact absurd (h.symm.trans hp) (by simp)
      · exact absurd hsz h
      · exact zst_valid hT t (sizeOf_zst hT hsz) hlay h
    have huntil : (k ≠ .ref → (μ.np = true → minBytes T t ≠ 0) → Good μ 0 (Valid T (.seq k t))
        (M.map .list (readUntilEof T.fuel (decode T e t Cx.std)))) := by
      intro hk h0
      refine good_map (V := fun vs => ∀ v ∈ vs, Valid T t v) ?_ fun vs hvs => by simpa only [Valid] using hvs
      exact fun r hr => good_readUntilEof ih (fun h => ⟨(hnp h).2.2, Nat.pos_of_ne_zero (h0 h)⟩) T.fuel r hr
        fun h => by have := hnp h; omega
    unfold decode
    refine good_ite (fun _ => good_fail fun _ => rfl) fun _ => ?_
    refine good_lenBind hT.toOk e (fun h => (hc h).2) (fun n hn => ?_) fun hrest => ?_
    · cases k with
      | vec =>
        refine good_map (good_readVec el n (hz (by simp)) (fun h hp hcv m hm => ?_) fun h hx => ?_)
          fun vs hvs => by simpa only [Valid] using hvs.2
        · have := (hc h).1
          simp only [calm, Bool.and_eq_true] at this
          exact convs_flip hlay this.1.1.1 hp hcv m hm
        · have := (hc h).1
          simp only [calm, Bool.and_eq_true] at this
          exact capOk_spec this.1.1.2 (hn h) hx
      | cow =>
        refine good_map (good_readCow hT.toOk el n (hz (by simp)) (fun h hp hcv m hm => ?_) (fun h hx => ?_)
          (fun hu hp => ?_) fun h hp => ?_) fun vs hvs => by simpa only [Valid] using hvs
        · have := (hc h).1
          simp only [calm, Bool.and_eq_true] at this
          exact convs_flip hlay this.1.1.1.1 hp hcv m hm
        · have := (hc h).1
          simp only [calm, Bool.and_eq_true] at this
          exact capOk_spec this.1.1.1.2 (hn h) hx
        · exact Nat.le_of_eq (minBytes_prim t hp hlay ((hm' hu).1 rfl hp))
        · have h1 := (hc h).1
          have hp' : isPrimitive T t = true := hp
          simp only [calm, Bool.and_eq_true, Bool.or_eq_true, Bool.not_eq_true', decide_eq_true_eq, hp', Bool.true_eq_false,
            false_or] at h1
          exact ⟨h1.1.2.1, Nat.le_trans (Nat.mul_le_mul_right _ (hn h)) h1.1.2.2, (hnp h).1⟩
      | ref =>
        refine good_map (V := fun r : Nat × List Val => ∀ v ∈ r.2, Valid T t v) ?_ fun r hr => by
          simpa only [Valid] using hr
        unfold readRefSlice
        refine good_ite (fun _ => good_fail fun _ => rfl) fun _ => ?_
        refine (good_bind (n := 0) (good_borrowBytes _) fun r hr => good_pure fun v hv => ?_).low (Nat.zero_le _)
        obtain ⟨m, h3, rfl⟩ := List.mem_map.mp hv
        exact ofMem_valid t m (hs'.1 rfl) hlay (by rintro p rfl; exact chunks_le m h3)
    · cases k with
      | vec =>
        refine huntil (by simp) fun h => ?_
        have := (hc h).1
        simp only [calm, Bool.and_eq_true, Bool.or_eq_true, Bool.not_eq_true', decide_eq_true_eq, hrest h,
          Bool.true_eq_false, false_or] at this
        exact this.1.2
      | cow =>
        refine huntil (by simp) fun h => ?_
        have := (hc h).1
        simp only [calm, Bool.and_eq_true, Bool.or_eq_true, Bool.not_eq_true', decide_eq_true_eq, hrest h,
          Bool.true_eq_false, false_or] at this
        exact this.1.1.2
      | ref =>
        refine good_map (V := fun r : Nat × List Val => ∀ v ∈ r.2, Valid T t v) ?_ fun r hr => by
          simpa only [Valid] using hr
        unfold readRefSliceRest
        refine good_bind (n := 0) good_borrowRest fun r _ => good_ite (fun h0 => good_fail fun h => ?_) fun _ =>
          good_pure fun v hv => ?_
        · have := (hc h).1
          simp only [calm, Bool.and_eq_true, Bool.or_eq_true, Bool.not_eq_true', decide_eq_true_eq, hrest h,
            Bool.true_eq_false, false_or] at this
          exact absurd h0 this.1
        · obtain ⟨m, h3, rfl⟩ := List.mem_map.mp hv
          exact ofMem_valid t m (hs'.1 rfl) hlay (by rintro p rfl; exact chunks_le m h3)
  | .set t, cx, l, hlay, hd, hs, hm, hc => by
    simp only [layoutOk] at hlay
    simp only [declOk] at hd
    simp only [sane] at hs
    simp only [minOk] at hm
    have hc' : μ.np = true → (isPrimitive T t = true → sizeOf T t ≠ 0) ∧ (l.rest = true → minBytes T t ≠ 0) ∧
        calm T e μ.exact μ.B (Lim.std T.toHost) t = true := by
      intro h
      have := (hc h).1
      simp only [calm, Bool.and_eq_true, Bool.or_eq_true, Bool.not_eq_true', decide_eq_true_eq] at this
      exact ⟨fun hp => this.1.1.resolve_left (by simp [hp]), fun hp => this.1.2.resolve_left (by simp [hp]), this.2⟩
    have ih : Good μ (minBytes T t) (Valid T t) (decode T e t Cx.std) := by
      rw [← lowAt_std]
      exact decode_good t Cx.std (Lim.std T.toHost) hlay hd hs hm fun h => ⟨(hc' h).2.2, std_admits _⟩
    have hset : ∀ vs : List Val, (∀ v ∈ vs, Valid T t v) → Valid T (.set t) (.list (setOf vs)) := fun vs hvs => by
      simp only [Valid]
      exact ⟨fun v hv => hvs v ((setOf_spec vs).2 v hv), (setOf_spec vs).1⟩
    unfold decode
    refine good_lenBind hT.toOk e (fun h => (hc h).2) (fun n hn => ?_) fun hrest => ?_
    · exact good_map (good_readCollection (elemGood hlay ih) n fun h => (hc' h).1) hset
    · refine good_map (V := fun vs => ∀ v ∈ vs, Valid T t v) ?_ hset
      exact fun r hr => good_readUntilEof ih (fun h => ⟨(hnp h).2.2, Nat.pos_of_ne_zero ((hc' h).2.1 (hrest h))⟩)
        T.fuel r hr fun h => by have := hnp h; omega
  | .map k v, cx, l, hlay, hd, hs, hm, hc => by
    simp only [layoutOk, Bool.and_eq_true] at hlay
    simp only [declOk, Bool.and_eq_true] at hd
    simp only [sane] at hs
    simp only [minOk, Bool.and_eq_true] at hm
    have hc' : μ.np = true → (isPrimitive T k = true → isPrimitive T v = true → sizeOf T k + sizeOf T v ≠ 0) ∧
        (l.rest = true → minBytes T k + minBytes T v ≠ 0) ∧
        calm T e μ.exact μ.B (Lim.std T.toHost) k = true ∧ calm T e μ.exact μ.B (Lim.std T.toHost) v = true := by
      intro h
      have := (hc h).1
      simp only [calm, Bool.and_eq_true, Bool.or_eq_true, Bool.not_eq_true', decide_eq_true_eq] at this
      exact ⟨fun hp hq => this.1.1.1.resolve_left (by simp [hp, hq]),
        fun hp => this.1.1.2.resolve_left (by simp [hp]), this.1.2, this.2⟩
    have ihk : Good μ (minBytes T k) (Valid T k) (decode T e k Cx.std) := by
      rw [← lowAt_std]
      exact decode_good k Cx.std (Lim.std T.toHost) hlay.1 hd.1 hs.1 (fun h => (hm h).1) fun h =>
        ⟨(hc' h).2.2.1, std_admits _⟩
    have ihv : Good μ (minBytes T v) (Valid T v) (decode T e v Cx.std) := by
      rw [← lowAt_std]
      exact decode_good v Cx.std (Lim.std T.toHost) hlay.2 hd.2 hs.2 (fun h => (hm h).2) fun h =>
        ⟨(hc' h).2.2.2, std_admits _⟩
    have ek := elemGood hlay.1 ihk
    have ev := elemGood hlay.2 ihv
    have hmap : ∀ vs : List Val, (∀ x ∈ vs, isEntry (Valid T k) (Valid T v) x) →
        Valid T (.map k v) (.list (mapOf vs)) := fun vs hvs => by
      have := mapOf_spec (P := fun a b => ∃ c, b = .pair c .unit ∧ Valid T k a ∧ Valid T v c) (vs := vs) fun x hx => by
        obtain ⟨a, b, h1, h2, h3⟩ := hvs x hx
        exact ⟨a, _, h1, b, rfl, h2, h3⟩
      simp only [Valid]
      refine ⟨fun x hx => ?_, this.1⟩
      obtain ⟨a, b, h1, c, h2, h3⟩ := this.2 x hx
      exact ⟨a, c, by rw [h1, h2], h3⟩
    unfold decode
    refine good_lenBind hT.toOk e (fun h => (hc h).2) (fun n hn => ?_) fun hrest => ?_
    · exact good_map (good_readKV ek ev n fun h => (hc' h).1) hmap
    · refine good_map (V := fun vs => ∀ x ∈ vs, isEntry (Valid T k) (Valid T v) x) ?_ hmap
      exact fun r hr => good_readUntilEof (good_readPair ek ev)
        (fun h => ⟨(hnp h).2.2, Nat.pos_of_ne_zero ((hc' h).2.1 (hrest h))⟩)
        T.fuel r hr fun h => by have := hnp h; omega
  | .array n t, cx, l, hlay, hd, hs, hm, hc => by
    simp only [layoutOk] at hlay
    simp only [declOk] at hd
    simp only [sane] at hs
    simp only [minOk, Bool.and_eq_true, Bool.or_eq_true, Bool.not_eq_true'] at hm
    have hc' : μ.np = true → convs T e t = true ∧ calm T e μ.exact μ.B (Lim.std T.toHost) t = true := by
      intro h
      have := (hc h).1
      simp only [calm, Bool.and_eq_true] at this
      exact this
    have ih : Good μ (minBytes T t) (Valid T t) (decode T e t Cx.std) := by
      rw [← lowAt_std]
      exact decode_good t Cx.std (Lim.std T.toHost) hlay hd hs (fun h => (hm h).2) fun h => ⟨(hc' h).2, std_admits _⟩
    have hval : ∀ vs : List Val, (vs.length = n ∧ ∀ v ∈ vs, Valid T t v) → Valid T (.array n t) (.list vs) :=
      fun vs hvs => by simpa only [Valid] using hvs
    have hlow : lowAt T (.array n t) cx.len = minBytes T t * n := rfl
    unfold decode
    rw [hlow]
    refine good_ite (fun hp => ?_) fun _ => good_map (good_repeatM ih n) hval
    simp only [Bool.and_eq_true] at hp
    have hp' : isPrimitive T t = true := hp.2
    refine (good_bind (n := 0) (good_readBytes _) fun mem hmem => good_map
      (good_bulk (elemGood hlay ih) hp.2 n mem (fun h hcv m hm => convs_flip hlay (hc' h).1 hp' hcv m hm) hmem)
      hval).low' fun hu => ?_
    rw [minBytes_prim t hp' hlay ((hm hu).1.resolve_left (by simp [hp'])), Nat.mul_comm]
    exact Nat.le_refl _
  | .refArray n t, cx, l, hlay, hd, hs, hm, hc => by
    simp only [layoutOk] at hlay
    simp only [sane] at hs
    unfold decode
    refine good_ite (fun _ => good_fail fun _ => rfl) fun _ => ?_
    refine good_map (good_borrowBytes _) fun r hr => ?_
    simp only [Valid]
    refine ⟨by rw [List.length_map, chunks_length], fun v hv => ?_⟩
    obtain ⟨m, h3, rfl⟩ := List.mem_map.mp hv
    exact ofMem_valid t m hs hlay (by rintro p rfl; exact chunks_le m h3)
  | .option t, cx, l, hlay, hd, hs, hm, hc => by
    simp only [layoutOk] at hlay
    simp only [declOk] at hd
    simp only [sane] at hs
    simp only [minOk] at hm
    have ih : Good μ (lowAt T t (cx.opt t).len) (Valid T t) (decode T e t (cx.opt t)) := by
      refine decode_good t (cx.opt t) (l.opt T.toHost t) hlay hd hs hm fun h => ⟨?_, Lim.admits_opt (hc h).2 t⟩
      have := (hc h).1
      simpa only [calm] using this
    unfold decode
    exact good_bind (n := 0) (good_readBool _ _) fun _ _ => good_ite
      (fun _ => (good_map ih fun v hv => by simpa only [Valid] using hv).low (Nat.zero_le _)) fun _ =>
      good_pure (by simp [Valid])
  | .result a b, cx, l, hlay, hd, hs, hm, hc => by
    simp only [layoutOk, Bool.and_eq_true] at hlay
    simp only [declOk, Bool.and_eq_true] at hd
    simp only [sane] at hs
    simp only [minOk, Bool.and_eq_true] at hm
    simp only [calm, Bool.and_eq_true] at hc
    have ih1 := decode_good a Cx.std (Lim.std T.toHost) hlay.1 hd.1 hs.1 (fun h => (hm h).1) fun h =>
        ⟨(hc h).1.1, std_admits _⟩
    have ih2 := decode_good b Cx.std (Lim.std T.toHost) hlay.2 hd.2 hs.2 (fun h => (hm h).2) fun h =>
        ⟨(hc h).1.2, std_admits _⟩
    unfold decode
    exact good_bind (n := 0) (good_readBool _ _) fun _ _ => good_ite
      (fun _ => (good_map ih1 fun v hv => by simpa only [Valid] using hv).low (Nat.zero_le _)) fun _ =>
      (good_map ih2 fun v hv => by simpa only [Valid] using hv).low (Nat.zero_le _)
  | .range t, cx, l, hlay, hd, hs, hm, hc => by
    simp only [layoutOk] at hlay
    simp only [declOk] at hd
    simp only [sane] at hs
    simp only [minOk] at hm
    simp only [calm] at hc
    have ih : Good μ (minBytes T t) (Valid T t) (decode T e t Cx.std) := by
      rw [← lowAt_std]
      exact decode_good t Cx.std (Lim.std T.toHost) hlay hd hs hm fun h => ⟨(hc h).1, std_admits _⟩
    unfold decode
    exact (good_bind ih fun a ha => good_bind (n := 0) ih fun b hb => good_pure (by
      simp only [Valid]; exact ⟨ha, hb⟩)).low (by simp [lowAt, Ty.isContainer, minBytes]; omega)
  | .rangeInc t, cx, l, hlay, hd, hs, hm, hc => by
    simp only [layoutOk] at hlay
    simp only [declOk] at hd
    simp only [sane] at hs
    simp only [minOk] at hm
    simp only [calm] at hc
    have ih : Good μ (minBytes T t) (Valid T t) (decode T e t Cx.std) := by
      rw [← lowAt_std]
      exact decode_good t Cx.std (Lim.std T.toHost) hlay hd hs hm fun h => ⟨(hc h).1, std_admits _⟩
    unfold decode
    exact (good_bind ih fun a ha => good_bind (n := 0) ih fun b hb => good_pure (by
      simp only [Valid]; exact ⟨ha, hb⟩)).low (by simp [lowAt, Ty.isContainer, minBytes]; omega)
  | .unit, _, _, _, _, _, _, _ => by unfold decode; exact good_pure (by simp [Valid])
  | .pair a b, cx, l, hlay, hd, hs, hm, hc => by
    simp only [layoutOk, Bool.and_eq_true] at hlay
    simp only [declOk, Bool.and_eq_true] at hd
    simp only [sane] at hs
    simp only [minOk, Bool.and_eq_true] at hm
    simp only [calm, Bool.and_eq_true] at hc
    have ih1 : Good μ (minBytes T a) (Valid T a) (decode T e a Cx.std) := by
      rw [← lowAt_std]
      exact decode_good a Cx.std (Lim.std T.toHost) hlay.1 hd.1 hs.1 (fun h => (hm h).1) fun h =>
        ⟨(hc h).1.1, std_admits _⟩
    have ih2 : Good μ (minBytes T b) (Valid T b) (decode T e b Cx.std) := by
      rw [← lowAt_std]
      exact decode_good b Cx.std (Lim.std T.toHost) hlay.2 hd.2 hs.2 (fun h => (hm h).2) fun h =>
        ⟨(hc h).1.2, std_admits _⟩
    unfold decode
    exact good_bind ih1 fun x hx => good_bind (n := 0) ih2 fun y hy => good_pure (by
      simp only [Valid]; exact ⟨hx, hy⟩)
  | .box t, cx, l, hlay, hd, hs, hm, hc => by
    simp only [layoutOk] at hlay
    simp only [declOk] at hd
    simp only [sane] at hs
    simp only [minOk] at hm
    simp only [calm] at hc
    have ih : Good μ (minBytes T t) (Valid T t) (decode T e t Cx.std) := by
      rw [← lowAt_std]
      exact decode_good t Cx.std (Lim.std T.toHost) hlay hd hs hm fun h => ⟨(hc h).1, std_admits _⟩
    unfold decode
    exact ih.weaken (Nat.le_refl _) fun v hv => by simpa only [Valid] using hv
  | .via c t, cx, l, hlay, hd, hs, hm, hc => by
    simp only [layoutOk] at hlay
    simp only [declOk] at hd
    simp only [sane] at hs
    simp only [minOk] at hm
    simp only [calm, Bool.and_eq_true] at hc
    have ih : Good μ (minBytes T t) (Valid T t) (decode T e t Cx.std) := by
      rw [← lowAt_std]
      exact decode_good t Cx.std (Lim.std T.toHost) hlay hd hs hm fun h => ⟨(hc h).1.2, std_admits _⟩
    unfold decode
    exact good_bind (n := 0) ih fun v hv => (good_convert (fun h => (hc h).1.1) v).weaken (Nat.le_refl _) fun w hw => by
      simp only [Valid]; exact ⟨v, hv, hw⟩
  | .struct d fs, cx, l, hlay, hd, hs, hm, hc => by
    simp only [layoutOk, Bool.and_eq_true] at hlay
    simp only [declOk] at hd
    simp only [sane] at hs
    simp only [minOk] at hm
    simp only [calm] at hc
    unfold decode
    exact (decodeFields_good fs [] hlay.2 hd hs hm fun h => (hc h).1).weaken (Nat.le_refl _) fun v hv => by
      simpa only [Valid] using hv
  | .enum d vs, cx, l, hlay, hd, hs, hm, hc => by
    simp only [layoutOk] at hlay
    simp only [declOk, Bool.and_eq_true] at hd
    simp only [sane] at hs
    simp only [minOk] at hm
    simp only [calm] at hc
    unfold decode
    refine (good_bind (n := if d.peek then d.tagTy.minSize else 0) (good_readTag _ _ d) fun tag _ =>
      decodeVariants_good d vs vs tag 0 (fun i v h => by simpa using h) hlay hd.2 hs hm fun h => (hc h).1).weaken
      ?_ fun v hv => ?_
    · simp only [lowAt, Ty.isContainer, minBytes]
      cases d.peek <;> simp
    · obtain ⟨i, w, rfl, hw⟩ := hv
      simpa only [Valid] using hw
/-- Fields. -/
theorem decodeFields_good : ∀ (fs : Fields) (prev : List Val), layoutOkFields T fs = true → declOkFields fs = true →
    saneFields T fs → (μ.uses = true → minOkFields T fs = true) →
    (μ.np = true → calmFields T e μ.exact μ.B fs = true) →
    Good μ (fieldsMin T fs) (ValidFields T fs) (decodeFields T e fs prev)
  | .nil, _, _, _, _, _, _ => by unfold decodeFields; exact good_pure (by simp [ValidFields])
  | .cons a t fs, prev, hlay, hd, hs, hm, hc => by
    simp only [layoutOkFields, Bool.and_eq_true] at hlay
    simp only [declOkFields, Bool.and_eq_true] at hd
    simp only [saneFields] at hs
    simp only [minOkFields, Bool.and_eq_true] at hm
    simp only [calmFields, Bool.and_eq_true, Bool.or_eq_true, decide_eq_true_eq] at hc
    have ihs : ∀ prev, Good μ (fieldsMin T fs) (ValidFields T fs) (decodeFields T e fs prev) := fun prev =>
      decodeFields_good fs prev hlay.2 hd.1.2 hs.2.2 (fun h => (hm h).2) fun h => (hc h).2
    unfold decodeFields
    by_cases hsk : a.skip = true
    · rw [if_pos hsk]
      have : fieldsMin T (.cons a t fs) = fieldsMin T fs := by simp [fieldsMin, hsk]
      rw [this]
      exact good_map (ihs _) fun v hv => by simp only [ValidFields]; exact ⟨hs.1 (.inl hsk), hv⟩
    · rw [if_neg hsk]
      have hs' : a.skip = false := by simpa using hsk
      refine Good.low ?_ (fieldsMin_low fs prev hd.1.1.1 hs')
      refine good_bind (V := Valid T t) ?_ fun v hv => good_map (ihs _) fun w hw => by
        simp only [ValidFields]; exact ⟨hv, hw⟩
      have hc' : μ.np = true → calm T e μ.exact μ.B (a.lim T.toHost) t = true ∧ a.pre.length ≤ T.isizeMax := fun h =>
        (hc h).1.resolve_left hsk
      have ih : Good μ (lowAt T t (a.cx T.toHost prev).len) (Valid T t) (decode T e t (a.cx T.toHost prev)) :=
        decode_good t _ (a.lim T.toHost) hlay.1 hd.1.1.2 hs.2.1 (fun h => (hm h).1) fun h =>
          ⟨(hc' h).1, Attrs.lim_admits _ _⟩
      have hbody : Good μ (if a.varint then 1 else lowAt T t (a.cx T.toHost prev).len) (Valid T t)
          (if a.varint = true then M.map .num (readVarint T.toHost e) else decode T e t (a.cx T.toHost prev)) := by
        by_cases hv : a.varint = true
        · simp only [hv, if_true]
          have ht : t = .prim .u64 := by
            have := hd.1.1.1
            simp only [Attrs.declOk, hv, Bool.and_eq_true, Bool.not_true, Bool.false_or] at this
            have := this.2
            split at this
            · rfl
            · cases this
          subst ht
          exact good_map (good_readVarint _ _) fun n hn => by simpa [Valid, Prim.size] using hn
        · simp only [hv, Bool.false_eq_true, if_false]; exact ih
      have hbody2 : Good μ (a.pre.length + if a.varint then 1 else lowAt T t (a.cx T.toHost prev).len) (Valid T t)
          (if a.pre.isEmpty = true then
            (if a.varint = true then M.map .num (readVarint T.toHost e) else decode T e t (a.cx T.toHost prev))
           else M.bind (readConstant T.toHost e (u8Elem T e) a.pre) fun _ =>
            (if a.varint = true then M.map .num (readVarint T.toHost e)
              else decode T e t (a.cx T.toHost prev))) := by
        by_cases hp : a.pre.isEmpty = true
        · rw [if_pos hp]
          have : a.pre.length = 0 := by simpa using hp
          rw [this, Nat.zero_add]
          exact hbody
        · rw [if_neg hp]
          exact good_bind (good_readConstant a.pre fun h => (hc' h).2) fun _ _ => hbody
      by_cases hde : a.defaultOnEof = true
      · simp only [hde, if_true]
        exact good_onEof hbody2 (hs.1 (.inr hde))
      · simp only [hde, if_false, Bool.false_eq_true]
        exact hbody2
/-- Variants: `vs0` are all of them, `vs` those from the `i`-th on. -/
theorem decodeVariants_good (d : EnumDesc) (vs0 : Variants) : ∀ (vs : Variants) (tag i : Nat),
    (∀ j v, ValidVariants T vs j v → ValidVariants T vs0 (i + j) v) → layoutOkVariants T vs = true →
    declOkVariants vs = true → saneVariants T vs → (μ.uses = true → minOkVariants T d vs = true) →
    (μ.np = true → calmVariants T e μ.exact μ.B vs = true) →
    Good μ (if d.peek then d.tagTy.minSize else 0) (fun v => ∃ i w, v = .variant i w ∧ ValidVariants T vs0 i w)
      (decodeVariants T e vs tag i)
  | .nil, _, _, _, _, _, _, _, _ => by unfold decodeVariants; exact good_fail fun _ => rfl
  | .cons tag' fs vs, tag, i, hsub, hlay, hd, hs, hm, hc => by
    simp only [layoutOkVariants, Bool.and_eq_true] at hlay
    simp only [declOkVariants, Bool.and_eq_true] at hd
    simp only [saneVariants] at hs
    simp only [minOkVariants, Bool.and_eq_true] at hm
    simp only [calmVariants, Bool.and_eq_true] at hc
    unfold decodeVariants
    refine good_ite (fun _ => ?_) fun _ => ?_
    · have := decodeFields_good fs [] hlay.1 hd.1 hs.1 (fun h => (hm h).1.2) fun h => (hc h).1
      refine (good_map this fun v hv => ⟨i, v, rfl, ?_⟩).low' fun hu => ?_
      · have := (hm hu).1.1
        cases hp : d.peek with
        | false => simp
        | true => simpa [hp] using this
      · have := hsub 0 v (by simpa only [ValidVariants] using hv)
        simpa using this
    · refine decodeVariants_good d vs0 vs tag (i + 1) (fun j v hv => ?_) hlay.2 hd.2 hs.2 (fun h => (hm h).2)
        fun h => (hc h).2
      have := hsub (j + 1) v (by simpa only [ValidVariants] using hv)
      rw [Nat.add_assoc, Nat.add_comm 1]
      exact this
end

end

end Verif
