import Verif.Debt

/-!
# C86: the memory of a value is proportional to the input
-/

namespace Verif

/-- **C86**: a value which has been read has on the heap at most `memPerByte t` bytes for every byte which has been consumed, and
`ownMem t`; both depend on the type only.

Full claim: for all types.  Missing: types with a loop of elements which may take no byte (`steady`), for which it is false
(`C86_false`). -/
theorem C86_memory_partial {T : Target} (hT : T.Ok) {e : Endian} {t : Ty} (hl : layoutOk T t = true) (ht : steady T false t = true)
    {σ : Type} {exact : Bool} {R : ReaderOps σ} {Inv : σ → Prop} {pend : σ → Bytes} (O : Orderly exact R Inv pend) {s s' : σ}
    (hs : Inv s) {v : Val} (h : (decode T e t Cx.std).run R s = (.ok v, s')) :
    heap T t v ≤ memPerByte T t * ((pend s).length - (pend s').length) + ownMem T t := by
  have h1 := O.callCount (c := 0) hs (decode_fills (e := e) hT t Cx.std false (fun h => by cases h) ht hl 0 (pend s).length)
  have h2 := h1.2 v (by rw [h])
  rw [h] at h2
  rw [Nat.mul_sub]
  simp only at h2
  omega

/-- **C86**, buffers and copies of buffers. -/
theorem C86_buffer_partial {T : Target} (hT : T.Ok) {e : Endian} {t : Ty} (hl : layoutOk T t = true) (ht : steady T false t = true)
    {base : Nat} {buf : Bytes} (htop : base + buf.length ≤ T.usizeMax) {R : ReaderOps BufSt}
    (hR : R = bufferReader T.toHost ∨ R = copyingReader T.toHost) {v : Val} {s' : BufSt}
    (h : (decode T e t Cx.std).run R (BufSt.init base buf) = (.ok v, s')) :
    heap T t v ≤ memPerByte T t * buf.length + ownMem T t := by
  have O : Orderly true R (BufAt T.toHost base buf) BufSt.pend := by
    rcases hR with rfl | rfl
    · exact (bufferReader_at _ _ _).orderly fun _ n s => by simp [bufferReader, bufCanRead]
    · exact (copyingReader_at _ _ _).orderly fun _ n s => by simp [copyingReader, bufCanRead]
  refine Nat.le_trans (C86_memory_partial hT hl ht O (BufAt.init htop) h) (Nat.add_le_add_right (Nat.mul_le_mul_left _ ?_) _)
  rw [BufSt.init_pend]
  exact Nat.sub_le _ _

/-- **C86**, streams, whatever they deliver. -/
theorem C86_stream_partial {T : Target} (hT : T.Ok) {e : Endian} {t : Ty} (hl : layoutOk T t = true) (ht : steady T false t = true)
    {grow : Nat → Nat} (hg : ∀ n, n ≤ grow n) (b : Bool) (src : Src) {v : Val} {s' : StreamSt}
    (h : (decode T e t Cx.std).run (streamReader grow) (StreamSt.init b src) = (.ok v, s')) :
    heap T t v ≤ memPerByte T t * src.data.length + ownMem T t := by
  refine Nat.le_trans (C86_memory_partial hT hl ht (streamReader_orderly hg) (CBuf.withCapacity_inv _) h)
    (Nat.add_le_add_right (Nat.mul_le_mul_left _ ?_) _)
  rw [StreamSt.init_pend]
  exact Nat.sub_le _ _

/-! ## A given rate, and recursive types -/

/-- **C86**, another bound, for any rate at which every element of a container pays for its place (`bears`): `a` bytes of memory for
every byte which has been consumed, and what the type owes at that rate. -/
theorem C86_rate_partial {T : Target} (hT : T.Ok) {a : Nat} (ha : 1 ≤ a) {e : Endian} {t : Ty} (hl : layoutOk T t = true)
    (ht : bears T a false t = true) {σ : Type} {exact : Bool} {R : ReaderOps σ} {Inv : σ → Prop} {pend : σ → Bytes}
    (O : Orderly exact R Inv pend) {s s' : σ} (hs : Inv s) {v : Val} (h : (decode T e t Cx.std).run R s = (.ok v, s')) :
    (heap T t v : Int) ≤ a * (((pend s).length - (pend s').length : Nat) : Int) + owed T a true t := by
  have h1 := O.callCount (c := 0) hs (decode_owes hT ha (e := e) t Cx.std true false (fun _ => rfl) (fun h => by cases h) ht hl 0
    (pend s).length)
  have h2 := h1.2 v (by rw [h])
  have h3 := h1.1
  rw [h] at h2 h3
  simp only at h2 h3
  have h4 : a * ((pend s).length - (pend s').length) + a * (pend s').length = a * (pend s).length := by
    rw [← Nat.mul_add, Nat.sub_add_cancel h3]
  rw [← Int.natCast_mul]
  omega

/-- What is required of templates, checked for two unrollings: their sizes do not depend on the depth, every element of a container
pays for its place, and the second unrolling does not owe more than the first. -/
structure Solvent (T : Target) (a : Nat) (c : EnumDesc → Ty) : Prop where
  blind : Blind T
  guarded : ∀ d, guarded (c d) = true
  layout : ∀ d, layoutOk T (unroll c 1 d) = true ∧ layoutOk T (unroll c 2 d) = true
  bears : ∀ d, bears T a false (unroll c 1 d) = true
  later : ∀ rest d, Verif.bears T a rest (unroll c 1 d) = true → Verif.bears T a rest (unroll c 2 d) = true
  owed : ∀ pfx d, owed T a pfx (unroll c 2 d) ≤ Verif.owed T a pfx (unroll c 1 d)

theorem guarded_solid {t : Ty} (h : guarded t = true) : t.solid = true := by
  unfold Ty.solid
  split
  · simp [guarded] at h
  · rfl

section
variable {T : Target} {a : Nat} {c : EnumDesc → Ty} (hc : Solvent T a c)
include hc

theorem Solvent.step : ∀ n, (∀ pfx d, Verif.owed T a pfx (unroll c (n + 2) d) ≤ Verif.owed T a pfx (unroll c (n + 1) d)) ∧
    ∀ rest d, Verif.bears T a rest (unroll c (n + 1) d) = true → Verif.bears T a rest (unroll c (n + 2) d) = true
  | 0 => ⟨hc.owed, hc.later⟩
  | n + 1 => by
    have ih := Solvent.step n
    have hi : ∀ d v, bare (unroll c (n + 1) d) v = bare (unroll c (n + 2) d) v := fun d v => by
      rw [unroll, unroll, bare_solid (guarded_solid (hc.guarded d)), bare_solid (guarded_solid (hc.guarded d))]
    exact ⟨fun pfx d => owed_fill hc.blind (unroll_shape hc.guarded n) ih.1 (c d) pfx,
      fun rest d => bears_fill hc.blind (unroll_shape hc.guarded n) ih.1 ih.2 hi (c d) rest⟩

theorem Solvent.unroll : ∀ n d, layoutOk T (unroll c (n + 1) d) = true ∧ Verif.bears T a false (unroll c (n + 1) d) = true ∧
    Verif.owed T a true (unroll c (n + 1) d) ≤ Verif.owed T a true (unroll c 1 d)
  | 0, d => ⟨(hc.layout d).1, hc.bears d, Int.le_refl _⟩
  | n + 1, d => by
    have ih := Solvent.unroll n
    refine ⟨?_, (hc.step n).2 false d (ih d).2.1, Int.le_trans ((hc.step n).1 true d) (ih d).2.2⟩
    cases n with
    | zero => exact (hc.layout d).2
    | succ n => exact layout_deeper hc.blind (unroll_shape hc.guarded n) (fun d => (ih d).1) (c d) (ih d).1

/-- **C86**, types which contain themselves or each other: the constants do not depend on how deep the values are nested. -/
theorem C86_recursive_partial (hT : T.Ok) (ha : 1 ≤ a) {e : Endian} {σ : Type} {exact : Bool} {R : ReaderOps σ}
    {Inv : σ → Prop} {pend : σ → Bytes} (O : Orderly exact R Inv pend) {s s' : σ} (hs : Inv s) (n : Nat) (d : EnumDesc) {v : Val}
    (h : (decode T e (Verif.unroll c (n + 1) d) Cx.std).run R s = (.ok v, s')) :
    (heap T (Verif.unroll c (n + 1) d) v : Int) ≤
      a * (((pend s).length - (pend s').length : Nat) : Int) + Verif.owed T a true (Verif.unroll c 1 d) := by
  have hu := hc.unroll n d
  have h1 := C86_rate_partial hT ha hu.1 hu.2.1 O hs h
  have h2 := hu.2.2
  omega

end

/-- The conditions for one type of a group. -/
def memberSolvent (T : Target) (a : Nat) (c : EnumDesc → Ty) (t : Ty) : Bool :=
  let t1 := fill (unroll c 0) t
  let t2 := fill (unroll c 1) t
  guarded t && layoutOk T t1 && layoutOk T t2 && bears T a false t1 && (!bears T a false t1 || bears T a false t2) &&
  (!bears T a true t1 || bears T a true t2) && decide (owed T a false t2 ≤ owed T a false t1) && decide (owed T a true t2 ≤ owed T a true t1)

theorem group_solvent {T : Target} {a : Nat} (hB : Blind T) {t : Ty} {ts : List Ty}
    (h : (t :: ts).all (memberSolvent T a (group t ts)) = true) : Solvent T a (group t ts) := by
  have key : ∀ d, memberSolvent T a (group t ts) (group t ts d) = true := fun d => List.all_eq_true.mp h _ (group_mem t ts d)
  simp only [memberSolvent, Bool.and_eq_true, decide_eq_true_eq] at key
  exact {
    blind := hB
    guarded := fun d => (key d).1.1.1.1.1.1.1
    layout := fun d => ⟨(key d).1.1.1.1.1.1.2, (key d).1.1.1.1.1.2⟩
    bears := fun d => (key d).1.1.1.1.2
    later := fun rest d h => by
      have h0 : ∀ {x y : Bool}, (!x || y) = true → x = true → y = true := by decide
      cases rest
      · exact h0 (key d).1.1.1.2 h
      · exact h0 (key d).1.1.2 h
    owed := fun pfx d => by
      cases pfx
      · exact (key d).1.2
      · exact (key d).2 }

/-! ## Where it fails -/

/-- **C86 is false for elements of which all fields are `default_on_eof`**: four bytes give a `Vec<Extra>` of 16 gibibytes, where
the type would allow 16 bytes. -/
theorem C86_false : ∃ v,
    layoutOk Samples.x64 extra = true ∧ declOk extra = true ∧
    ((decode Samples.x64 .little (.seq .vec extra) Cx.std).run (bufferReader Samples.x64.toHost)
      (BufSt.init 4096 [255, 255, 255, 255])).1 = .ok v ∧
    heap Samples.x64 (.seq .vec extra) v = 17179869180 ∧
    memPerByte Samples.x64 (.seq .vec extra) * 4 + ownMem Samples.x64 (.seq .vec extra) = 16 := by
  refine ⟨_, by decide, by decide, C65_false_default.2.2.2.2, ?_, by decide⟩
  simp only [heap, total_replicate]
  rfl

/-! ## Cases -/

section Cases
open Samples

/-- `Vec<Box<(String, Option<Vec<u16>>)>>` -/
def shelf : Ty := .seq .vec (.box (.pair (.str .owned) (.option (.seq .vec (.prim .u16)))))

def shelfBytes : Bytes := [2, 0, 0, 0, 1, 0, 0, 0, 65, 1, 2, 0, 0, 0, 7, 0, 8, 0, 0, 0, 0, 0, 0]

def shelfVal : Val := .list [.pair (.bytes [65]) (.some (.list [.num 7, .num 8])), .pair (.bytes []) .none]

theorem shelf_read : (((decode x64 .little shelf Cx.std).run (bufferReader x64.toHost) (BufSt.init 4096 shelfBytes)).1 =
    .ok shelfVal) := by decide

/-- Two pointers (24 bytes each in the sample target, where everything without a known layout has that size), two pairs, a letter
and two numbers. -/
example : heap x64 shelf shelfVal = 2 * (24 + 24) + 1 + 4 ∧ memPerByte x64 shelf = 50 ∧ ownMem x64 shelf = 0 := by decide

example := C86_buffer_partial (T := x64) x64_ok (e := .little) (t := shelf) (by decide) (by decide) (base := 4096) (buf := shelfBytes)
  (by decide) (.inl rfl) (Prod.ext shelf_read rfl)
example := C86_memory_partial (T := x64) x64_ok (e := .little) (t := shelf) (by decide) (by decide) (bufferReader_orderly Host.x64)
  (BufSt.init_inv (base := 4096) (buf := shelfBytes) (by decide)) (Prod.ext shelf_read rfl)

/-- A map, and an array of boxes. -/
example : heap x64 (.map (.prim .u8) (.str .cow)) (.list [.pair (.num 1) (.pair (.bytes [65, 66]) .unit)]) = 1 + 24 + 2 ∧
    memPerByte x64 (.map (.prim .u8) (.str .cow)) = 1 + 25 ∧
    heap x64 (.array 3 (.box (.prim .u32))) (.list [.num 1, .num 2, .num 3]) = 12 ∧
    ownMem x64 (.array 3 (.box (.prim .u32))) = 12 := by decide

example (src : Src) (v : Val) (s' : StreamSt)
    (h : (decode x64 .little shelf Cx.std).run (streamReader (· + 100)) (StreamSt.init false src) = (.ok v, s')) :
    heap x64 shelf v ≤ 50 * src.data.length + 0 :=
  C86_stream_partial x64_ok (by decide) (by decide) (fun n => by omega) false src h

example : ((decode x64 .little shelf Cx.std).run (streamReader (· + 100))
    (StreamSt.init false ⟨shelfBytes, []⟩)).1 = .ok shelfVal := by decide

/-- Trees, expressions and folders: 24 bytes for every byte. Lists: 16. -/
theorem solvent_samples : Solvent x64 24 (group treeT []) ∧ Solvent x64 24 (group exprT []) ∧
    Solvent x64 32 (group (folders folderHole) [folders entryHole]) ∧ Solvent x64 16 (group listT []) :=
  ⟨group_solvent x64_blind (by decide), group_solvent x64_blind (by decide), group_solvent x64_blind (by decide),
    group_solvent x64_blind (by decide)⟩

/-- A list of `n + 1` elements has `n` of them, of 32 bytes each, on the heap. -/
theorem countdown_heap : ∀ n, heap x64 (unroll (alone listT) (n + 1) self) (countdown n) = 32 * n
  | 0 => by decide
  | n + 1 => by
    have h := countdown_heap n
    have hz : sizeOf x64 (unroll (alone listT) (n + 1) self) = 32 := by
      rw [unroll]; rfl
    rw [unroll]
    simp only [alone, listT, fill, fillFields, countdown, heap, heapFields, hole]
    simp only [listT, hole, self] at h hz
    simp only [hz, h]
    simp
    omega

theorem countdownBytes_length : ∀ n, (countdownBytes n).length = 2 * (n + 1)
  | 0 => rfl
  | n + 1 => by simp [countdownBytes, countdownBytes_length n]; omega

/-- For lists the bound is exact, whatever their length: 16 bytes for each of `2 * (n + 1)` bytes, less the 32 bytes of the first
element, which is not on the heap. -/
example (n : Nat) : (heap x64 (unroll (alone listT) (n + 1) self) (countdown n) : Int) =
    16 * ((countdownBytes n).length : Int) + owed x64 16 true (unroll (alone listT) 1 self) := by
  have h : owed x64 16 true (unroll (alone listT) 1 self) = -32 := by decide
  rw [countdown_heap, countdownBytes_length, h]
  omega

example (s' : BufSt) (v : Val) (buf : Bytes) (hb : 4096 + buf.length ≤ x64.usizeMax) (n : Nat)
    (h : (decode x64 .little (unroll (group treeT []) (n + 1) self) Cx.std).run (bufferReader Host.x64) (BufSt.init 4096 buf) =
      (.ok v, s')) : (heap x64 (unroll (group treeT []) (n + 1) self) v : Int) ≤ 24 * ((buf.length - s'.pend.length : Nat) : Int) + -48 := by
  have h1 := C86_recursive_partial solvent_samples.1 x64_ok (by decide) (bufferReader_orderly Host.x64) (BufSt.init_inv hb) n self h
  rw [BufSt.init_pend] at h1
  exact h1

example := C86_rate_partial (T := x64) x64_ok (a := 48) (by decide) (e := .little) (t := shelf) (by decide) (by decide)
  (bufferReader_orderly Host.x64) (BufSt.init_inv (base := 4096) (buf := shelfBytes) (by decide)) (Prod.ext shelf_read rfl)

end Cases

end Verif
