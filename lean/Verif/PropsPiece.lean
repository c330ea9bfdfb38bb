import Verif.PropsBulk
import Verif.PropsCost

/-!
# C89: slices of plain data are copied in one piece
-/

namespace Verif

/-! ## Counting calls -/

/-- At most `n` calls of methods of the reader, whatever the reader answers. -/
def Prog.AtMost {β : Type} (n : Nat) (p : Prog β) : Prop :=
  ∀ (σ : Type) (R : ReaderOps σ) (s : σ), p.callCount R s ≤ n

/-- The number of calls of methods of the writer in a run. -/
def WProg.callCount {σ : Type} (W : WriterOps σ) : WProg → σ → Nat
  | .done _, _ => 0
  | .bytes bs k, s => match W.bytes bs s with
    | (.ok _, s') => k.callCount W s' + 1
    | (.error _, _) => 1
  | .num n v k, s => match W.num n v s with
    | (.ok _, s') => k.callCount W s' + 1
    | (.error _, _) => 1
  | .room n k, s => if W.canWrite n s = some false then 1 else k.callCount W s + 1

/-- At most `n` calls of methods of the writer, whatever the writer answers. -/
def WProg.AtMost (n : Nat) (p : WProg) : Prop := ∀ (σ : Type) (W : WriterOps σ) (s : σ), p.callCount W s ≤ n

section AtMost
variable {α β : Type} {m n : Nat}

theorem most_ret (a : α) : (Prog.ret a).AtMost n := fun _ _ _ => Nat.zero_le _

theorem most_mono {p : Prog α} (h : p.AtMost m) (hmn : m ≤ n) : p.AtMost n := fun σ R s => Nat.le_trans (h σ R s) hmn

theorem most_bind {p : M α} {f : α → M β} (hp : p.AtMost m) (hf : ∀ a, (f a).AtMost n) : (M.bind p f).AtMost (m + n) := by
  intro σ R s
  unfold M.bind
  rw [Prog.callCount_bind]
  refine Nat.add_le_add (hp σ R s) ?_
  cases (p.run R s).1 with
  | ok a => exact hf a σ R _
  | error e => exact Nat.zero_le _

theorem most_map {p : M α} {f : α → β} (hp : p.AtMost m) : (M.map f p).AtMost m := most_bind (n := 0) hp fun _ => most_ret _

theorem most_read {l : Nat} {k : Except Err Bytes → Prog α} (h : ∀ r, (k r).AtMost n) : (Prog.read l k).AtMost (n + 1) :=
  fun σ R _ => Nat.succ_le_succ (h _ σ R _)

theorem most_can {l : Nat} {k : Option Bool → Prog α} (h : ∀ r, (k r).AtMost n) : (Prog.canRead l k).AtMost (n + 1) :=
  fun σ R _ => Nat.succ_le_succ (h _ σ R _)

theorem most_borrow {l : Nat} {k : Option (Except Err (Nat × Bytes)) → Prog α} (h : ∀ r, (k r).AtMost n) :
    (Prog.borrow l k).AtMost (n + 1) :=
  fun σ R _ => Nat.succ_le_succ (h _ σ R _)

theorem most_borrowEof {k : Option (Nat × Bytes) → Prog α} (h : ∀ r, (k r).AtMost n) : (Prog.borrowEof k).AtMost (n + 1) :=
  fun σ R _ => Nat.succ_le_succ (h _ σ R _)

theorem most_alloc {l i : Nat} {k : Prog α} (h : k.AtMost n) : (Prog.alloc l i k).AtMost n := fun σ R _ => h σ R _

theorem most_bytes (l : Nat) : (readBytes l).AtMost 1 := most_read fun r => most_ret r

theorem most_num (h : Host) (e : Endian) (l : Nat) : (readNum h e l).AtMost 2 := by
  refine most_can fun r => ?_
  split
  · exact most_ret _
  · refine most_read (n := 0) fun r => ?_
    cases r <;> exact most_ret _

theorem most_varint (h : Host) (e : Endian) : (readVarint h e).AtMost 3 :=
  most_bind (most_num h e 1) fun _ => most_bind (n := 0) (most_bytes _) fun _ => most_ret _

theorem most_len (h : Host) (e : Endian) (lt : LenTy) : (readLen h e lt).AtMost 3 := by
  cases lt with
  | u7 | u64 => exact most_mono (most_bind (n := 0) (most_num h e _) fun _ => by split <;> exact most_ret _) (by omega)
  | u8 | u16 | u32 => exact most_mono (most_num h e _) (by omega)
  | varint => exact most_bind (n := 0) (most_varint h e) fun _ => by split <;> exact most_ret _

theorem most_onEof {p : M α} (hp : p.AtMost m) (d : α) : (onEof p d).AtMost m := by
  intro σ R s
  unfold onEof
  rw [Prog.callCount_bind]
  refine Nat.le_trans (Nat.add_le_add (hp σ R s) (Nat.le_of_eq (m := 0) ?_)) (Nat.le_refl _)
  split
  · rfl
  · split <;> rfl

theorem most_lenR (h : Host) (e : Endian) (l : LenR) : (readLenR h e l).AtMost 3 := by
  unfold readLenR
  split
  · exact most_map (most_len h e _)
  · exact most_map (most_onEof (most_len h e _) 0)
  · exact most_ret _
  · exact most_ret _

theorem most_lift (el : Elem) (r : Except Panic (List Bytes)) : (liftVals el r).AtMost n := by
  cases r <;> exact most_ret _

theorem most_vec (h : Host) (e : Endian) {el : Elem} (hp : el.prim = true) (l : Nat) : (readVec h e el l).AtMost 2 := by
  unfold readVec
  split
  · exact most_ret _
  · refine most_can fun r => ?_
    split
    · exact most_ret _
    · split
      · exact most_ret _
      · refine most_alloc ?_
        exact most_bind (n := 0) (most_bytes _) fun _ => most_lift _ _

theorem most_cow (h : Host) (e : Endian) {el : Elem} (hp : el.prim = true) (l : Nat) : (readCow h e el l).AtMost 3 := by
  unfold readCow
  split
  · refine most_borrow fun r => ?_
    split
    · exact most_ret _
    · split
      · exact most_ret _
      · split
        · split <;> exact most_ret _
        · split
          · exact most_ret _
          · exact most_alloc (most_ret _)
    · exact most_map (most_vec h e hp l)
  · exact most_mono (most_map (most_vec h e hp l)) (by omega)

theorem most_borrowBytes (l : Nat) : (borrowBytes l).AtMost 1 := by
  refine most_borrow fun r => ?_
  split <;> exact most_ret _

theorem most_borrowRest : borrowRest.AtMost 1 := by
  refine most_borrowEof fun r => ?_
  split <;> exact most_ret _

theorem most_refSlice (h : Host) (el : Elem) (l : Nat) : (readRefSlice h el l).AtMost 1 := by
  unfold readRefSlice
  split
  · exact most_ret _
  · exact most_bind (n := 0) (most_borrowBytes _) fun _ => most_ret _

theorem most_refRest (el : Elem) : (readRefSliceRest el).AtMost 1 :=
  most_bind (n := 0) most_borrowRest fun _ => by dsimp only; split <;> exact most_ret _

theorem most_asStr (bs : Bytes) : (asStr bs).AtMost n := by
  unfold asStr
  split <;> exact most_ret _

end AtMost

/-! ## What plain data is -/

/-- Fields of the given sizes, one after another from `pos` on, begin at these offsets. -/
def inARow : Nat → List Nat → List Nat
  | _, [] => []
  | pos, s :: ss => pos :: inARow (pos + s) ss

/-- The field has none of the attributes which change its encoding. -/
def Attrs.bare (a : Attrs) : Bool := !a.skip && !a.varint && !a.defaultOnEof && a.len.isNone && a.pre == []

mutual
/-- Numbers, and structs of them whose fields have no attributes and lie in memory one after another without gaps.  So that the macro
knows, the struct has to be `repr(packed)`, `repr(C)`, or have at most four fields, or only fields of simple types
(`simpleOrSmall`).  A transparent struct is its field. -/
def solid (T : Target) : Ty → Bool
  | .prim _ => true
  | .struct d fs => solidFields T fs &&
    ((d.repr == .transparent && fs.length == 1) ||
      (d.repr == .packed || d.repr == .c || d.simpleOrSmall) && d.offsets == inARow 0 (fs.sizes T) && d.size == (fs.sizes T).sum &&
        bareFields fs)
  | _ => false
/-- Fields. -/
def solidFields (T : Target) : Fields → Bool
  | .nil => true
  | .cons _ t fs => solid T t && solidFields T fs
/-- No attributes. -/
def bareFields : Fields → Bool
  | .nil => true
  | .cons a _ fs => a.bare && bareFields fs
end

theorem inARow_ge : ∀ (ss : List Nat) (pos : Nat), sortedOffsets (inARow pos ss) = true
  | [], _ => rfl
  | [_], _ => rfl
  | a :: b :: ss, pos => by
    have := inARow_ge (b :: ss) (pos + a)
    simp only [inARow, sortedOffsets, Bool.and_eq_true, decide_eq_true_eq] at this ⊢
    exact ⟨by omega, this⟩

theorem bare_prim : ∀ fs : Fields, bareFields fs = true → fs.canBePrimitive = true
  | .nil, _ => rfl
  | .cons a _ fs, h => by
    simp only [bareFields, Bool.and_eq_true, Attrs.bare] at h
    simp only [Fields.canBePrimitive, bare_prim fs h.2, Bool.and_true, Attrs.canBePrimitive]
    obtain ⟨⟨⟨⟨⟨h1, h2⟩, h3⟩, h4⟩, h5⟩, _⟩ := h
    have h5 : a.pre = [] := by simpa using h5
    rw [h1, h2, h3, h4, h5]; rfl

mutual
theorem solid_prim {T : Target} : ∀ t : Ty, solid T t = true → isPrimitive T t = true
  | .prim _, _ => rfl
  | .struct d fs, h => by
    simp only [solid, Bool.and_eq_true, Bool.or_eq_true] at h
    have hf := solid_primFields fs h.1
    unfold isPrimitive
    split
    · exact hf
    · rename_i hn
      rcases h.2 with h | ⟨⟨⟨h1, h2⟩, h3⟩, h4⟩
      · exact absurd (by simpa using h) hn
      · have hs : sortedOffsets d.offsets = true := by
          rw [eq_of_beq h2]; exact inARow_ge _ _
        have hz : (fs.sizeSum T == d.size) = true := by
          rw [eq_of_beq h3, sum_sizes]; exact beq_self_eq_true _
        have h1 : (d.repr == .packed || d.repr == .c || d.simpleOrSmall) = true := by
          simpa [Bool.or_eq_true] using h1
        rw [bare_prim fs h4, h1, hf, hs, hz]
        simp
  | .usize, h | .bool, h | .char, h | .nonZero _, h | .atomic _, h | .ipv4, h | .ipv6, h | .ipAddr, h
  | .duration, h | .systemTime, h | .endianness, h | .varint64, h | .uuid, h | .str _, h | .seq _ _, h
  | .set _, h | .map _ _, h | .array _ _, h | .refArray _ _, h | .option _, h | .result _ _, h | .range _, h
  | .rangeInc _, h | .unit, h | .pair _ _, h | .box _, h | .via _ _, h | .enum _ _, h => by simp [solid] at h
theorem solid_primFields {T : Target} : ∀ fs : Fields, solidFields T fs = true → fieldsPrimitive T fs = true
  | .nil, _ => rfl
  | .cons _ t fs, h => by
    simp only [solidFields, Bool.and_eq_true] at h
    simp only [fieldsPrimitive, solid_prim t h.1, solid_primFields fs h.2, Bool.and_self]
end

/-! ## The property -/

theorem sized_bind {β : Type} {m n : Nat} {p : M (Option Nat)} {f : Option Nat → M β}
    (hp : ∃ q : M Nat, q.AtMost m ∧ p = M.map some q) (hf : ∀ l, (f (some l)).AtMost n) : (M.bind p f).AtMost (m + n) := by
  obtain ⟨q, hq, rfl⟩ := hp
  intro σ R s
  unfold M.map M.bind
  rw [Prog.callCount_bind, Prog.callCount_bind, Prog.run_bind]
  cases (q.run R s).1 with
  | ok a => exact Nat.add_le_add (hq σ R s) (hf a σ R _)
  | error e => exact Nat.add_le_add (hq σ R s) (Nat.zero_le _)

/-- **C89**, reading slices: at most three calls for the length and three for all elements together, whatever their number, the byte
order, the reader and its answers. -/
theorem C89_read_slice {T : Target} {t : Ty} (ht : solid T t = true) (e : Endian) (k : SeqKind) (cx : Cx)
    (hl : k = .ref ∨ cx.len ≠ .untilEof) {σ : Type} (R : ReaderOps σ) (s : σ) :
    (decode T e (.seq k t) cx).callCount R s ≤ 6 := by
  have hp := solid_prim t ht
  suffices h : (decode T e (.seq k t) cx).AtMost (3 + 3) from h σ R s
  simp only [decode]
  split
  · exact most_ret _
  · rcases hl with rfl | hl
    · refine most_bind (most_lenR _ _ _) fun len => ?_
      cases len with
      | some n => exact most_mono (most_map (most_refSlice _ _ _)) (by omega)
      | none => exact most_mono (most_map (most_refRest _)) (by omega)
    · have key : ∀ n, (readSeq T e k (elemOf T t (decode T e t Cx.std)) (some n)).AtMost 3 := fun n => by
        cases k with
        | vec => exact most_mono (most_map (most_vec _ _ hp n)) (by omega)
        | cow => exact most_map (most_cow _ _ hp n)
        | ref => exact most_mono (most_map (most_refSlice _ _ _)) (by omega)
      cases hc : cx.len with
      | untilEof => exact absurd hc hl
      | fixed n => exact most_mono (key n) (by omega)
      | typed lt d =>
        refine sized_bind ?_ key
        cases d
        · exact ⟨_, most_len _ _ lt, rfl⟩
        · exact ⟨_, most_onEof (most_len _ _ lt) 0, rfl⟩

/-- **C89**, reading strings. -/
theorem C89_read_str (T : Target) (e : Endian) (k : StrKind) (cx : Cx) (hl : k = .ref ∨ cx.len ≠ .untilEof) {σ : Type}
    (R : ReaderOps σ) (s : σ) : (decode T e (.str k) cx).callCount R s ≤ 6 := by
  suffices h : (decode T e (.str k) cx).AtMost (3 + 3) from h σ R s
  simp only [decode]
  rcases hl with rfl | hl
  · refine most_bind (most_lenR _ _ _) fun len => ?_
    cases len with
    | some n => exact most_mono (most_bind (n := 0) (most_borrowBytes _) fun _ => most_asStr _) (by omega)
    | none => exact most_mono (most_bind (n := 0) most_borrowRest fun _ => most_asStr _) (by omega)
  · have key : ∀ n, (readStr T e k (some n)).AtMost 3 := fun n => by
      cases k with
      | owned => exact most_mono (most_bind (n := 0) (most_vec _ _ rfl n) fun _ => most_asStr _) (by omega)
      | cow => exact most_bind (n := 0) (most_cow _ _ rfl n) fun _ => most_asStr _
      | ref => exact most_mono (most_bind (n := 0) (most_borrowBytes _) fun _ => most_asStr _) (by omega)
    cases hc : cx.len with
    | untilEof => exact absurd hc hl
    | fixed n => exact most_mono (key n) (by omega)
    | typed lt d =>
      refine sized_bind ?_ key
      cases d
      · exact ⟨_, most_len _ _ lt, rfl⟩
      · exact ⟨_, most_onEof (most_len _ _ lt) 0, rfl⟩

theorem callCount_seq {n : Nat} {q : WProg} (hq : q.AtMost n) {σ : Type} (W : WriterOps σ) (p : WProg) (s : σ) :
    (p.seq q).callCount W s ≤ p.callCount W s + n := by
  induction p generalizing s with
  | done r =>
    cases r with
    | ok _ => exact Nat.le_trans (hq σ W s) (by omega)
    | error _ => exact Nat.zero_le _
  | bytes bs k ih =>
    simp only [WProg.seq, WProg.callCount]
    split
    · rename_i s' _
      have := ih s'
      omega
    · omega
  | num l v k ih =>
    simp only [WProg.seq, WProg.callCount]
    split
    · rename_i s' _
      have := ih s'
      omega
    · omega
  | room l k ih =>
    simp only [WProg.seq, WProg.callCount]
    split
    · omega
    · have := ih s
      omega

theorem wmost_seq {m n : Nat} {p q : WProg} (hp : p.AtMost m) (hq : q.AtMost n) : (p.seq q).AtMost (m + n) := fun σ W s =>
  Nat.le_trans (callCount_seq hq W p s) (Nat.add_le_add_right (hp σ W s) n)

theorem wmost_done (r : Except Err Unit) (n : Nat) : (WProg.done r).AtMost n := fun _ _ _ => Nat.zero_le _

theorem wmost_mono {m n : Nat} {p : WProg} (h : p.AtMost m) (hmn : m ≤ n) : p.AtMost n := fun σ W s => Nat.le_trans (h σ W s) hmn

theorem wmost_bytes {n : Nat} (bs : Bytes) {k : WProg} (h : k.AtMost n) : (WProg.bytes bs k).AtMost (n + 1) := by
  intro σ W s
  simp only [WProg.callCount]
  split
  · exact Nat.succ_le_succ (h σ W _)
  · omega

theorem wmost_num {n : Nat} (l v : Nat) {k : WProg} (h : k.AtMost n) : (WProg.num l v k).AtMost (n + 1) := by
  intro σ W s
  simp only [WProg.callCount]
  split
  · exact Nat.succ_le_succ (h σ W _)
  · omega

theorem wmost_room {n : Nat} (l : Nat) {k : WProg} (h : k.AtMost n) : (WProg.room l k).AtMost (n + 1) := by
  intro σ W s
  simp only [WProg.callCount]
  split
  · omega
  · exact Nat.succ_le_succ (h σ W _)

theorem wmost_lenRaw (h : Host) (lt : LenTy) (n : Nat) : (writeLenRaw h lt n).AtMost 3 := by
  cases lt with
  | varint =>
    refine wmost_room _ (wmost_num _ _ ?_)
    split
    · exact wmost_done _ _
    · exact wmost_bytes _ (wmost_done _ _)
  | _ => exact wmost_mono (wmost_num _ _ (wmost_done _ 0)) (by omega)

theorem wmost_lenR (h : Host) (n : Nat) (l : LenR) : (writeLenR h n l).AtMost 3 := by
  cases l with
  | typed lt d =>
    simp only [writeLenR, writeLen]
    split
    · exact wmost_lenRaw h _ n
    · exact wmost_lenRaw h _ n
    · split
      · exact wmost_done _ _
      · exact wmost_lenRaw h _ n
  | fixed m =>
    simp only [writeLenR]
    split <;> exact wmost_done _ _
  | untilEof => exact wmost_done _ _

/-- **C89**, writing slices in the byte order of the machine, or of elements of one byte: at most three calls for the length and one for
all elements together. -/
theorem C89_write_slice {T : Target} {t : Ty} (ht : solid T t = true) {e : Endian} (he : e.conv T.toHost = false ∨ sizeOf T t = 1)
    (k : SeqKind) (cx : Cx) (vs : List Val) {σ : Type} (W : WriterOps σ) (s : σ) :
    (encode T e (.seq k t) cx (.list vs)).callCount W s ≤ 4 := by
  suffices h : (encode T e (.seq k t) cx (.list vs)).AtMost (3 + 1) from h σ W s
  simp only [encode]
  refine wmost_seq (wmost_lenR _ _ _) ?_
  unfold writeSlice
  rw [if_pos (by rw [solid_prim t ht]; rcases he with h | h <;> simp [h])]
  exact wmost_bytes _ (wmost_done _ 0)

/-- **C89**, writing strings, in any byte order. -/
theorem C89_write_str (T : Target) (e : Endian) (k : StrKind) (cx : Cx) (bs : Bytes) {σ : Type} (W : WriterOps σ) (s : σ) :
    (encode T e (.str k) cx (.bytes bs)).callCount W s ≤ 4 := by
  suffices h : (encode T e (.str k) cx (.bytes bs)).AtMost (3 + 1) from h σ W s
  simp only [encode]
  exact wmost_seq (wmost_lenR _ _ _) (wmost_bytes _ (wmost_done _ 0))

/-! ## Cases -/

section Cases
open Samples

/-- The pixels of `C28`: four bytes each, in a row. -/
example : solid x64 (pixel [0, 1, 2, 3]) = true ∧ solid x64 (pixel [3, 0, 1, 2]) = false := by decide

/-- A `Vec` of a million of them. -/
example (vs : List Val) (_ : vs.length = 1000000) := C89_write_slice (T := x64) (t := pixel [0, 1, 2, 3]) (by decide)
  (e := .little) (.inl (by decide)) .vec Cx.std vs (bufferCollector Host.x64 .little) ⟨[], 0⟩

/-- In the other byte order there is a call for every number (and two for the length, which is a varint here): `Vec<u16>`. -/
example : (encode x64 .big (.seq .vec (.prim .u16)) ⟨.typed .varint false, true⟩ (.list [.num 1, .num 2, .num 3])).callCount
      (sizeCalculator Host.x64) 0 = 5 ∧
    (encode x64 .little (.seq .vec (.prim .u16)) ⟨.typed .varint false, true⟩ (.list [.num 1, .num 2, .num 3])).callCount
      (sizeCalculator Host.x64) 0 = 3 := by decide

/-- Reading them: `can_read_at_least` and `read_bytes` for the length, and again for the elements, in both byte orders. -/
example := C89_read_slice (T := x64) (t := pixel [0, 1, 2, 3]) (by decide) .big .vec Cx.std (.inr (by simp [Cx.std]))
  (bufferReader Host.x64) (BufSt.init 4096 [0, 0, 0, 2, 1, 2, 3, 4, 5, 6, 7, 8])
example : (decode x64 .big (.seq .vec (.prim .u16)) Cx.std).callCount (bufferReader Host.x64)
      (BufSt.init 4096 [0, 0, 0, 3, 1, 2, 3, 4, 5, 6]) = 4 := by decide
example := C89_read_str x64 .little .cow Cx.std (.inr (by simp [Cx.std])) (bufferReader Host.x64) (BufSt.init 4096 [2, 0, 0, 0, 0x61, 0x62])
example := C89_write_str x64 .little .owned Cx.std [0x61, 0x62] (bufferCollector Host.x64 .little) ⟨[0, 0, 0, 0, 0, 0], 0⟩

/-- The condition on `length = ..` is needed: the rest of the input is read one byte at a time. -/
example : (decode { x64 with fuel := 10 } .little (.str .owned) ⟨.untilEof, true⟩).callCount (bufferReader Host.x64)
      (BufSt.init 4096 [0x61, 0x62, 0x63]) = 7 := by decide

end Cases

end Verif
