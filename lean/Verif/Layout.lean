import Verif.Parse

/-!
# Layout of structs which can be copied in bulk

What the Rust reference guarantees about the layout of structs (`layoutOk`),
and its consequence for types with `speedy_is_primitive()`: the memory of a
value is its encoding in the byte order of the host.
-/

namespace Verif

/-- Do two fields (offset, size) not overlap? -/
def apart (a b : Nat × Nat) : Bool := a.1 + a.2 ≤ b.1 || b.1 + b.2 ≤ a.1 || a.2 == 0 || b.2 == 0

/-- No two fields overlap. -/
def allApart : List (Nat × Nat) → Bool
  | [] => true
  | a :: as => as.all (apart a) && allApart as

/-- Sizes of the fields. -/
def Fields.sizes (T : Target) : Fields → List Nat
  | .nil => []
  | .cons _ t fs => sizeOf T t :: fs.sizes T

/-- Offsets and sizes of the fields. -/
def extents (T : Target) (d : StructDesc) (fs : Fields) : List (Nat × Nat) :=
  d.offsets.zip (fs.sizes T)

/-- Guarantees of the Rust reference (type layout) for one struct: fields lie
inside, do not overlap; with `repr(C)` they are in the order of declaration
(assumed for `repr(packed)` too, for which rustc keeps the order although the
reference does not promise it); a `repr(transparent)` struct of one field is
laid out like the field; a struct without fields has size 0. -/
def structOk (T : Target) (d : StructDesc) (fs : Fields) : Bool :=
  d.offsets.length == fs.length &&
  (extents T d fs).all (fun a => a.1 + a.2 ≤ d.size) &&
  allApart (extents T d fs) &&
  (if d.repr == .c || d.repr == .packed then sortedOffsets d.offsets else true) &&
  (if d.repr == .transparent && fs.length == 1 then d.size == fs.sizeSum T else true) &&
  (if fs.length == 0 then d.size == 0 else true)

mutual
/-- All structs in a type are laid out properly. -/
def layoutOk (T : Target) : Ty → Bool
  | .seq _ t | .set t | .array _ t | .refArray _ t | .option t | .range t | .rangeInc t | .box t | .via _ t =>
    layoutOk T t
  | .map a b | .result a b | .pair a b => layoutOk T a && layoutOk T b
  | .struct d fs => structOk T d fs && layoutOkFields T fs
  | .enum _ vs => layoutOkVariants T vs
  | _ => true
/-- Fields. -/
def layoutOkFields (T : Target) : Fields → Bool
  | .nil => true
  | .cons _ t fs => layoutOk T t && layoutOkFields T fs
/-- Variants. -/
def layoutOkVariants (T : Target) : Variants → Bool
  | .nil => true
  | .cons _ fs vs => layoutOkFields T fs && layoutOkVariants T vs
end

/-! ## Sorted, disjoint fields which fill the struct follow each other -/

/-- Each nonempty field starts at or after the end of all nonempty fields before it. -/
def Chain (L : List (Nat × Nat)) : Prop :=
  L.Pairwise fun a b => a.2 = 0 ∨ b.2 = 0 ∨ a.1 + a.2 ≤ b.1

theorem sortedOffsets_pairwise : ∀ {l : List Nat}, sortedOffsets l = true → l.Pairwise (· ≤ ·)
  | [], _ => List.Pairwise.nil
  | [a], _ => by simp
  | a :: b :: rest, h => by
    simp only [sortedOffsets, Bool.and_eq_true, decide_eq_true_eq] at h
    have ih := sortedOffsets_pairwise h.2
    rw [List.pairwise_cons]
    refine ⟨?_, ih⟩
    intro x hx
    rw [List.pairwise_cons] at ih
    rcases List.mem_cons.mp hx with rfl | hx
    · exact h.1
    · exact Nat.le_trans h.1 (ih.1 x hx)

theorem allApart_pairwise : ∀ {L : List (Nat × Nat)}, allApart L = true → L.Pairwise (fun a b => apart a b = true)
  | [], _ => List.Pairwise.nil
  | a :: as, h => by
    simp only [allApart, Bool.and_eq_true, List.all_eq_true] at h
    exact List.Pairwise.cons h.1 (allApart_pairwise h.2)

theorem chain_of {offs sizes : List Nat} (hs : offs.Pairwise (· ≤ ·))
    (ha : (offs.zip sizes).Pairwise (fun a b => apart a b = true)) : Chain (offs.zip sizes) := by
  induction offs generalizing sizes with
  | nil => simp [Chain]
  | cons o offs ih =>
    cases sizes with
    | nil => simp [Chain]
    | cons z sizes =>
      simp only [List.zip_cons_cons, List.pairwise_cons, Chain] at *
      refine ⟨?_, ih hs.2 ha.2⟩
      intro b hb
      have h1 := ha.1 b hb
      have h2 : o ≤ b.1 := hs.1 b.1 (List.of_mem_zip hb).1
      simp only [apart, Bool.or_eq_true, decide_eq_true_eq, beq_iff_eq] at h1
      omega

theorem chain_sum {L : List (Nat × Nat)} {pos S : Nat} (hc : Chain L)
    (hp : ∀ a ∈ L, a.2 = 0 ∨ pos ≤ a.1) (hi : ∀ a ∈ L, a.1 + a.2 ≤ S) (hpS : pos ≤ S) :
    pos + (L.map (·.2)).sum ≤ S := by
  induction L generalizing pos with
  | nil => simpa
  | cons a L ih =>
    unfold Chain at *
    rw [List.pairwise_cons] at hc
    simp only [List.map_cons, List.sum_cons]
    by_cases hz : a.2 = 0
    · have := ih hc.2 (fun b hb => hp b (List.mem_cons_of_mem _ hb))
        (fun b hb => hi b (List.mem_cons_of_mem _ hb)) hpS
      omega
    · have h1 := hp a List.mem_cons_self
      have h2 := hi a List.mem_cons_self
      have := ih (pos := a.1 + a.2) hc.2 (fun b hb => by
        rcases hc.1 b hb with h | h | h
        · omega
        · exact Or.inl h
        · exact Or.inr h) (fun b hb => hi b (List.mem_cons_of_mem _ hb)) h2
      omega

/-- Fields which start where the previous one ends (empty fields anywhere). -/
def Tiled : Nat → List (Nat × Nat) → Prop
  | _, [] => True
  | pos, a :: L => (a.2 = 0 ∨ a.1 = pos) ∧ Tiled (pos + a.2) L

theorem chain_tiled {L : List (Nat × Nat)} {pos S : Nat} (hc : Chain L)
    (hp : ∀ a ∈ L, a.2 = 0 ∨ pos ≤ a.1) (hi : ∀ a ∈ L, a.1 + a.2 ≤ S)
    (hs : pos + (L.map (·.2)).sum = S) : Tiled pos L := by
  induction L generalizing pos with
  | nil => trivial
  | cons a L ih =>
    unfold Chain at *
    rw [List.pairwise_cons] at hc
    simp only [List.map_cons, List.sum_cons] at hs
    simp only [Tiled]
    by_cases hz : a.2 = 0
    · refine ⟨Or.inl hz, ih hc.2 (fun b hb => ?_) (fun b hb => hi b (List.mem_cons_of_mem _ hb)) (by omega)⟩
      have := hp b (List.mem_cons_of_mem _ hb)
      omega
    · have h1 := hp a List.mem_cons_self
      have h2 := hi a List.mem_cons_self
      have hq : ∀ b ∈ L, b.2 = 0 ∨ a.1 + a.2 ≤ b.1 := fun b hb => by
        rcases hc.1 b hb with h | h | h
        · omega
        · exact Or.inl h
        · exact Or.inr h
      have h3 := chain_sum (pos := a.1 + a.2) (S := S) hc.2 hq
        (fun b hb => hi b (List.mem_cons_of_mem _ hb)) h2
      have h4 : a.1 = pos := by omega
      refine ⟨Or.inr h4, ih hc.2 (fun b hb => ?_) (fun b hb => hi b (List.mem_cons_of_mem _ hb)) (by omega)⟩
      have := hq b hb
      omega

theorem Fields.sizes_length (T : Target) : ∀ fs : Fields, (fs.sizes T).length = fs.length
  | .nil => rfl
  | .cons _ _ fs => by simp [Fields.sizes, Fields.length, Fields.sizes_length T fs]

theorem Fields.sizes_sum (T : Target) : ∀ fs : Fields, (fs.sizes T).sum = fs.sizeSum T
  | .nil => rfl
  | .cons _ _ fs => by simp [Fields.sizes, Fields.sizeSum, Fields.sizes_sum T fs]

/-- A struct which can be copied in bulk is tiled by its fields. -/
theorem prim_struct {T : Target} {d : StructDesc} {fs : Fields}
    (hp : isPrimitive T (.struct d fs) = true) (hl : structOk T d fs = true) :
    fieldsPrimitive T fs = true ∧ fs.sizeSum T = d.size ∧ d.offsets.length = fs.length ∧
    Tiled 0 (extents T d fs) := by
  unfold structOk at hl
  simp only [Bool.and_eq_true, List.all_eq_true, decide_eq_true_eq, beq_iff_eq] at hl
  obtain ⟨⟨⟨⟨⟨h1, h2⟩, h3⟩, h4⟩, h5⟩, h6⟩ := hl
  unfold isPrimitive at hp
  have key : fieldsPrimitive T fs = true ∧ fs.sizeSum T = d.size ∧ sortedOffsets d.offsets = true := by
    by_cases ht : (d.repr == Repr'.transparent && fs.length == 1) = true
    · rw [if_pos ht] at hp
      rw [if_pos (by simpa using ht)] at h5
      refine ⟨hp, (by simpa using h5 : d.size = _).symm, ?_⟩
      simp only [Bool.and_eq_true, beq_iff_eq] at ht
      rw [ht.2] at h1
      match ho : d.offsets with
      | [] => rfl
      | [_] => rfl
      | _ :: _ :: _ => rw [ho] at h1; simp at h1
    · rw [if_neg ht] at hp
      split at hp
      · cases fs with
        | nil =>
          simp [Fields.length] at h1 h6
          refine ⟨rfl, by simp [Fields.sizeSum, h6], ?_⟩
          rw [h1]; rfl
        | cons a t fs =>
          simp only [Bool.false_or, Bool.and_eq_true, Bool.or_eq_true, beq_iff_eq] at hp
          refine ⟨hp.1.1, hp.1.2, ?_⟩
          rcases hp.2 with h | h
          · have : (d.repr == Repr'.c || d.repr == Repr'.packed) = true := by
              simp only [Bool.or_eq_true, beq_iff_eq]; exact h.symm
            rw [if_pos this] at h4; exact h4
          · exact h
      · simp at hp
  refine ⟨key.1, key.2.1, h1, ?_⟩
  have hc : Chain (extents T d fs) := chain_of (sortedOffsets_pairwise key.2.2) (allApart_pairwise h3)
  refine chain_tiled (S := d.size) hc (fun a _ => Or.inr (Nat.zero_le _)) h2 ?_
  have : (extents T d fs).map (·.2) = fs.sizes T := by
    unfold extents
    rw [List.map_snd_zip]
    rw [Fields.sizes_length]; omega
  rw [this, Fields.sizes_sum, key.2.1]; omega

/-! ## Memory and encoding -/

mutual
/-- The value encoded by some bytes, for types which can be copied in bulk. -/
def seqVal (T : Target) (e : Endian) : Ty → Bytes → Val
  | .prim _, m => .num (e.num m)
  | .struct _ fs, m => seqFields T e fs m
  | _, _ => .unit
/-- Fields one after another. -/
def seqFields (T : Target) (e : Endian) : Fields → Bytes → Val
  | .nil, _ => .unit
  | .cons _ t fs, m => .pair (seqVal T e t (m.take (sizeOf T t))) (seqFields T e fs (m.drop (sizeOf T t)))
end

theorem sizeOf_struct (T : Target) (d : StructDesc) (fs : Fields) : sizeOf T (.struct d fs) = d.size := rfl

mutual
theorem ofMem_eq {T : Target} : ∀ (t : Ty) (m : Bytes), isPrimitive T t = true → layoutOk T t = true →
    m.length = sizeOf T t → ofMem T t m = seqVal T T.native t m
  | .prim p, m, _, _, _ => by simp [ofMem, seqVal]
  | .struct d fs, m, hp, hl, hm => by
    simp only [layoutOk, Bool.and_eq_true] at hl
    obtain ⟨h1, h2, h3, h4⟩ := prim_struct hp hl.1
    simp only [ofMem, seqVal]
    have := ofMemFields_eq fs d.offsets 0 m h1 hl.2 h3 h4 (by rw [hm, sizeOf_struct]; omega)
    simpa using this
  | .usize, _, hp, _, _ | .bool, _, hp, _, _ | .char, _, hp, _, _ | .nonZero _, _, hp, _, _
  | .atomic _, _, hp, _, _ | .ipv4, _, hp, _, _ | .ipv6, _, hp, _, _ | .ipAddr, _, hp, _, _
  | .duration, _, hp, _, _ | .systemTime, _, hp, _, _ | .endianness, _, hp, _, _
  | .varint64, _, hp, _, _ | .uuid, _, hp, _, _ | .str _, _, hp, _, _ | .seq _ _, _, hp, _, _
  | .set _, _, hp, _, _ | .map _ _, _, hp, _, _ | .array _ _, _, hp, _, _ | .refArray _ _, _, hp, _, _
  | .option _, _, hp, _, _ | .result _ _, _, hp, _, _ | .range _, _, hp, _, _ | .rangeInc _, _, hp, _, _
  | .unit, _, hp, _, _ | .pair _ _, _, hp, _, _ | .box _, _, hp, _, _ | .via _ _, _, hp, _, _ | .enum _ _, _, hp, _, _ => by
    simp [isPrimitive] at hp
theorem ofMemFields_eq {T : Target} : ∀ (fs : Fields) (offs : List Nat) (pos : Nat) (m : Bytes),
    fieldsPrimitive T fs = true → layoutOkFields T fs = true → offs.length = fs.length →
    Tiled pos (offs.zip (fs.sizes T)) → pos + fs.sizeSum T ≤ m.length →
    ofMemFields T fs offs m = seqFields T T.native fs (m.drop pos)
  | .nil, offs, pos, m, _, _, _, _, _ => by cases offs <;> simp [ofMemFields, seqFields]
  | .cons a t fs, [], pos, m, _, _, ho, _, _ => by simp [Fields.length] at ho
  | .cons a t fs, off :: offs, pos, m, hp, hl, ho, ht, hm => by
    simp only [fieldsPrimitive, Bool.and_eq_true] at hp
    simp only [layoutOkFields, Bool.and_eq_true] at hl
    simp only [Fields.length, List.length_cons] at ho
    simp only [Fields.sizes, List.zip_cons_cons, Tiled] at ht
    simp only [Fields.sizeSum] at hm
    simp only [ofMemFields, seqFields]
    have hpiece : ((m.drop off).take (sizeOf T t)) = ((m.drop pos).take (sizeOf T t)) := by
      rcases ht.1 with h | h
      · simp [h]
      · rw [h]
    rw [hpiece, ofMem_eq t _ hp.1 hl.1 (by simp; omega),
      ofMemFields_eq fs offs (pos + sizeOf T t) m hp.2 hl.2 (by omega) ht.2 (by omega)]
    rw [List.drop_drop]
end

theorem splice_nil (m : Bytes) (off : Nat) : splice m off [] = m := by simp [splice]

theorem splice_mid (pre b m : Bytes) (k : Nat) (hb : b.length = k) :
    splice (pre ++ m) pre.length b = pre ++ b ++ m.drop k := by
  simp [splice, hb]

/-- The other byte order. -/
def Endian.flip : Endian → Endian
  | .little => .big
  | .big => .little

theorem Endian.flip_num (e : Endian) (m : Bytes) : e.num m.reverse = e.flip.num m := by
  cases e <;> simp [Endian.num, Endian.flip]

theorem Endian.conv_flip {e : Endian} {h : Host} (hc : e.conv h = true) : e = h.native.flip := by
  revert hc; unfold Endian.conv
  cases e <;> cases h.native <;> simp [Endian.flip]

theorem Endian.not_conv {e : Endian} {h : Host} (hc : e.conv h = false) : e = h.native := by
  revert hc; unfold Endian.conv
  cases e <;> cases h.native <;> simp

mutual
theorem flipMem_eq {T : Target} : ∀ (t : Ty) (m : Bytes), isPrimitive T t = true → layoutOk T t = true →
    flipOk t = true → m.length = sizeOf T t →
    ∃ m', flipMem T t m = .ok m' ∧ m'.length = m.length ∧
      seqVal T T.native t m' = seqVal T T.native.flip t m
  | .prim p, m, _, _, _, _ => ⟨m.reverse, by simp [flipMem], by simp, by simp [seqVal, Endian.flip_num]⟩
  | .struct d fs, m, hp, hl, hf, hm => by
    simp only [layoutOk, Bool.and_eq_true] at hl
    obtain ⟨h1, h2, h3, h4⟩ := prim_struct hp hl.1
    simp only [flipOk, Bool.and_eq_true, Bool.not_eq_true'] at hf
    obtain ⟨m', e1, e2, e3⟩ := flipFields_eq fs d.offsets [] m h1 hl.2 h3 h4 hf.2
      (by rw [hm, sizeOf_struct]; omega)
    refine ⟨m', ?_, e2, ?_⟩
    · simp only [flipMem, hf.1, Bool.false_eq_true, if_false]
      simpa using e1
    · simpa [seqVal] using e3
  | .usize, _, hp, _, _, _ | .bool, _, hp, _, _, _ | .char, _, hp, _, _, _ | .nonZero _, _, hp, _, _, _
  | .atomic _, _, hp, _, _, _ | .ipv4, _, hp, _, _, _ | .ipv6, _, hp, _, _, _ | .ipAddr, _, hp, _, _, _
  | .duration, _, hp, _, _, _ | .systemTime, _, hp, _, _, _ | .endianness, _, hp, _, _, _
  | .varint64, _, hp, _, _, _ | .uuid, _, hp, _, _, _ | .str _, _, hp, _, _, _ | .seq _ _, _, hp, _, _, _
  | .set _, _, hp, _, _, _ | .map _ _, _, hp, _, _, _ | .array _ _, _, hp, _, _, _ | .refArray _ _, _, hp, _, _, _
  | .option _, _, hp, _, _, _ | .result _ _, _, hp, _, _, _ | .range _, _, hp, _, _, _ | .rangeInc _, _, hp, _, _, _
  | .unit, _, hp, _, _, _ | .pair _ _, _, hp, _, _, _ | .box _, _, hp, _, _, _ | .via _ _, _, hp, _, _, _ | .enum _ _, _, hp, _, _, _ => by
    simp [isPrimitive] at hp
theorem flipFields_eq {T : Target} : ∀ (fs : Fields) (offs : List Nat) (pre m : Bytes),
    fieldsPrimitive T fs = true → layoutOkFields T fs = true → offs.length = fs.length →
    Tiled pre.length (offs.zip (fs.sizes T)) → flipOkFields fs = true → fs.sizeSum T ≤ m.length →
    ∃ m', flipFields T fs offs (pre ++ m) = .ok (pre ++ m') ∧ m'.length = m.length ∧
      seqFields T T.native fs m' = seqFields T T.native.flip fs m
  | .nil, offs, pre, m, _, _, _, _, _, _ => ⟨m, by cases offs <;> simp [flipFields], rfl, by simp [seqFields]⟩
  | .cons a t fs, [], _, _, _, _, ho, _, _, _ => by simp [Fields.length] at ho
  | .cons a t fs, off :: offs, pre, m, hp, hl, ho, ht, hf, hm => by
    simp only [fieldsPrimitive, Bool.and_eq_true] at hp
    simp only [layoutOkFields, Bool.and_eq_true] at hl
    simp only [Fields.length, List.length_cons] at ho
    simp only [Fields.sizes, List.zip_cons_cons, Tiled] at ht
    simp only [flipOkFields, Bool.and_eq_true] at hf
    simp only [Fields.sizeSum] at hm
    have hpiece : (((pre ++ m).drop off).take (sizeOf T t)) = m.take (sizeOf T t) := by
      rcases ht.1 with h | h
      · simp [h]
      · rw [h]; simp
    obtain ⟨b, b1, b2, b3⟩ := flipMem_eq t (m.take (sizeOf T t)) hp.1 hl.1 hf.1 (by simp; omega)
    have hbl : b.length = sizeOf T t := by rw [b2]; simp; omega
    have hsp : splice (pre ++ m) off b = (pre ++ b) ++ m.drop (sizeOf T t) := by
      rcases ht.1 with h | h
      · have : b = [] := List.eq_nil_of_length_eq_zero (by omega)
        rw [this, splice_nil]; simp [h]
      · rw [h]; exact splice_mid _ _ _ _ hbl
    obtain ⟨m', e1, e2, e3⟩ := flipFields_eq fs offs (pre ++ b) (m.drop (sizeOf T t)) hp.2 hl.2 (by omega)
      (by rw [List.length_append, hbl]; exact ht.2) hf.2 (by simp; omega)
    refine ⟨b ++ m', ?_, ?_, ?_⟩
    · simp only [flipFields, hpiece, b1, hsp]
      rw [e1]; simp
    · simp [e2, hbl]; omega
    · simp only [seqFields]
      rw [List.take_append_of_le_length (by omega), List.take_of_length_le (by omega), b3]
      rw [List.drop_append_of_le_length (by omega), List.drop_of_length_le (by omega), List.nil_append, e3]
end

theorem convMem_struct {T : Target} {d : StructDesc} {fs : Fields} {m : Bytes}
    (h : ¬ (d.repr == .transparent && fs.length == 1) = true) :
    convMem T (.struct d fs) m = flipMem T (.struct d fs) m := by
  cases fs with
  | nil => simp [convMem]
  | cons a t fs =>
    cases fs with
    | nil =>
      have : (d.repr == Repr'.transparent) = false := by
        cases hd : d.repr == Repr'.transparent with
        | false => rfl
        | true => simp [hd, Fields.length] at h
      simp [convMem, this]
    | cons a' t' fs => simp [convMem]

theorem convMem_eq {T : Target} : ∀ (t : Ty) (m : Bytes), isPrimitive T t = true → layoutOk T t = true →
    convOk t = true → m.length = sizeOf T t →
    ∃ m', convMem T t m = .ok m' ∧ m'.length = m.length ∧
      seqVal T T.native t m' = seqVal T T.native.flip t m
  | .prim p, m, hp, hl, _, hm => by
    simpa [convMem] using flipMem_eq (.prim p) m hp hl rfl hm
  | .struct d (.cons a t .nil), m, hp, hl, hc, hm => by
    by_cases hr : (d.repr == Repr'.transparent) = true
    · simp only [convOk, hr, if_true] at hc
      have hl' := hl
      simp only [layoutOk, layoutOkFields, Bool.and_eq_true] at hl'
      obtain ⟨h1, h2, h3, h4⟩ := prim_struct hp hl'.1
      simp only [fieldsPrimitive, Bool.and_eq_true] at h1
      simp only [Fields.sizeSum] at h2
      have hmt : m.length = sizeOf T t := by rw [hm, sizeOf_struct]; omega
      obtain ⟨m', e1, e2, e3⟩ := convMem_eq t m h1.1 hl'.2.1 hc hmt
      refine ⟨m', by simp [convMem, hr, e1], e2, ?_⟩
      simp only [seqVal, seqFields]
      rw [List.take_of_length_le (by omega), List.take_of_length_le (by omega), e3]
    · simp only [convOk, hr, Bool.false_eq_true, if_false] at hc
      rw [convMem_struct (by simp [hr])]
      exact flipMem_eq _ m hp hl hc hm
  | .struct d .nil, m, hp, hl, hc, hm => by
    rw [convMem_struct (by simp [Fields.length])]
    exact flipMem_eq _ m hp hl (by simpa [convOk] using hc) hm
  | .struct d (.cons a t (.cons a' t' fs)), m, hp, hl, hc, hm => by
    rw [convMem_struct (by simp [Fields.length])]
    exact flipMem_eq _ m hp hl (by simpa [convOk] using hc) hm
  | .usize, _, hp, _, _, _ | .bool, _, hp, _, _, _ | .char, _, hp, _, _, _ | .nonZero _, _, hp, _, _, _
  | .atomic _, _, hp, _, _, _ | .ipv4, _, hp, _, _, _ | .ipv6, _, hp, _, _, _ | .ipAddr, _, hp, _, _, _
  | .duration, _, hp, _, _, _ | .systemTime, _, hp, _, _, _ | .endianness, _, hp, _, _, _
  | .varint64, _, hp, _, _, _ | .uuid, _, hp, _, _, _ | .str _, _, hp, _, _, _ | .seq _ _, _, hp, _, _, _
  | .set _, _, hp, _, _, _ | .map _ _, _, hp, _, _, _ | .array _ _, _, hp, _, _, _ | .refArray _ _, _, hp, _, _, _
  | .option _, _, hp, _, _, _ | .result _ _, _, hp, _, _, _ | .range _, _, hp, _, _, _ | .rangeInc _, _, hp, _, _, _
  | .unit, _, hp, _, _, _ | .pair _ _, _, hp, _, _, _ | .box _, _, hp, _, _, _ | .via _ _, _, hp, _, _, _ | .enum _ _, _, hp, _, _, _ => by
    simp [isPrimitive] at hp

/-! ## Reading elements one at a time -/

theorem P.bind_ok {α β : Type} {p : P α} {f : α → P β} {bs rest : Bytes} {a : α}
    (h : p bs = .ok a rest) : (P.bind p f) bs = f a rest := by simp [P.bind, h]

theorem P.bind_fail {α β : Type} {p : P α} {f : α → P β} {bs : Bytes} {e : Err}
    (h : p bs = .fail e) : (P.bind p f) bs = .fail e := by simp [P.bind, h]

theorem P.map_ok {α β : Type} {p : P α} {f : α → β} {bs rest : Bytes} {a : α}
    (h : p bs = .ok a rest) : (P.map f p) bs = .ok (f a) rest := by simp [P.map, P.bind, h, P.pure]

theorem P.map_fail {α β : Type} {p : P α} {f : α → β} {bs : Bytes} {e : Err}
    (h : p bs = .fail e) : (P.map f p) bs = .fail e := by simp [P.map, P.bind, h]

theorem pTake_ok {n : Nat} {bs : Bytes} (h : n ≤ bs.length) : pTake n bs = .ok (bs.take n) (bs.drop n) := by
  simp [pTake, h]

theorem pTake_fail {n : Nat} {bs : Bytes} (h : bs.length < n) : pTake n bs = .fail .unexpectedEndOfInput := by
  have : ¬ n ≤ bs.length := by omega
  simp [pTake, this]

theorem Attrs.plain {a : Attrs} (h : a.canBePrimitive = true) :
    a.defaultOnEof = false ∧ a.len = none ∧ a.skip = false ∧ a.varint = false ∧ a.pre = [] := by
  simpa [Attrs.canBePrimitive, and_assoc] using h

mutual
theorem parse_prim {T : Target} {e : Endian} : ∀ (t : Ty) (cx : Cx) (bs : Bytes), isPrimitive T t = true →
    layoutOk T t = true → bulkPlain t = true →
    (sizeOf T t ≤ bs.length →
      parse T e t cx bs = .ok (seqVal T e t (bs.take (sizeOf T t))) (bs.drop (sizeOf T t))) ∧
    (bs.length < sizeOf T t → parse T e t cx bs = .fail .unexpectedEndOfInput)
  | .prim p, cx, bs, _, _, _ => by
    constructor
    · intro h
      simp only [parse, pNum]
      simp only [sizeOf] at h ⊢
      rw [P.map_ok (P.map_ok (pTake_ok h))]
      simp [seqVal]
    · intro h
      simp only [parse, pNum]
      exact P.map_fail (P.map_fail (pTake_fail h))
  | .struct d fs, cx, bs, hp, hl, hb => by
    simp only [layoutOk, Bool.and_eq_true] at hl
    simp only [bulkPlain, Bool.and_eq_true] at hb
    obtain ⟨h1, h2, h3, h4⟩ := prim_struct hp hl.1
    have := parseFields_prim (T := T) (e := e) fs [] bs h1 hl.2 hb.1 hb.2
    rw [h2] at this
    simp only [parse, seqVal, sizeOf_struct]
    refine ⟨fun h => ?_, this.2⟩
    rw [this.1 h]
  | .usize, _, _, hp, _, _ | .bool, _, _, hp, _, _ | .char, _, _, hp, _, _ | .nonZero _, _, _, hp, _, _
  | .atomic _, _, _, hp, _, _ | .ipv4, _, _, hp, _, _ | .ipv6, _, _, hp, _, _ | .ipAddr, _, _, hp, _, _
  | .duration, _, _, hp, _, _ | .systemTime, _, _, hp, _, _ | .endianness, _, _, hp, _, _
  | .varint64, _, _, hp, _, _ | .uuid, _, _, hp, _, _ | .str _, _, _, hp, _, _ | .seq _ _, _, _, hp, _, _
  | .set _, _, _, hp, _, _ | .map _ _, _, _, hp, _, _ | .array _ _, _, _, hp, _, _ | .refArray _ _, _, _, hp, _, _
  | .option _, _, _, hp, _, _ | .result _ _, _, _, hp, _, _ | .range _, _, _, hp, _, _ | .rangeInc _, _, _, hp, _, _
  | .unit, _, _, hp, _, _ | .pair _ _, _, _, hp, _, _ | .box _, _, _, hp, _, _ | .via _ _, _, _, hp, _, _ | .enum _ _, _, _, hp, _, _ => by
    simp [isPrimitive] at hp
theorem parseFields_prim {T : Target} {e : Endian} : ∀ (fs : Fields) (prev : List Val) (bs : Bytes),
    fieldsPrimitive T fs = true → layoutOkFields T fs = true → fs.canBePrimitive = true →
    bulkPlainFields fs = true →
    (fs.sizeSum T ≤ bs.length →
      parseFields T e fs prev bs = .ok (seqFields T e fs (bs.take (fs.sizeSum T))) (bs.drop (fs.sizeSum T))) ∧
    (bs.length < fs.sizeSum T → parseFields T e fs prev bs = .fail .unexpectedEndOfInput)
  | .nil, prev, bs, _, _, _, _ => by simp [Fields.sizeSum, parseFields, P.pure, seqFields]
  | .cons a t fs, prev, bs, hp, hl, hc, hb => by
    simp only [fieldsPrimitive, Bool.and_eq_true] at hp
    simp only [layoutOkFields, Bool.and_eq_true] at hl
    simp only [Fields.canBePrimitive, Bool.and_eq_true] at hc
    simp only [bulkPlainFields, Bool.and_eq_true] at hb
    obtain ⟨a1, a2, a3, a4, a5⟩ := Attrs.plain hc.1
    simp only [Fields.sizeSum, parseFields, a1, a3, a4, a5, List.isEmpty_nil, Bool.false_eq_true, if_false, if_true]
    have h1 := parse_prim (T := T) (e := e) t (a.cx T.toHost prev) bs hp.1 hl.1 hb.1
    constructor
    · intro h
      rw [P.bind_ok (h1.1 (by omega))]
      have h2 := parseFields_prim (T := T) (e := e) fs
        (prev ++ [seqVal T e t (bs.take (sizeOf T t))]) (bs.drop (sizeOf T t)) hp.2 hl.2 hc.2 hb.2
      rw [P.map_ok (h2.1 (by simp; omega))]
      simp only [seqFields, List.drop_drop, PRes.ok.injEq, Val.pair.injEq, and_true]
      constructor
      · rw [List.take_take, Nat.min_eq_left (by omega)]
      · congr 1
        rw [List.drop_take, Nat.add_sub_cancel_left]
    · intro h
      by_cases hs : bs.length < sizeOf T t
      · exact P.bind_fail (h1.2 hs)
      · rw [P.bind_ok (h1.1 (by omega))]
        have h2 := parseFields_prim (T := T) (e := e) fs
          (prev ++ [seqVal T e t (bs.take (sizeOf T t))]) (bs.drop (sizeOf T t)) hp.2 hl.2 hc.2 hb.2
        exact P.map_fail (h2.2 (by simp; omega))
end

/-- `n` elements of a type which can be copied in bulk. -/
theorem pRep_prim {T : Target} {e : Endian} {t : Ty} {cx : Cx} (hp : isPrimitive T t = true)
    (hl : layoutOk T t = true) (hb : bulkPlain t = true) (n : Nat) (bs : Bytes) :
    (n * sizeOf T t ≤ bs.length → pRep n (parse T e t cx) bs =
      .ok ((chunks (sizeOf T t) n bs).map (seqVal T e t)) (bs.drop (n * sizeOf T t))) ∧
    (bs.length < n * sizeOf T t → pRep n (parse T e t cx) bs = .fail .unexpectedEndOfInput) := by
  induction n generalizing bs with
  | zero => simp [pRep, P.pure, chunks]
  | succ n ih =>
    have h1 := parse_prim (e := e) t cx bs hp hl hb
    have h2 := ih (bs.drop (sizeOf T t))
    simp only [pRep]
    rw [Nat.succ_mul]
    constructor
    · intro h
      rw [P.bind_ok (h1.1 (by omega)), P.bind_ok (h2.1 (by simp; omega))]
      simp only [P.pure, chunks, List.map_cons, List.drop_drop]
      rw [Nat.add_comm]
    · intro h
      by_cases hs : bs.length < sizeOf T t
      · exact P.bind_fail (h1.2 hs)
      · rw [P.bind_ok (h1.1 (by omega))]
        exact P.bind_fail (h2.2 (by simp; omega))

theorem chunks_length (size n : Nat) (bs : Bytes) : (chunks size n bs).length = n := by
  induction n generalizing bs with
  | zero => rfl
  | succ n ih => simp [chunks, ih]

theorem chunks_mem {size n : Nat} {bs : Bytes} (h : n * size ≤ bs.length) :
    ∀ m ∈ chunks size n bs, m.length = size := by
  induction n generalizing bs with
  | zero => simp [chunks]
  | succ n ih =>
    rw [Nat.succ_mul] at h
    intro m hm
    simp only [chunks, List.mem_cons] at hm
    rcases hm with rfl | hm
    · simp; omega
    · exact ih (by simp; omega) m hm

theorem chunks_take {size n k : Nat} {bs : Bytes} (h : n * size ≤ k) :
    chunks size n (bs.take k) = chunks size n bs := by
  induction n generalizing bs k with
  | zero => rfl
  | succ n ih =>
    rw [Nat.succ_mul] at h
    simp only [chunks]
    rw [List.take_take, Nat.min_eq_left (by omega), List.drop_take, ih (by omega)]

mutual
theorem minBytes_prim {T : Target} : ∀ (t : Ty), isPrimitive T t = true → layoutOk T t = true →
    bulkPlain t = true → minBytes T t = sizeOf T t
  | .prim p, _, _, _ => rfl
  | .struct d fs, hp, hl, hb => by
    simp only [layoutOk, Bool.and_eq_true] at hl
    simp only [bulkPlain, Bool.and_eq_true] at hb
    obtain ⟨h1, h2, h3, h4⟩ := prim_struct hp hl.1
    simp only [minBytes]
    rw [fieldsMin_prim fs h1 hl.2 hb.1 hb.2, h2, sizeOf_struct]
  | .usize, hp, _, _ | .bool, hp, _, _ | .char, hp, _, _ | .nonZero _, hp, _, _
  | .atomic _, hp, _, _ | .ipv4, hp, _, _ | .ipv6, hp, _, _ | .ipAddr, hp, _, _
  | .duration, hp, _, _ | .systemTime, hp, _, _ | .endianness, hp, _, _
  | .varint64, hp, _, _ | .uuid, hp, _, _ | .str _, hp, _, _ | .seq _ _, hp, _, _
  | .set _, hp, _, _ | .map _ _, hp, _, _ | .array _ _, hp, _, _ | .refArray _ _, hp, _, _
  | .option _, hp, _, _ | .result _ _, hp, _, _ | .range _, hp, _, _ | .rangeInc _, hp, _, _
  | .unit, hp, _, _ | .pair _ _, hp, _, _ | .box _, hp, _, _ | .via _ _, hp, _, _ | .enum _ _, hp, _, _ => by
    simp [isPrimitive] at hp
theorem fieldsMin_prim {T : Target} : ∀ (fs : Fields), fieldsPrimitive T fs = true →
    layoutOkFields T fs = true → fs.canBePrimitive = true → bulkPlainFields fs = true →
    fieldsMin T fs = fs.sizeSum T
  | .nil, _, _, _, _ => rfl
  | .cons a t fs, hp, hl, hc, hb => by
    simp only [fieldsPrimitive, Bool.and_eq_true] at hp
    simp only [layoutOkFields, Bool.and_eq_true] at hl
    simp only [Fields.canBePrimitive, Bool.and_eq_true] at hc
    simp only [bulkPlainFields, Bool.and_eq_true] at hb
    obtain ⟨a1, a2, a3, a4, a5⟩ := Attrs.plain hc.1
    simp [fieldsMin, Fields.sizeSum, a1, a2, a3, a4, a5, minBytes_prim t hp.1 hl.1 hb.1,
      fieldsMin_prim fs hp.2 hl.2 hc.2 hb.2]
end

/-- Converting and interpreting the memory of elements gives the values read
one at a time. -/
theorem bulk_vals {T : Target} {e : Endian} {t : Ty} {rd : M Val} (hp : isPrimitive T t = true)
    (hl : layoutOk T t = true) (hb : bulkOk T e t = true) (L : List Bytes)
    (hL : ∀ m ∈ L, m.length = sizeOf T t) :
    ∃ L', convSlice T.toHost e (elemOf T t rd) L = .ok L' ∧
      L'.map (elemOf T t rd).ofMem = L.map (seqVal T e t) := by
  simp only [bulkOk, Bool.and_eq_true, Bool.or_eq_true, Bool.not_eq_true'] at hb
  unfold convSlice
  by_cases hc : e.conv T.toHost = true
  · rw [if_pos hc]
    have hco : convOk t = true := by
      rcases hb.2 with h | h
      · rw [hc] at h; simp at h
      · exact h
    have hcf : e = T.native.flip := Endian.conv_flip hc
    induction L with
    | nil => exact ⟨[], rfl, rfl⟩
    | cons m L ih =>
      obtain ⟨L', h1, h2⟩ := ih (fun x hx => hL x (List.mem_cons_of_mem _ hx))
      obtain ⟨m', e1, e2, e3⟩ := convMem_eq t m hp hl hco (hL m List.mem_cons_self)
      refine ⟨m' :: L', ?_, ?_⟩
      · have e1' : (elemOf T t rd).flip m = .ok m' := e1
        simp only [mapPanic, e1', h1]
      · simp only [List.map_cons, h2]
        congr 1
        show ofMem T t m' = _
        rw [ofMem_eq t m' hp hl (by rw [e2]; exact hL m List.mem_cons_self), e3, ← hcf]
  · rw [if_neg hc]
    refine ⟨L, rfl, ?_⟩
    have hn : e = T.native := Endian.not_conv (by simpa using hc)
    apply List.map_congr_left
    intro m hm
    show ofMem T t m = _
    rw [ofMem_eq t m hp hl (hL m hm), ← hn]

theorem num_one (e e' : Endian) (m : Bytes) (h : m.length ≤ 1) : e.num m = e'.num m := by
  match m, h with
  | [], _ => cases e <;> cases e' <;> rfl
  | [b], _ => cases e <;> cases e' <;> rfl

mutual
theorem seqVal_one {T : Target} {e e' : Endian} : ∀ (t : Ty) (m : Bytes), m.length ≤ 1 →
    seqVal T e t m = seqVal T e' t m
  | .prim p, m, h => by simp only [seqVal]; rw [num_one e e' m h]
  | .struct d fs, m, h => by simp only [seqVal]; exact seqFields_one fs m h
  | .usize, _, _ | .bool, _, _ | .char, _, _ | .nonZero _, _, _
  | .atomic _, _, _ | .ipv4, _, _ | .ipv6, _, _ | .ipAddr, _, _
  | .duration, _, _ | .systemTime, _, _ | .endianness, _, _
  | .varint64, _, _ | .uuid, _, _ | .str _, _, _ | .seq _ _, _, _
  | .set _, _, _ | .map _ _, _, _ | .array _ _, _, _ | .refArray _ _, _, _
  | .option _, _, _ | .result _ _, _, _ | .range _, _, _ | .rangeInc _, _, _
  | .unit, _, _ | .pair _ _, _, _ | .box _, _, _ | .via _ _, _, _ | .enum _ _, _, _ => by simp [seqVal]
theorem seqFields_one {T : Target} {e e' : Endian} : ∀ (fs : Fields) (m : Bytes), m.length ≤ 1 →
    seqFields T e fs m = seqFields T e' fs m
  | .nil, _, _ => rfl
  | .cons a t fs, m, h => by
    simp only [seqFields]
    rw [seqVal_one (e' := e') t _ (by simp; omega), seqFields_one (e' := e') fs _ (by simp; omega)]
end

/-- Interpreting the memory of elements without conversion. -/
theorem native_vals {T : Target} {e : Endian} {t : Ty} (hp : isPrimitive T t = true)
    (hl : layoutOk T t = true) (he : sizeOf T t = 1 ∨ e.conv T.toHost = false) (L : List Bytes)
    (hL : ∀ m ∈ L, m.length = sizeOf T t) : L.map (ofMem T t) = L.map (seqVal T e t) := by
  apply List.map_congr_left
  intro m hm
  rw [ofMem_eq t m hp hl (hL m hm)]
  rcases he with h1 | h1
  · exact seqVal_one t m (by rw [hL m hm, h1]; omega)
  · rw [Endian.not_conv h1]

end Verif
