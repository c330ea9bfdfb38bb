import Verif.PropsPiece
import Verif.PropsWrite

/-!
# C90: the work of writing is proportional to the output
-/

namespace Verif

mutual
/-- The number of strings, slices, sets, maps and arrays in a value, at all depths. -/
def containers : Ty → Val → Nat
  | .str _, _ => 1
  | .seq _ t, .list vs | .set t, .list vs | .array _ t, .list vs | .refArray _ t, .list vs => (vs.map (containers t)).sum + 1
  | .map k v, .list vs => (vs.map fun kv => match kv with
      | .pair a (.pair b .unit) => containers k a + containers v b
      | _ => 0).sum + 1
  | .option t, .some v | .result t _, .variant 1 v | .result _ t, .variant 0 v => containers t v
  | .range t, .pair a (.pair b _) | .rangeInc t, .pair a (.pair b _) => containers t a + containers t b
  | .pair a b, .pair x y => containers a x + containers b y
  | .box t, v | .via _ t, v => containers t v
  | .struct _ fs, v => containersFields fs v
  | .enum _ vs, .variant i v => containersVariants vs i v
  | _, _ => 0
/-- Fields.  Those which are skipped do not count. -/
def containersFields : Fields → Val → Nat
  | .cons a t fs, .pair v rest => (if a.skip then 0 else containers t v) + containersFields fs rest
  | _, _ => 0
/-- The `i`-th variant. -/
def containersVariants : Variants → Nat → Val → Nat
  | .nil, _, _ => 0
  | .cons _ fs _, 0, v => containersFields fs v
  | .cons _ _ vs, i + 1, v => containersVariants vs i v
end

/-- All calls of a program, if the writer never fails. -/
def WProg.length : WProg → Nat
  | .done _ => 0
  | .bytes _ k | .num _ _ k | .room _ k => k.length + 1

theorem callCount_le {σ : Type} (W : WriterOps σ) (p : WProg) (s : σ) : p.callCount W s ≤ p.length := by
  induction p generalizing s with
  | done r => exact Nat.le_refl 0
  | bytes bs k ih | num n v k ih =>
    simp only [WProg.callCount, WProg.length]
    split
    · exact Nat.succ_le_succ (ih _)
    · omega
  | room n k ih =>
    simp only [WProg.callCount, WProg.length]
    split
    · omega
    · exact Nat.succ_le_succ (ih _)

/-- At most two calls for every byte and `k` others. -/
def Brief (h : Host) (e : Endian) (k : Nat) (p : WProg) : Prop := p.length ≤ 2 * (p.out h e).1.length + k

section Brief
variable {h : Host} {e : Endian} {j k : Nat} {p q : WProg}

theorem Brief.mono (hp : Brief h e j p) (hjk : j ≤ k) : Brief h e k p := Nat.le_trans hp (by omega)

theorem brief_done (r : Except Err Unit) : Brief h e k (.done r) := Nat.zero_le _

theorem brief_num (n v : Nat) (hn : 0 < n) (hp : Brief h e k p) : Brief h e k (.num n v p) := by
  simp only [Brief, WProg.length, WProg.out, List.length_append, numBytes_length] at hp ⊢
  omega

theorem brief_bytes (bs : Bytes) (hp : Brief h e k p) : Brief h e (k + 1) (.bytes bs p) := by
  simp only [Brief, WProg.length, WProg.out, List.length_append] at hp ⊢
  omega

theorem brief_bytes_pos {bs : Bytes} (hb : 0 < bs.length) (hp : Brief h e k p) : Brief h e k (.bytes bs p) := by
  simp only [Brief, WProg.length, WProg.out, List.length_append] at hp ⊢
  omega

theorem length_seq (p q : WProg) : (p.seq q).length = match (p.out h e).2 with
    | .ok _ => p.length + q.length
    | .error _ => p.length := by
  induction p with
  | done r => cases r <;> simp [WProg.seq, WProg.length, WProg.out]
  | bytes _ k ih | num _ _ k ih =>
    simp only [WProg.seq, WProg.length, WProg.out, ih]
    cases (k.out h e).2 with
    | ok _ => simp only; omega
    | error _ => simp only
  | room _ k ih =>
    simp only [WProg.seq, WProg.length, WProg.out, ih]
    cases (k.out h e).2 with
    | ok _ => simp only; omega
    | error _ => simp only

theorem brief_seq (hp : Brief h e j p) (hq : Brief h e k q) : Brief h e (j + k) (p.seq q) := by
  unfold Brief at *
  rw [length_seq (h := h) (e := e), out_seq]
  cases hr : p.out h e with
  | mk bs r =>
    rw [hr] at hp
    cases r with
    | ok _ => simp only [List.length_append] at hp ⊢; omega
    | error _ => simp only at hp ⊢; omega

theorem brief_each {f : Val → WProg} {g : Val → Nat} : ∀ {vs : List Val}, (∀ v ∈ vs, Brief h e (g v) (f v)) →
    Brief h e (vs.map g).sum (writeEach f vs)
  | [], _ => brief_done _
  | v :: vs, hf => by
    simp only [writeEach, List.map_cons, List.sum_cons]
    exact brief_seq (hf v List.mem_cons_self) (brief_each fun w hw => hf w (List.mem_cons_of_mem _ hw))

theorem brief_slice {T : Target} {t : Ty} {f : Val → WProg} {g : Val → Nat} {vs : List Val}
    (hf : ∀ v ∈ vs, Brief h e (g v) (f v)) : Brief h e ((vs.map g).sum + 1) (writeSlice T e t f vs) := by
  unfold writeSlice
  split
  · exact (brief_bytes _ (brief_done _ (k := 0))).mono (by omega)
  · exact (brief_each hf).mono (by omega)

theorem brief_lenRaw (lt : LenTy) (n : Nat) : Brief h e 0 (writeLenRaw h lt n) := by
  cases lt with
  | varint =>
    simp only [writeLenRaw, Brief]
    split
    · simp [WProg.ok, WProg.length, WProg.out, numBytes_length]
    · rename_i hn
      have : 0 < (viRest h n).length := by
        unfold viRest
        rw [List.length_take, ← numBytes_eq h, numBytes_length]
        omega
      simp only [WProg.ok, WProg.length, WProg.out, List.length_append, numBytes_length]
      omega
  | _ => exact brief_num _ _ (by decide) (brief_done _)

theorem brief_lenR (n : Nat) (l : LenR) : Brief h e 0 (writeLenR h n l) := by
  cases l with
  | typed lt d =>
    simp only [writeLenR, writeLen]
    split
    · exact brief_lenRaw _ n
    · exact brief_lenRaw _ n
    · split
      · exact brief_done _
      · exact brief_lenRaw _ n
  | fixed m =>
    simp only [writeLenR]
    split <;> exact brief_done _
  | untilEof => exact brief_done _

theorem brief_lenThen {n : Nat} {l : LenR} (hp : Brief h e k p) : Brief h e k ((writeLenR h n l).seq p) :=
  (brief_seq (brief_lenR n l) hp).mono (by omega)

theorem brief_ipv6 {bs : Bytes} (hb : bs.length = 16) : Brief h e 0 (writeIpv6 h e bs) := by
  refine brief_bytes_pos ?_ (brief_done _)
  split <;> simp [hb]

theorem brief_duration (s n : Nat) : Brief h e k (writeDuration s n) :=
  brief_num _ _ (by omega) (brief_num _ _ (by omega) (brief_done _))

end Brief

mutual
theorem brief_encode {T : Target} {e : Endian} : ∀ (t : Ty) (cx : Cx) (v : Val), hasTy T t v →
    Brief T.toHost e (containers t v) (encode T e t cx v)
  | .prim p, _, v, hv | .nonZero p, _, v, hv | .atomic p, _, v, hv => by
    cases v <;> simp only [hasTy] at hv
    exact brief_num _ _ p.size_pos (brief_done _)
  | .usize, _, v, hv | .char, _, v, hv | .ipv4, _, v, hv | .bool, _, v, hv => by
    cases v <;> simp only [hasTy] at hv
    exact brief_num _ _ (by omega) (brief_done _)
  | .ipv6, _, v, hv => by
    cases v <;> simp only [hasTy] at hv
    exact (brief_ipv6 hv).mono (Nat.zero_le _)
  | .ipAddr, _, .variant 0 (.num x), _ => brief_num _ _ (by omega) (brief_num _ _ (by omega) (brief_done _))
  | .ipAddr, _, .variant 1 (.bytes bs), hv => brief_num _ _ (by omega) ((brief_ipv6 hv).mono (Nat.zero_le _))
  | .duration, _, .pair (.num s) (.num n), _ => brief_duration s n
  | .systemTime, _, .pair (.num s) (.num n), _ => by
    simp only [encode]
    split
    · exact brief_duration s n
    · exact brief_done _
  | .endianness, _, .variant 0 .unit, _ => brief_num _ _ (by omega) (brief_done _)
  | .endianness, _, .variant 1 .unit, _ => brief_num _ _ (by omega) (brief_done _)
  | .varint64, _, v, hv => by
    cases v <;> simp only [hasTy] at hv
    simp only [encode]
    exact (brief_lenRaw .varint _).mono (Nat.zero_le _)
  | .uuid, _, v, hv => by
    cases v <;> simp only [hasTy] at hv
    exact brief_bytes_pos (by omega) (brief_done _)
  | .str k, cx, v, hv => by
    cases v <;> simp only [hasTy] at hv
    simp only [encode, containers]
    exact brief_lenThen (brief_bytes _ (brief_done _))
  | .seq k t, cx, v, hv => by
    cases v <;> simp only [hasTy] at hv
    simp only [encode, containers]
    exact brief_lenThen (brief_slice fun v h => brief_encode t _ v (hv.1 v h))
  | .set t, cx, v, hv => by
    cases v <;> simp only [hasTy] at hv
    simp only [encode, containers]
    exact brief_lenThen ((brief_each fun v h => brief_encode t _ v (hv.1 v h)).mono (by omega))
  | .map k w, cx, v, hv => by
    cases v <;> simp only [hasTy] at hv
    simp only [encode, containers]
    refine brief_lenThen ((brief_each fun kv h => ?_).mono (Nat.le_succ _))
    obtain ⟨a, b, rfl, ha, hb⟩ := hv.1 kv h
    exact brief_seq (brief_encode k _ a ha) (brief_encode w _ b hb)
  | .array n t, cx, v, hv => by
    cases v <;> simp only [hasTy] at hv
    simp only [encode, containers, hv.1, ne_eq, not_true, if_false]
    split
    · exact brief_slice fun v h => brief_encode t _ v (hv.2 v h)
    · exact (brief_each fun v h => brief_encode t _ v (hv.2 v h)).mono (by omega)
  | .refArray n t, cx, v, hv => by
    cases v <;> simp only [hasTy] at hv
    simp only [encode, containers, hv.1, ne_eq, not_true, if_false]
    exact (brief_each fun v h => brief_encode t _ v (hv.2 v h)).mono (by omega)
  | .option t, cx, .none, _ => brief_num _ _ (by omega) (brief_done _)
  | .option t, cx, .some v, hv => by
    simp only [hasTy] at hv
    simp only [encode, containers]
    exact brief_num _ _ (by omega) (brief_encode t _ v hv)
  | .result t er, cx, .variant 1 v, hv => by
    simp only [hasTy] at hv
    simp only [encode, containers]
    exact brief_num _ _ (by omega) (brief_encode t _ v hv)
  | .result t er, cx, .variant 0 v, hv => by
    simp only [hasTy] at hv
    simp only [encode, containers]
    exact brief_num _ _ (by omega) (brief_encode er _ v hv)
  | .range t, _, .pair a (.pair b .unit), hv => by
    simp only [hasTy] at hv
    simp only [encode, containers]
    exact brief_seq (brief_encode t _ a hv.1) (brief_encode t _ b hv.2)
  | .rangeInc t, _, .pair a (.pair b (.bool c)), hv => by
    simp only [hasTy] at hv
    simp only [encode, containers]
    exact brief_seq (brief_encode t _ a hv.1) (brief_encode t _ b hv.2)
  | .unit, _, v, hv => by
    cases v <;> simp only [hasTy] at hv
    exact brief_done _
  | .pair a b, _, .pair x y, hv => by
    simp only [hasTy] at hv
    simp only [encode, containers]
    exact brief_seq (brief_encode a _ x hv.1) (brief_encode b _ y hv.2)
  | .box t, _, v, hv => by
    simp only [hasTy] at hv
    simp only [encode, containers]
    exact brief_encode t _ v hv
  | .via _ t, _, v, hv => by
    simp only [hasTy] at hv
    simp only [encode, containers]
    exact brief_encode t _ v hv.1
  | .struct d fs, _, v, hv => by
    simp only [hasTy] at hv
    simp only [encode, containers]
    exact brief_encodeFields fs [] v hv
  | .enum d vs, _, .variant i v, hv => by
    simp only [hasTy] at hv
    simp only [encode, containers]
    exact brief_encodeVariants d vs i v hv
theorem brief_encodeFields {T : Target} {e : Endian} : ∀ (fs : Fields) (prev : List Val) (v : Val), hasTyFields T fs v →
    Brief T.toHost e (containersFields fs v) (encodeFields T e fs prev v)
  | .nil, _, v, hv => by
    cases v <;> simp only [hasTyFields] at hv
    exact brief_done _
  | .cons a t fs, prev, .pair v rest, hv => by
    simp only [hasTyFields] at hv
    simp only [encodeFields, containersFields]
    split
    · exact (brief_encodeFields fs _ rest hv.2).mono (by omega)
    · refine brief_seq ?_ (brief_encodeFields fs _ rest hv.2)
      have hb := fun cx => brief_encode (e := e) t cx v hv.1
      clear hv
      split
      · split
        · split
          · exact (brief_lenRaw .varint _).mono (Nat.zero_le _)
          · exact brief_done _
        · exact hb _
      · rename_i hp
        refine brief_bytes_pos ?_ ?_
        · cases ha : a.pre with
          | nil => rw [ha] at hp; exact absurd rfl hp
          | cons _ _ => simp
        · split
          · split
            · exact (brief_lenRaw .varint _).mono (Nat.zero_le _)
            · exact brief_done _
          · exact hb _
theorem brief_encodeVariants {T : Target} {e : Endian} (d : EnumDesc) : ∀ (vs : Variants) (i : Nat) (v : Val), hasTyVariants T vs i v →
    Brief T.toHost e (containersVariants vs i v) (encodeVariants T e d vs i v)
  | .cons tag fs _, 0, v, hv => by
    simp only [hasTyVariants] at hv
    simp only [encodeVariants, containersVariants]
    refine (brief_seq (j := 0) ?_ (brief_encodeFields fs [] v hv)).mono (by omega)
    split
    · exact brief_done _
    · exact brief_lenRaw _ _
  | .cons _ _ vs, i + 1, v, hv => by
    simp only [hasTyVariants] at hv
    simp only [encodeVariants, containersVariants]
    exact brief_encodeVariants d vs i v hv
end

/-- **C90**: a value, whatever is in it, is written with at most two calls for every byte of its encoding and one for every container in it,
by every writer, also one which fails.  `bs` is what a stream which works receives, also if the value cannot be written. -/
theorem C90_calls {T : Target} {e : Endian} {t : Ty} {v : Val} (hv : hasTy T t v) {w w' : Sink} (hw : w.Works)
    {r : Except Err Unit} {bs : Bytes} (hr : writeToStream T e t v w = (r, w')) (hbs : w'.got = w.got ++ bs) {σ : Type}
    (W : WriterOps σ) (s : σ) :
    (encode T e t Cx.std v).callCount W s ≤ 2 * bs.length + containers t v := by
  have h1 := works_run (T := T) (e := e) hw (encode T e t Cx.std v)
  unfold writeToStream at hr
  rw [hr] at h1
  obtain ⟨g1, g2⟩ := h1
  have : bs = ((encode T e t Cx.std v).out T.toHost e).1 := List.append_cancel_left (hbs.symm.trans g2)
  rw [this]
  exact Nat.le_trans (callCount_le W _ s) (brief_encode t Cx.std v hv)

open Samples in
/-- The message: 21 bytes, a string and a slice.  There are ten calls in big endian on a little endian machine. -/
example : (encode x64 .big message Cx.std msg).callCount (bufferCollector Host.x64 .big) ⟨[], 0⟩ ≤ 2 * msgBe.length + 2 :=
  C90_calls msg_ty (w := ⟨[], []⟩) (w' := ⟨msgBe, []⟩) (r := .ok ()) (by simp [Sink.Works]) (by decide) rfl _ _

open Samples in
example : (encode x64 .big message Cx.std msg).callCount (sizeCalculator Host.x64) 0 = 10 ∧
    (encode x64 .little message Cx.std msg).callCount (sizeCalculator Host.x64) 0 = 7 := by decide

open Samples in
/-- The two calls for a byte are made for a varint of one byte, the one for a container by an empty string. -/
example : (encode x64 .big .varint64 Cx.std (.num 5)).callCount (sizeCalculator Host.x64) 0 = 2 ∧
    (encode x64 .big (.str .owned) ⟨.typed .varint false, true⟩ (.bytes [])).callCount (sizeCalculator Host.x64) 0 = 3 := by decide

end Verif
