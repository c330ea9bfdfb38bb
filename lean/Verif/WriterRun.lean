import Verif.EncodeWire
import Verif.WireMin

/-!
# Every writer receives the output of the program
-/

namespace Verif

/-- `can_write_at_least(n)` is only asked if `n` bytes follow, and `n` is small. -/
def RoomOk (h : Host) (e : Endian) : WProg → Prop
  | .done _ => True
  | .bytes _ k => RoomOk h e k
  | .num _ _ k => RoomOk h e k
  | .room n k => (n ≤ 9 ∧ n ≤ (k.out h e).1.length) ∧ RoomOk h e k

theorem numBytes_length (h : Host) (e : Endian) (n v : Nat) : (numBytes h e n v).length = n := by
  rw [numBytes_eq]; simp

theorem out_seq_ge (h : Host) (e : Endian) (p q : WProg) :
    (p.out h e).1.length ≤ ((p.seq q).out h e).1.length := by
  rw [out_seq]
  cases hp : p.out h e with
  | mk a r => cases r <;> simp

theorem RoomOk.seq {h : Host} {e : Endian} {p q : WProg} (hp : RoomOk h e p) (hq : RoomOk h e q) :
    RoomOk h e (p.seq q) := by
  induction p with
  | done r => cases r <;> simp [WProg.seq, RoomOk, hq]
  | bytes bs k ih => exact ih hp
  | num n v k ih => exact ih hp
  | room n k ih => exact ⟨⟨hp.1.1, Nat.le_trans hp.1.2 (out_seq_ge _ _ _ _)⟩, ih hp.2⟩

theorem viExtra_le (v : Nat) : viExtra v ≤ 8 := by
  have h : ∀ b ≤ 64, getLength (64 - b) ≤ 8 := by decide
  unfold viExtra
  have : getLength (leadingZeros 64 v) = getLength (64 - (64 - leadingZeros 64 v)) := by
    unfold getLength
    have : 64 - leadingZeros 64 v = 64 - (64 - (64 - leadingZeros 64 v)) := by omega
    rw [← this]
  rw [this]
  exact h _ (by omega)

theorem roomOk_lenRaw (h : Host) (e : Endian) (lt : LenTy) (n : Nat) : RoomOk h e (writeLenRaw h lt n) := by
  cases lt
  case varint =>
    simp only [writeLenRaw, RoomOk, WProg.out, List.length_append, numBytes_length]
    split
    · rename_i hz; simp [hz, WProg.ok, RoomOk]
    · have := viExtra_le n
      simp [WProg.ok, RoomOk, WProg.out, viRest]; omega
  all_goals simp [writeLenRaw, RoomOk, WProg.ok]

theorem roomOk_lenR (h : Host) (e : Endian) (n : Nat) (l : LenR) : RoomOk h e (writeLenR h n l) := by
  cases l with
  | typed lt d =>
    cases lt <;> simp only [writeLenR, writeLen]
    case u64 => exact roomOk_lenRaw _ _ _ _
    case varint => exact roomOk_lenRaw _ _ _ _
    all_goals
      split
      · trivial
      · exact roomOk_lenRaw _ _ _ _
  | fixed m => simp only [writeLenR]; split <;> trivial
  | untilEof => trivial

theorem roomOk_each {h : Host} {e : Endian} {f : Val → WProg} (hf : ∀ v, RoomOk h e (f v)) :
    ∀ vs, RoomOk h e (writeEach f vs)
  | [] => trivial
  | v :: vs => (hf v).seq (roomOk_each hf vs)

theorem roomOk_slice {T : Target} {e : Endian} {t : Ty} {f : Val → WProg}
    (hf : ∀ v, RoomOk T.toHost e (f v)) (vs : List Val) : RoomOk T.toHost e (writeSlice T e t f vs) := by
  unfold writeSlice
  split
  · trivial
  · exact roomOk_each hf vs

mutual
theorem encode_room {T : Target} {e : Endian} : ∀ (t : Ty) (cx : Cx) (v : Val),
    RoomOk T.toHost e (encode T e t cx v)
  | .prim _, _, v | .usize, _, v | .bool, _, v | .char, _, v | .nonZero _, _, v | .atomic _, _, v
  | .ipv4, _, v | .ipv6, _, v | .unit, _, v | .uuid, _, v => by
    cases v <;> first | trivial | (simp only [encode]; trivial)
  | .ipAddr, _, v | .duration, _, v | .endianness, _, v => by
    unfold encode; split <;> first | trivial | contradiction | (simp_all; try trivial)
  | .systemTime, _, v => by
    unfold encode
    split
    all_goals first | contradiction | (split <;> trivial) | trivial | (simp_all; done) | skip
  | .varint64, _, v => by
    cases v <;> simp only [encode] <;> first | exact roomOk_lenRaw _ _ _ _ | trivial
  | .str _, cx, v => by
    cases v <;> simp only [encode] <;> first | exact (roomOk_lenR _ _ _ _).seq trivial | trivial
  | .seq _ t, cx, v => by
    cases v <;> simp only [encode]
    case list vs => exact (roomOk_lenR _ _ _ _).seq (roomOk_slice (encode_room t Cx.std) _)
    all_goals trivial
  | .set t, cx, v => by
    cases v <;> simp only [encode]
    case list vs => exact (roomOk_lenR _ _ _ _).seq (roomOk_each (encode_room t Cx.std) _)
    all_goals trivial
  | .map k t, cx, v => by
    cases v <;> simp only [encode]
    case list vs =>
      refine (roomOk_lenR _ _ _ _).seq (roomOk_each (fun kv => ?_) _)
      split
      · exact (encode_room k Cx.std _).seq (encode_room t Cx.std _)
      · trivial
    all_goals trivial
  | .array n t, cx, v => by
    cases v <;> simp only [encode]
    case list vs =>
      split
      · trivial
      · split
        · exact roomOk_slice (encode_room t Cx.std) _
        · exact roomOk_each (encode_room t Cx.std) _
    all_goals trivial
  | .refArray n t, cx, v => by
    cases v <;> simp only [encode]
    case list vs =>
      split
      · trivial
      · exact roomOk_each (encode_room t Cx.std) _
    all_goals trivial
  | .option t, cx, v => by
    cases v <;> simp only [encode]
    case some v => exact encode_room t _ v
    all_goals trivial
  | .result t er, cx, v => by
    cases v
    case variant i v =>
      match i with
      | 0 => simp only [encode]; exact encode_room er _ v
      | 1 => simp only [encode]; exact encode_room t _ v
      | i + 2 => simp only [encode]; trivial
    all_goals simp only [encode]; trivial
  | .range t, cx, v => by
    cases v
    case pair a b =>
      cases b
      case pair b c =>
        cases c
        case unit => simp only [encode]; exact (encode_room t Cx.std a).seq (encode_room t Cx.std b)
        all_goals simp only [encode]; trivial
      all_goals simp only [encode]; trivial
    all_goals simp only [encode]; trivial
  | .rangeInc t, cx, v => by
    cases v
    case pair a b =>
      cases b
      case pair b c =>
        cases c
        case bool => simp only [encode]; exact (encode_room t Cx.std a).seq (encode_room t Cx.std b)
        all_goals simp only [encode]; trivial
      all_goals simp only [encode]; trivial
    all_goals simp only [encode]; trivial
  | .pair a b, cx, v => by
    cases v <;> simp only [encode]
    case pair x y => exact (encode_room a Cx.std x).seq (encode_room b Cx.std y)
    all_goals trivial
  | .box t, cx, v | .via _ t, cx, v => by
    simp only [encode]; exact encode_room t Cx.std v
  | .struct d fs, cx, v => by
    simp only [encode]; exact encodeFields_room fs [] v
  | .enum d vs, cx, v => by
    cases v <;> simp only [encode]
    case variant i v => exact encodeVariants_room d vs i v
    all_goals trivial
theorem encodeFields_room {T : Target} {e : Endian} : ∀ (fs : Fields) (prev : List Val) (v : Val),
    RoomOk T.toHost e (encodeFields T e fs prev v)
  | .nil, _, v => by cases v <;> simp only [encodeFields] <;> trivial
  | .cons a t fs, prev, v => by
    cases v <;> simp only [encodeFields]
    case pair v rest =>
      split
      · exact encodeFields_room fs prev rest
      · refine RoomOk.seq ?_ (encodeFields_room fs _ rest)
        have hb : RoomOk T.toHost e
            (if a.varint then (match v with | .num n => writeVarint T.toHost n | _ => .fail .illTyped)
              else encode T e t (a.wcx prev) v) := by
          split
          · split
            · exact roomOk_lenRaw _ _ _ _
            · trivial
          · exact encode_room t _ v
        split
        · exact hb
        · exact hb
    all_goals trivial
theorem encodeVariants_room {T : Target} {e : Endian} (d : EnumDesc) : ∀ (vs : Variants) (i : Nat) (v : Val),
    RoomOk T.toHost e (encodeVariants T e d vs i v)
  | .nil, _, _ => by simp only [encodeVariants]; trivial
  | .cons tag fs vs, 0, v => by
    simp only [encodeVariants]
    refine RoomOk.seq ?_ (encodeFields_room fs [] v)
    split
    · trivial
    · exact roomOk_lenRaw _ _ _ _
  | .cons _ _ vs, i + 1, v => by
    simp only [encodeVariants]; exact encodeVariants_room d vs i v
end

/-! ## The writers -/

/-- Continue unless there is an error. -/
def wnext {σ : Type} (r : Except Err Unit × σ) (f : σ → Except Err Unit × σ) : Except Err Unit × σ :=
  match r with
  | (.ok _, s) => f s
  | (.error er, s) => (.error er, s)

theorem run_bytes {σ : Type} (W : WriterOps σ) (bs : Bytes) (k : WProg) (s : σ) :
    (WProg.bytes bs k).run W s = wnext (W.bytes bs s) (k.run W) := by
  simp only [WProg.run, wnext]
  rcases W.bytes bs s with ⟨r, s'⟩
  cases r <;> rfl

theorem run_num {σ : Type} (W : WriterOps σ) (n v : Nat) (k : WProg) (s : σ) :
    (WProg.num n v k).run W s = wnext (W.num n v s) (k.run W) := by
  simp only [WProg.run, wnext]
  rcases W.num n v s with ⟨r, s'⟩
  cases r <;> rfl

/-- A buffer with enough room receives the output at its position; nothing else
changes. -/
theorem run_buffer {h : Host} {e : Endian} {p : WProg} (hr : RoomOk h e p) (s : BufC)
    (hs : s.pos + (p.out h e).1.length ≤ s.buf.length) :
    p.run (bufferCollector h e) s = ((p.out h e).2,
      ⟨s.buf.take s.pos ++ (p.out h e).1 ++ s.buf.drop (s.pos + (p.out h e).1.length),
        s.pos + (p.out h e).1.length⟩) := by
  have key : ∀ (bs : Bytes) (k : WProg), RoomOk h e k → (∀ s : BufC, s.pos + (k.out h e).1.length ≤ s.buf.length →
      k.run (bufferCollector h e) s = ((k.out h e).2,
      ⟨s.buf.take s.pos ++ (k.out h e).1 ++ s.buf.drop (s.pos + (k.out h e).1.length),
        s.pos + (k.out h e).1.length⟩)) → ∀ s : BufC, s.pos + (bs ++ (k.out h e).1).length ≤ s.buf.length →
      wnext (BufC.write bs s) (k.run (bufferCollector h e)) = ((k.out h e).2,
      ⟨s.buf.take s.pos ++ (bs ++ (k.out h e).1) ++ s.buf.drop (s.pos + (bs ++ (k.out h e).1).length),
        s.pos + (bs ++ (k.out h e).1).length⟩) := by
    intro bs k _ ih s hs
    simp only [List.length_append] at hs
    have h1 : s.pos + bs.length ≤ s.buf.length := by omega
    have htl : (s.buf.take s.pos ++ bs).length = s.pos + bs.length := by
      rw [List.length_append, List.length_take]; omega
    simp only [BufC.write, h1, if_true, wnext]
    rw [ih _ (by
      show s.pos + bs.length + _ ≤ (s.buf.take s.pos ++ bs ++ s.buf.drop (s.pos + bs.length)).length
      rw [List.length_append, htl, List.length_drop]; omega)]
    simp only [Prod.mk.injEq, BufC.mk.injEq, true_and, List.length_append]
    refine ⟨?_, by omega⟩
    rw [← htl, List.take_left', List.drop_append, htl]
    · simp only [List.append_assoc]
      congr 3
      rw [List.drop_eq_nil_of_le (by simp only [List.length_append, List.length_take]; omega), List.nil_append,
        List.drop_drop]
      congr 1
      omega
    · rfl
  induction p generalizing s with
  | done r => simp [WProg.run, WProg.out]
  | bytes bs k ih => rw [run_bytes]; exact key bs k hr (fun s hs => ih hr s hs) s hs
  | num n v k ih => rw [run_num]; exact key (numBytes h e n v) k hr (fun s hs => ih hr s hs) s hs
  | room n k ih =>
    have h1 : (bufferCollector h e).canWrite n s = some true := by
      simp only [bufferCollector, defaultOps, BufC.canWrite]
      have := hr.1
      simp only [WProg.out] at hs
      simp; omega
    simp only [WProg.run, h1]
    exact ih hr.2 s hs

/-- A buffer keeps its length. -/
theorem run_buffer_length {h : Host} {e : Endian} (p : WProg) (s : BufC) :
    (p.run (bufferCollector h e) s).2.buf.length = s.buf.length := by
  have key : ∀ (bs : Bytes) (k : WProg), (∀ s, (k.run (bufferCollector h e) s).2.buf.length = s.buf.length) →
      ∀ s : BufC, (wnext (BufC.write bs s) (k.run (bufferCollector h e))).2.buf.length = s.buf.length := by
    intro bs k ih s
    simp only [BufC.write, wnext]
    split
    · rename_i hh
      split at hh
      · simp only [Prod.mk.injEq] at hh
        rw [ih, ← hh.2]
        simp only [List.length_append, List.length_take, List.length_drop]; omega
      · simp at hh
    · rename_i hh
      split at hh
      · simp at hh
      · simp only [Prod.mk.injEq] at hh
        rw [← hh.2]
  induction p generalizing s with
  | done r => rfl
  | bytes bs k ih => rw [run_bytes]; exact key bs k ih s
  | num n v k ih => rw [run_num]; exact key (numBytes h e n v) k ih s
  | room n k ih =>
    simp only [WProg.run]
    split
    · rfl
    · exact ih s

/-- If the program reports an error at the end, so does every run with a buffer. -/
theorem run_buffer_err {h : Host} {e : Endian} (p : WProg) (s : BufC) (er : Err)
    (hp : (p.out h e).2 = .error er) : ∃ er', (p.run (bufferCollector h e) s).1 = .error er' := by
  have key : ∀ (bs : Bytes) (k : WProg), (∀ s, ∃ er', (k.run (bufferCollector h e) s).1 = .error er') →
      ∀ s : BufC, ∃ er', (wnext (BufC.write bs s) (k.run (bufferCollector h e))).1 = .error er' := by
    intro bs k ih s
    unfold wnext
    split
    · exact ih _
    · exact ⟨_, rfl⟩
  induction p generalizing s with
  | done r => exact ⟨er, hp⟩
  | bytes bs k ih => rw [run_bytes]; exact key bs k (fun s => ih s hp) s
  | num n v k ih => rw [run_num]; exact key _ k (fun s => ih s hp) s
  | room n k ih =>
    simp only [WProg.run]
    split
    · exact ⟨_, rfl⟩
    · exact ih s hp

/-- If a run with a buffer succeeds then the output fits. -/
theorem run_buffer_fits {h : Host} {e : Endian} (p : WProg) (s : BufC)
    (hr : (p.run (bufferCollector h e) s).1 = .ok ()) (hs : s.pos ≤ s.buf.length) :
    (p.out h e).2 = .ok () ∧ s.pos + (p.out h e).1.length ≤ s.buf.length := by
  have key : ∀ (bs : Bytes) (k : WProg), (∀ s : BufC, (k.run (bufferCollector h e) s).1 = .ok () → s.pos ≤ s.buf.length →
      (k.out h e).2 = .ok () ∧ s.pos + (k.out h e).1.length ≤ s.buf.length) → ∀ s : BufC,
      (wnext (BufC.write bs s) (k.run (bufferCollector h e))).1 = .ok () →
      (k.out h e).2 = .ok () ∧ s.pos + (bs ++ (k.out h e).1).length ≤ s.buf.length := by
    intro bs k ih s hr
    unfold BufC.write at hr
    by_cases h1 : s.pos + bs.length ≤ s.buf.length
    · rw [if_pos h1] at hr
      simp only [wnext] at hr
      have hlen : (s.buf.take s.pos ++ bs ++ s.buf.drop (s.pos + bs.length)).length = s.buf.length := by
        simp only [List.length_append, List.length_take, List.length_drop]; omega
      have h2 := ih _ hr (by dsimp only; rw [hlen]; exact h1)
      dsimp only at h2
      rw [hlen] at h2
      exact ⟨h2.1, by rw [List.length_append]; omega⟩
    · rw [if_neg h1] at hr
      simp [wnext] at hr
  induction p generalizing s with
  | done r => exact ⟨hr, by simpa [WProg.out] using hs⟩
  | bytes bs k ih => rw [run_bytes] at hr; exact key bs k ih s hr
  | num n v k ih => rw [run_num] at hr; exact key _ k ih s hr
  | room n k ih =>
    simp only [WProg.run] at hr
    split at hr
    · simp at hr
    · exact ih s hr hs

/-- `SizeCalculatorCollector` counts. -/
theorem run_size {h : Host} {e : Endian} (p : WProg) (n : Nat) :
    p.run (sizeCalculator h) (h.wrap n) = ((p.out h e).2, h.wrap (n + (p.out h e).1.length)) := by
  induction p generalizing n with
  | done r => simp [WProg.run, WProg.out]
  | bytes bs k ih =>
    have := ih (n + bs.length)
    simp only [WProg.run, WProg.out, sizeCalculator, Host.wrap_add_left] at this ⊢
    rw [this]; simp [Nat.add_assoc]
  | num m v k ih =>
    have := ih (n + m)
    simp only [WProg.run, WProg.out, sizeCalculator, Host.wrap_add_left] at this ⊢
    rw [this]; simp [numBytes_length, Nat.add_assoc]
  | room m k ih => simp [WProg.run, WProg.out, sizeCalculator] at ih ⊢; rw [ih]

/-- What a `write_all` does: it hands over a prefix, and everything if it
succeeds; it fails only because of an event. -/
theorem writeAll_prefix : ∀ (evs : List SinkEv) (got bs : Bytes),
    (∃ n, (Sink.writeAll evs got bs).2.got = got ++ bs.take n) ∧
    ((Sink.writeAll evs got bs).1 = .ok () → (Sink.writeAll evs got bs).2.got = got ++ bs) ∧
    (∀ er, (Sink.writeAll evs got bs).1 = .error er → (er = .io .writeZero ∧ .accept 0 ∈ evs) ∨
      ∃ k, er = .io k ∧ k ≠ .interrupted ∧ .fault k ∈ evs) ∧
    (∀ ev ∈ (Sink.writeAll evs got bs).2.evs, ev ∈ evs)
  | evs, got, [] => by
    unfold Sink.writeAll; exact ⟨⟨0, by simp⟩, by simp, by simp, fun _ h => h⟩
  | [], got, b :: bs => by
    unfold Sink.writeAll; exact ⟨⟨(b :: bs).length, by simp⟩, by simp, by simp, fun _ h => h⟩
  | .accept 0 :: evs, got, b :: bs => by
    unfold Sink.writeAll
    exact ⟨⟨0, by simp⟩, by simp, fun er h => by simp at h; exact .inl ⟨h.symm, by simp⟩,
      fun _ h => List.mem_cons_of_mem _ h⟩
  | .accept (n + 1) :: evs, got, b :: bs => by
    unfold Sink.writeAll
    obtain ⟨⟨m, h1⟩, h2, h3, h4⟩ := writeAll_prefix evs (got ++ (b :: bs).take (n + 1)) ((b :: bs).drop (n + 1))
    refine ⟨⟨n + 1 + m, ?_⟩, ?_, ?_, fun ev h => List.mem_cons_of_mem _ (h4 ev h)⟩
    · rw [h1, List.append_assoc, List.take_add (i := n + 1)]
    · intro h; rw [h2 h, List.append_assoc, List.take_append_drop]
    · intro er h
      rcases h3 er h with ⟨g1, g2⟩ | ⟨k, g1, g2, g3⟩
      · exact .inl ⟨g1, List.mem_cons_of_mem _ g2⟩
      · exact .inr ⟨k, g1, g2, List.mem_cons_of_mem _ g3⟩
  | .fault .interrupted :: evs, got, b :: bs => by
    unfold Sink.writeAll
    obtain ⟨h1, h2, h3, h4⟩ := writeAll_prefix evs got (b :: bs)
    refine ⟨h1, h2, ?_, fun ev h => List.mem_cons_of_mem _ (h4 ev h)⟩
    intro er h
    rcases h3 er h with ⟨g1, g2⟩ | ⟨k, g1, g2, g3⟩
    · exact .inl ⟨g1, List.mem_cons_of_mem _ g2⟩
    · exact .inr ⟨k, g1, g2, List.mem_cons_of_mem _ g3⟩
  | .fault .unexpectedEof :: evs, got, b :: bs => by
    unfold Sink.writeAll
    exact ⟨⟨0, by simp⟩, by simp, fun er h => by simp at h; exact .inr ⟨_, h.symm, by simp, by simp⟩,
      fun _ h => List.mem_cons_of_mem _ h⟩
  | .fault .writeZero :: evs, got, b :: bs => by
    unfold Sink.writeAll
    exact ⟨⟨0, by simp⟩, by simp, fun er h => by simp at h; exact .inr ⟨_, h.symm, by simp, by simp⟩,
      fun _ h => List.mem_cons_of_mem _ h⟩
  | .fault (.other c) :: evs, got, b :: bs => by
    unfold Sink.writeAll
    exact ⟨⟨0, by simp⟩, by simp, fun er h => by simp at h; exact .inr ⟨_, h.symm, by simp, by simp⟩,
      fun _ h => List.mem_cons_of_mem _ h⟩

/-- A stream receives a prefix of the output.  All of it, and the program's own
result is returned, unless the stream fails. -/
theorem run_stream {h : Host} {e : Endian} (p : WProg) (s : Sink) :
    let r := p.run (writingCollector h e) s
    (∃ n, r.2.got = s.got ++ (p.out h e).1.take n) ∧
    ((r.1 = (p.out h e).2 ∧ r.2.got = s.got ++ (p.out h e).1) ∨
      (r.1 = .error (.io .writeZero) ∧ .accept 0 ∈ s.evs) ∨
      (∃ k, r.1 = .error (.io k) ∧ k ≠ .interrupted ∧ .fault k ∈ s.evs)) ∧
    (∀ ev ∈ r.2.evs, ev ∈ s.evs) := by
  have key : ∀ (bs : Bytes) (k : WProg), (∀ s : Sink, let r := k.run (writingCollector h e) s
      (∃ n, r.2.got = s.got ++ (k.out h e).1.take n) ∧
      ((r.1 = (k.out h e).2 ∧ r.2.got = s.got ++ (k.out h e).1) ∨
        (r.1 = .error (.io .writeZero) ∧ .accept 0 ∈ s.evs) ∨
        (∃ k, r.1 = .error (.io k) ∧ k ≠ .interrupted ∧ .fault k ∈ s.evs)) ∧
      (∀ ev ∈ r.2.evs, ev ∈ s.evs)) →
      ∀ s : Sink, let r := wnext (Sink.write bs s) (k.run (writingCollector h e))
      (∃ n, r.2.got = s.got ++ (bs ++ (k.out h e).1).take n) ∧
      ((r.1 = (k.out h e).2 ∧ r.2.got = s.got ++ (bs ++ (k.out h e).1)) ∨
        (r.1 = .error (.io .writeZero) ∧ .accept 0 ∈ s.evs) ∨
        (∃ k, r.1 = .error (.io k) ∧ k ≠ .interrupted ∧ .fault k ∈ s.evs)) ∧
      (∀ ev ∈ r.2.evs, ev ∈ s.evs) := by
    intro bs k ih s
    have hw := writeAll_prefix s.evs s.got bs
    unfold Sink.write
    generalize Sink.writeAll s.evs s.got bs = w at hw
    obtain ⟨w1, w2⟩ := w
    obtain ⟨⟨n, h1⟩, h2, h3, h4⟩ := hw
    cases w1 with
    | ok u =>
      have h2 := h2 rfl
      simp only [wnext] at h1 h2 h3 h4 ⊢
      obtain ⟨⟨m, g1⟩, g2, g3⟩ := ih w2
      refine ⟨⟨bs.length + m, ?_⟩, ?_, fun ev hev => h4 ev (g3 ev hev)⟩
      · rw [g1, h2, List.append_assoc, List.take_length_add_append]
      · rcases g2 with ⟨j1, j2⟩ | ⟨j1, j2⟩ | ⟨c, j1, j2, j3⟩
        · exact .inl ⟨j1, by rw [j2, h2, List.append_assoc]⟩
        · exact .inr (.inl ⟨j1, h4 _ j2⟩)
        · exact .inr (.inr ⟨c, j1, j2, h4 _ j3⟩)
    | error er =>
      simp only [wnext] at h1 h3 h4 ⊢
      refine ⟨⟨min n bs.length, ?_⟩, ?_, h4⟩
      · rw [h1, List.take_append_of_le_length (by omega)]
        congr 1
        exact List.take_eq_take_min
      · rcases h3 er rfl with ⟨j1, j2⟩ | ⟨c, j1, j2, j3⟩
        · exact .inr (.inl ⟨by rw [j1], j2⟩)
        · exact .inr (.inr ⟨c, by rw [j1], j2, j3⟩)
  induction p generalizing s with
  | done r => exact ⟨⟨0, by simp [WProg.run]⟩, .inl ⟨rfl, by simp [WProg.run, WProg.out]⟩, fun _ h => h⟩
  | bytes bs k ih => rw [run_bytes]; exact key bs k ih s
  | num n v k ih => rw [run_num]; exact key (numBytes h e n v) k ih s
  | room n k ih =>
    simp only [WProg.run, writingCollector, defaultOps, reduceCtorEq, if_false, WProg.out]
    exact ih s

end Verif
