import Verif.WriterRun
import Verif.Encode

/-!
# Writing to any stream

`write_to_stream` (src/writable.rs:221-230) takes any implementation of `std::io::Write`, and `write_to` any implementation of
`Writer`.  Here they are arbitrary programs with a state.
-/

namespace Verif

/-- An implementation of `std::io::Write::write`: gets a slice, answers how many of its bytes it has accepted or fails, and changes its
state. -/
abbrev WriteFn (σ : Type) := Bytes → σ → Except IoKind Nat × σ

/-- `std::io::Write::write_all` (standard library), as the method is defined by the trait: a loop around `write`.  `StdWriteAll w bs s
acc r s'`: called with `bs` while the stream is in state `s` the loop ends with the result `r`, having been told that `acc` was
accepted; the stream then is in state `s'`.  A count larger than the slice makes it panic (`&buf[n..]`). -/
inductive StdWriteAll {σ : Type} (w : WriteFn σ) : Bytes → σ → Bytes → Except Err Unit → σ → Prop
  | done {s} : StdWriteAll w [] s [] (.ok ()) s
  | zero {b bs s s'} : w (b :: bs) s = (.ok 0, s') → StdWriteAll w (b :: bs) s [] (.error (.io .writeZero)) s'
  | some {b bs s s' n acc r s''} : w (b :: bs) s = (.ok (n + 1), s') → n + 1 ≤ (b :: bs).length →
      StdWriteAll w ((b :: bs).drop (n + 1)) s' acc r s'' → StdWriteAll w (b :: bs) s ((b :: bs).take (n + 1) ++ acc) r s''
  | lie {b bs s s' n} : w (b :: bs) s = (.ok n, s') → (b :: bs).length < n →
      StdWriteAll w (b :: bs) s [] (.error (.panic .sliceIndex)) s'
  | again {b bs s s' acc r s''} : w (b :: bs) s = (.error .interrupted, s') →
      StdWriteAll w (b :: bs) s' acc r s'' → StdWriteAll w (b :: bs) s acc r s''
  | fail {b bs s s' k} : w (b :: bs) s = (.error k, s') → k ≠ .interrupted → StdWriteAll w (b :: bs) s [] (.error (.io k)) s'

/-- The loop does one thing only. -/
theorem StdWriteAll.det {σ : Type} {w : WriteFn σ} {bs : Bytes} {s s1 s2 : σ} {a1 a2 : Bytes} {r1 r2 : Except Err Unit}
    (h1 : StdWriteAll w bs s a1 r1 s1) (h2 : StdWriteAll w bs s a2 r2 s2) : a1 = a2 ∧ r1 = r2 ∧ s1 = s2 := by
  induction h1 generalizing a2 r2 s2 with
  | done => cases h2; exact ⟨rfl, rfl, rfl⟩
  | zero h => cases h2 <;> simp_all
  | some h hn _ ih =>
    cases h2 with
    | zero h' => rw [h] at h'; simp at h'
    | some h' hn' k =>
      rw [h] at h'
      simp only [Prod.mk.injEq, Except.ok.injEq, Nat.add_right_cancel_iff] at h'
      obtain ⟨h3, h4⟩ := h'
      subst h3 h4
      obtain ⟨g1, g2, g3⟩ := ih k
      exact ⟨by rw [g1], g2, g3⟩
    | lie h' hn' =>
      rw [h] at h'
      simp only [Prod.mk.injEq, Except.ok.injEq] at h'
      omega
    | again h' => rw [h] at h'; simp at h'
    | fail h' => rw [h] at h'; simp at h'
  | lie h hn =>
    cases h2 with
    | zero h' => rw [h] at h'; simp at h'; omega
    | some h' hn' k => rw [h] at h'; simp at h'; omega
    | lie h' hn' => rw [h] at h'; simp at h'; simp [h'.2]
    | again h' => rw [h] at h'; simp at h'
    | fail h' => rw [h] at h'; simp at h'
  | again h _ ih =>
    cases h2 with
    | again h' k =>
      rw [h] at h'
      simp only [Prod.mk.injEq, true_and] at h'
      subst h'
      exact ih k
    | zero h' => rw [h] at h'; simp at h'
    | some h' => rw [h] at h'; simp at h'
    | lie h' => rw [h] at h'; simp at h'
    | fail h' hk => rw [h] at h'; simp at h'; exact absurd h'.1.symm hk
  | fail h hk => cases h2 <;> simp_all

open Classical in
/-- `write_all` on a stream, along with the bytes it was told were accepted.  `diverge`: the loop does not end. -/
noncomputable def stdWriteAll {σ : Type} (w : WriteFn σ) (bs : Bytes) (s : σ × Bytes) : Except Err Unit × (σ × Bytes) :=
  if h : ∃ x : Bytes × Except Err Unit × σ, StdWriteAll w bs s.1 x.1 x.2.1 x.2.2 then
    (h.choose.2.1, (h.choose.2.2, s.2 ++ h.choose.1))
  else (.error .diverge, s)

theorem stdWriteAll_eq {σ : Type} {w : WriteFn σ} {bs acc : Bytes} {s s' : σ} {r : Except Err Unit} {got : Bytes}
    (h : StdWriteAll w bs s acc r s') : stdWriteAll w bs (s, got) = (r, (s', got ++ acc)) := by
  have hx : ∃ x : Bytes × Except Err Unit × σ, StdWriteAll w bs (s, got).1 x.1 x.2.1 x.2.2 := ⟨(acc, r, s'), h⟩
  unfold stdWriteAll
  rw [dif_pos hx]
  obtain ⟨h1, h2, h3⟩ := hx.choose_spec.det h
  rw [h1, h2, h3]

/-- `WritingCollector` — src/writable.rs:60-85 — on a stream of which `write_all` is `wr` (errors are converted, lines 69-72). -/
def collectorOn {σ : Type} (h : Host) (e : Endian) (wr : Bytes → σ → Except Err Unit × σ) : WriterOps σ :=
  defaultOps h e wr (fun _ _ => none)

/-- `write_to_stream` — src/writable.rs:221-230 — on a stream of which `write_all` is `wr`. -/
def writeToDevice {σ : Type} (T : Target) (e : Endian) (t : Ty) (v : Val) (wr : Bytes → σ → Except Err Unit × σ) (s : σ) :
    Except Err Unit × σ :=
  (encode T e t Cx.std v).run (collectorOn T.toHost e wr) s

/-! ## The calls -/

/-- The slices given to `write_bytes`, and the result, if none of the calls fails. -/
def WProg.calls (h : Host) (e : Endian) : WProg → List Bytes × Except Err Unit
  | .done r => ([], r)
  | .bytes bs k => let r := k.calls h e; (bs :: r.1, r.2)
  | .num n v k => let r := k.calls h e; (numBytes h e n v :: r.1, r.2)
  | .room _ k => k.calls h e

theorem calls_out (h : Host) (e : Endian) (p : WProg) : (p.calls h e).1.flatten = (p.out h e).1 ∧ (p.calls h e).2 = (p.out h e).2 := by
  induction p with
  | done r => exact ⟨rfl, rfl⟩
  | bytes bs k ih => simp only [WProg.calls, WProg.out, List.flatten_cons, ih.1, ih.2, and_self]
  | num n v k ih => simp only [WProg.calls, WProg.out, List.flatten_cons, ih.1, ih.2, and_self]
  | room n k ih => exact ih

/-- Specification: one call after another; the first error ends it. -/
def sendAll {σ : Type} (wr : Bytes → σ → Except Err Unit × σ) : List Bytes → Except Err Unit → σ → Except Err Unit × σ
  | [], r, s => (r, s)
  | c :: cs, r, s => match wr c s with
    | (.ok _, s') => sendAll wr cs r s'
    | (.error er, s') => (.error er, s')

theorem sendAll_cons {σ : Type} (wr : Bytes → σ → Except Err Unit × σ) (c : Bytes) (cs : List Bytes) (r : Except Err Unit) (s : σ) :
    sendAll wr (c :: cs) r s = wnext (wr c s) (sendAll wr cs r) := by
  simp only [sendAll, wnext]
  rcases wr c s with ⟨r', s'⟩
  cases r' <;> rfl

theorem run_calls {σ : Type} (h : Host) (e : Endian) (wr : Bytes → σ → Except Err Unit × σ) (p : WProg) (s : σ) :
    p.run (collectorOn h e wr) s = sendAll wr (p.calls h e).1 (p.calls h e).2 s := by
  have key : ∀ f g : σ → Except Err Unit × σ, (∀ s, f s = g s) → f = g := fun f g h => funext h
  induction p generalizing s with
  | done r => rfl
  | bytes bs k ih => rw [run_bytes, key _ _ ih]; exact (sendAll_cons ..).symm
  | num n v k ih => rw [run_num, key _ _ ih]; exact (sendAll_cons ..).symm
  | room n k ih => simp only [WProg.run, collectorOn, defaultOps, reduceCtorEq, if_false]; exact ih s

/-- With an own `Writer`, which may say that there is no room. -/
theorem run_calls_room {σ : Type} (h : Host) (e : Endian) (wr : Bytes → σ → Except Err Unit × σ) (can : Nat → σ → Option Bool)
    (p : WProg) (s : σ) :
    p.run (defaultOps h e wr can) s = sendAll wr (p.calls h e).1 (p.calls h e).2 s ∨
    ∃ pre n s', pre <+: (p.calls h e).1 ∧ sendAll wr pre (.ok ()) s = (.ok (), s') ∧ can n s' = some false ∧
      p.run (defaultOps h e wr can) s = (.error .unexpectedEndOfOutputBuffer, s') := by
  have key : ∀ (c : Bytes) (cs : List Bytes) (r : Except Err Unit) (f : σ → Except Err Unit × σ), (∀ s,
      f s = sendAll wr cs r s ∨ ∃ pre n s', pre <+: cs ∧ sendAll wr pre (.ok ()) s = (.ok (), s') ∧ can n s' = some false ∧
        f s = (.error .unexpectedEndOfOutputBuffer, s')) → ∀ s,
      wnext (wr c s) f = sendAll wr (c :: cs) r s ∨ ∃ pre n s', pre <+: c :: cs ∧ sendAll wr pre (.ok ()) s = (.ok (), s') ∧
        can n s' = some false ∧ wnext (wr c s) f = (.error .unexpectedEndOfOutputBuffer, s') := by
    intro c cs r f hf s
    rw [sendAll_cons]
    cases hc : wr c s with
    | mk r' s1 =>
      cases r' with
      | error er => exact .inl rfl
      | ok u =>
        rcases hf s1 with h1 | ⟨pre, n, s', h1, h2, h3, h4⟩
        · exact .inl h1
        · refine .inr ⟨c :: pre, n, s', List.prefix_cons_inj c |>.mpr h1, ?_, h3, h4⟩
          rw [sendAll_cons, hc]
          exact h2
  induction p generalizing s with
  | done r => exact .inl rfl
  | bytes bs k ih => rw [run_bytes]; exact key _ _ _ _ ih s
  | num n v k ih => rw [run_num]; exact key _ _ _ _ ih s
  | room n k ih =>
    by_cases hc : can n s = some false
    · exact .inr ⟨[], n, s, List.nil_prefix, rfl, hc, by simp [WProg.run, defaultOps, hc]⟩
    · have : (WProg.room n k).run (defaultOps h e wr can) s = k.run (defaultOps h e wr can) s := by
        simp [WProg.run, defaultOps, hc]
      rw [this]
      exact ih s

/-! ## Recording -/

/-- What `write` did during a call of `write_all` which ended, as events of a `Sink`: replaying them gives the same. -/
theorem record_writeAll {σ : Type} {w : WriteFn σ} (hw : ∀ bs s n, (w bs s).1 = .ok n → n ≤ bs.length) {bs acc : Bytes} {s s' : σ}
    {r : Except Err Unit} (h : StdWriteAll w bs s acc r s') :
    ∃ evs, ∀ got rest, Sink.writeAll (evs ++ rest) got bs = (r, ⟨got ++ acc, rest⟩) := by
  induction h with
  | done => exact ⟨[], fun got rest => by simp [Sink.writeAll]⟩
  | zero h => exact ⟨[.accept 0], fun got rest => by simp [Sink.writeAll]⟩
  | @some b bs s s' n acc r s'' h hn _ ih =>
    obtain ⟨evs, ih⟩ := ih
    refine ⟨.accept (n + 1) :: evs, fun got rest => ?_⟩
    rw [List.cons_append, Sink.writeAll, ih _ rest, List.append_assoc]
  | lie h hn => exact absurd (hw _ _ _ (by rw [h])) (by omega)
  | @again b bs s s' acc r s'' h _ ih =>
    obtain ⟨evs, ih⟩ := ih
    refine ⟨.fault .interrupted :: evs, fun got rest => ?_⟩
    rw [List.cons_append, Sink.writeAll]
    exact ih got rest
  | @fail b bs s s' k h hk =>
    refine ⟨[.fault k], fun got rest => ?_⟩
    cases k <;> simp_all [Sink.writeAll]

/-- The same for any number of calls, if all of them end. -/
theorem record_run {σ : Type} {w : WriteFn σ} (hw : ∀ bs s n, (w bs s).1 = .ok n → n ≤ bs.length) (h : Host) (e : Endian) (p : WProg)
    (s : σ) (got : Bytes) :
    (p.run (collectorOn h e (stdWriteAll w)) (s, got)).1 = .error .diverge ∨
    ∃ evs, ∀ rest, p.run (writingCollector h e) ⟨got, evs ++ rest⟩ =
      ((p.run (collectorOn h e (stdWriteAll w)) (s, got)).1, ⟨(p.run (collectorOn h e (stdWriteAll w)) (s, got)).2.2, rest⟩) := by
  have key : ∀ (bs : Bytes) (k : WProg), (∀ s got,
      (k.run (collectorOn h e (stdWriteAll w)) (s, got)).1 = .error .diverge ∨
      ∃ evs, ∀ rest, k.run (writingCollector h e) ⟨got, evs ++ rest⟩ =
        ((k.run (collectorOn h e (stdWriteAll w)) (s, got)).1, ⟨(k.run (collectorOn h e (stdWriteAll w)) (s, got)).2.2, rest⟩)) →
      ∀ s got,
      (wnext (stdWriteAll w bs (s, got)) (k.run (collectorOn h e (stdWriteAll w)))).1 = .error .diverge ∨
      ∃ evs, ∀ rest, wnext (Sink.write bs ⟨got, evs ++ rest⟩) (k.run (writingCollector h e)) =
        ((wnext (stdWriteAll w bs (s, got)) (k.run (collectorOn h e (stdWriteAll w)))).1,
          ⟨(wnext (stdWriteAll w bs (s, got)) (k.run (collectorOn h e (stdWriteAll w)))).2.2, rest⟩) := by
    intro bs k ih s got
    by_cases hx : ∃ x : Bytes × Except Err Unit × σ, StdWriteAll w bs s x.1 x.2.1 x.2.2
    · obtain ⟨⟨acc, r, s'⟩, hx⟩ := hx
      rw [stdWriteAll_eq hx]
      obtain ⟨evs, he⟩ := record_writeAll hw hx
      cases r with
      | error er =>
        exact .inr ⟨evs, fun rest => by rw [Sink.write, he]; rfl⟩
      | ok u =>
        rcases ih s' (got ++ acc) with h1 | ⟨evs', h1⟩
        · exact .inl h1
        · refine .inr ⟨evs ++ evs', fun rest => ?_⟩
          rw [Sink.write, List.append_assoc, he]
          exact h1 rest
    · refine .inl ?_
      rw [stdWriteAll, dif_neg hx]
      rfl
  induction p generalizing s got with
  | done r => exact .inr ⟨[], fun rest => rfl⟩
  | bytes bs k ih => simp only [run_bytes]; exact key bs k ih s got
  | num n v k ih => simp only [run_num]; exact key _ k ih s got
  | room n k ih =>
    simp only [WProg.run, collectorOn, writingCollector, defaultOps, reduceCtorEq, if_false]
    exact ih s got

/-- What is accepted is a prefix; all of it, if there is no error. -/
theorem StdWriteAll.prefix {σ : Type} {w : WriteFn σ} {bs acc : Bytes} {s s' : σ} {r : Except Err Unit}
    (h : StdWriteAll w bs s acc r s') : acc <+: bs ∧ (r = .ok () → acc = bs) ∧ r ≠ .error .diverge := by
  induction h with
  | done => simp
  | zero h => simp
  | @some b bs s s' n acc r s'' h hn _ ih =>
    obtain ⟨⟨t, ht⟩, h2, h3⟩ := ih
    refine ⟨⟨t, ?_⟩, fun hr => ?_, h3⟩
    · rw [List.append_assoc, ht, List.take_append_drop]
    · rw [h2 hr, List.take_append_drop]
  | lie h hn => simp
  | again h _ ih => exact ih
  | fail h hk => simp

/-- Errors come from `write`. -/
theorem StdWriteAll.cause {σ : Type} {w : WriteFn σ} (hw : ∀ bs s n, (w bs s).1 = .ok n → n ≤ bs.length) {bs acc : Bytes} {s s' : σ}
    {r : Except Err Unit} (h : StdWriteAll w bs s acc r s') {er : Err} (hr : r = .error er) :
    ∃ k, er = .io k ∧ k ≠ .interrupted ∧ ∃ c s, c ≠ [] ∧ ((w c s).1 = .error k ∨ (w c s).1 = .ok 0 ∧ k = .writeZero) := by
  induction h with
  | done => cases hr
  | zero h => cases hr; exact ⟨_, rfl, by simp, _, _, List.cons_ne_nil _ _, .inr ⟨by rw [h], rfl⟩⟩
  | some _ _ _ ih => exact ih hr
  | lie h hn => exact absurd (hw _ _ _ (by rw [h])) (by omega)
  | again _ _ ih => exact ih hr
  | fail h hk => cases hr; exact ⟨_, rfl, hk, _, _, List.cons_ne_nil _ _, .inl (by rw [h])⟩

theorem sendAll_cause {σ : Type} {wr : Bytes → σ → Except Err Unit × σ} {er : Err} : ∀ {cs : List Bytes} {s : σ},
    (sendAll wr cs (.ok ()) s).1 = .error er → ∃ c s, (wr c s).1 = .error er
  | [], _, h => by cases h
  | c :: cs, s, h => by
    rw [sendAll_cons] at h
    cases hc : wr c s with
    | mk r s' =>
      rw [hc] at h
      cases r with
      | ok u => exact sendAll_cause h
      | error er' => exact ⟨c, s, by rw [hc]; exact h⟩

/-! ## Does it end? -/

/-- The stream is interrupted again and again while `write_all` offers it the same slice. -/
def Interrupted {σ : Type} (w : WriteFn σ) (bs : Bytes) (st : Nat → σ) : Prop :=
  bs ≠ [] ∧ ∀ i, w bs (st i) = (.error .interrupted, st (i + 1))

theorem Interrupted.endless {σ : Type} {w : WriteFn σ} {bs acc : Bytes} {st : Nat → σ} (hi : Interrupted w bs st) {s s' : σ} {i : Nat}
    (hs : s = st i) {r : Except Err Unit} : ¬ StdWriteAll w bs s acc r s' := by
  intro h
  induction h generalizing i with
  | done => exact hi.1 rfl
  | zero h => rw [hs, hi.2 i] at h; simp at h
  | some h => rw [hs, hi.2 i] at h; simp at h
  | lie h => rw [hs, hi.2 i] at h; simp at h
  | again h _ ih =>
    rw [hs, hi.2 i] at h
    exact ih hi (i := i + 1) (by simpa using h.symm)
  | fail h hk => rw [hs, hi.2 i] at h; simp at h; exact hk h.1.symm

/-- If `write_all` does not end, then from some call of `write` on every one is interrupted. -/
theorem endless_interrupted {σ : Type} {w : WriteFn σ} : ∀ (n : Nat) (bs : Bytes) (s : σ), bs.length ≤ n →
    (¬ ∃ x : Bytes × Except Err Unit × σ, StdWriteAll w bs s x.1 x.2.1 x.2.2) → ∃ rest st, rest <:+ bs ∧ Interrupted w rest st
  | _, [], s, _, h => absurd ⟨([], .ok (), s), .done⟩ h
  | 0, b :: bs, _, hn, _ => by simp at hn
  | n + 1, b :: bs, s, hn, h => by
    let st : Nat → σ := fun i => Nat.repeat (fun s => (w (b :: bs) s).2) i s
    have step : ∀ i, st (i + 1) = (w (b :: bs) (st i)).2 := fun i => rfl
    by_cases hall : ∀ i, (w (b :: bs) (st i)).1 = .error .interrupted
    · exact ⟨b :: bs, st, List.suffix_refl _, by simp, fun i => Prod.ext (hall i) (step i).symm⟩
    · obtain ⟨i, hi⟩ := Classical.not_forall.mp hall
      -- the first call which is not interrupted
      have hend : ∀ i, (¬ ∃ x : Bytes × Except Err Unit × σ, StdWriteAll w (b :: bs) (st i) x.1 x.2.1 x.2.2) ∨
          ∃ j, j < i ∧ (w (b :: bs) (st j)).1 ≠ .error .interrupted ∧
            ¬ ∃ x : Bytes × Except Err Unit × σ, StdWriteAll w (b :: bs) (st j) x.1 x.2.1 x.2.2 := by
        intro i
        induction i with
        | zero => exact .inl h
        | succ i ih =>
          rcases ih with ih | ⟨j, h1, h2⟩
          · by_cases hint : (w (b :: bs) (st i)).1 = .error .interrupted
            · refine .inl fun ⟨x, hx⟩ => ih ⟨x, ?_⟩
              exact .again (Prod.ext hint (step i).symm) hx
            · exact .inr ⟨i, by omega, hint, ih⟩
          · exact .inr ⟨j, by omega, h2⟩
      have hj : ∃ j, (w (b :: bs) (st j)).1 ≠ .error .interrupted ∧
          ¬ ∃ x : Bytes × Except Err Unit × σ, StdWriteAll w (b :: bs) (st j) x.1 x.2.1 x.2.2 := by
        rcases hend i with h1 | ⟨j, _, h1⟩
        · exact ⟨i, hi, h1⟩
        · exact ⟨j, h1⟩
      obtain ⟨j, hj, hne⟩ := hj
      cases hw : w (b :: bs) (st j) with
      | mk r s' =>
        cases r with
        | error k =>
          refine absurd ⟨([], _, s'), .fail hw ?_⟩ hne
          intro hk; rw [hw, hk] at hj; exact hj rfl
        | ok m =>
          match m with
          | 0 => exact absurd ⟨([], _, s'), .zero hw⟩ hne
          | m + 1 =>
            by_cases hm : m + 1 ≤ (b :: bs).length
            · have hne' : ¬ ∃ x : Bytes × Except Err Unit × σ, StdWriteAll w ((b :: bs).drop (m + 1)) s' x.1 x.2.1 x.2.2 :=
                fun ⟨x, hx⟩ => hne ⟨(_, x.2.1, x.2.2), .some hw hm hx⟩
              obtain ⟨rest, st', h1, h2⟩ := endless_interrupted n _ s' (by simp at hn ⊢; omega) hne'
              exact ⟨rest, st', h1.trans (List.drop_suffix _ _), h2⟩
            · exact absurd ⟨([], _, s'), .lie hw (by omega)⟩ hne

/-- The same for any number of calls. -/
theorem run_endless {σ : Type} {w : WriteFn σ} (h : Host) (e : Endian) (p : WProg) (hp : (p.calls h e).2 ≠ .error .diverge)
    (s : σ × Bytes) (hd : (p.run (collectorOn h e (stdWriteAll w)) s).1 = .error .diverge) :
    ∃ rest st, Interrupted w rest st := by
  rw [run_calls] at hd
  generalize p.calls h e = c at hp hd
  obtain ⟨cs, r⟩ := c
  dsimp only at hp hd
  induction cs generalizing s with
  | nil => exact absurd hd hp
  | cons c cs ih =>
    rw [sendAll_cons] at hd
    by_cases hx : ∃ x : Bytes × Except Err Unit × σ, StdWriteAll w c s.1 x.1 x.2.1 x.2.2
    · obtain ⟨⟨acc, r', s'⟩, hx⟩ := hx
      have h1 := stdWriteAll_eq (got := s.2) hx
      rw [show (s.1, s.2) = s from rfl] at h1
      rw [h1] at hd
      cases r' with
      | ok u => exact ih _ hd
      | error er => exact absurd hd hx.prefix.2.2
    · obtain ⟨rest, st, _, h2⟩ := endless_interrupted _ c s.1 (Nat.le_refl _) hx
      exact ⟨rest, st, h2⟩

end Verif
