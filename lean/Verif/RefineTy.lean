import Verif.Refine

/-!
# Reading refines the parser: containers and all types
-/

namespace Verif

theorem P.map_bind {α β γ : Type} (p : P α) (f : α → P β) (g : β → γ) (bs : Bytes) :
    P.map g (P.bind p f) bs = P.bind p (fun a => P.map g (f a)) bs := by
  unfold P.map P.bind
  cases p bs <;> rfl

/-- The parser for `liftVals`. -/
def pLift (el : Elem) : Except Panic (List Bytes) → P (List Val)
  | .error p => P.fail (.panic p)
  | .ok ms => P.pure (ms.map el.ofMem)

theorem bulk_eq {T : Target} {e : Endian} {t : Ty} {cx : Cx} {rd : M Val} (hp : isPrimitive T t = true)
    (hl : layoutOk T t = true) (hb : bulkOk T e t = true) (n : Nat) (bs : Bytes) :
    P.bind (pTake (n * sizeOf T t)) (fun mem =>
      pLift (elemOf T t rd) (convSlice T.toHost e (elemOf T t rd) (chunks (sizeOf T t) n mem))) bs =
    pRep n (parse T e t cx) bs := by
  have hb' : bulkPlain t = true := by simp only [bulkOk, Bool.and_eq_true] at hb; exact hb.1
  obtain ⟨h1, h2⟩ := pRep_prim (cx := cx) (e := e) hp hl hb' n bs
  by_cases h : n * sizeOf T t ≤ bs.length
  · rw [h1 h, P.bind_ok (pTake_ok h), chunks_take (Nat.le_refl _)]
    obtain ⟨L', k1, k2⟩ := bulk_vals (rd := rd) hp hl hb (chunks (sizeOf T t) n bs) (chunks_mem h)
    rw [k1]
    simp only [pLift, P.pure, k2]
  · rw [h2 (by omega), P.bind_fail (pTake_fail (by omega))]

section
variable {σ : Type} {R : ReaderOps σ} {Inv : σ → Prop} {pend : σ → Bytes} {B : Nat}

theorem refines_lift (el : Elem) (r : Except Panic (List Bytes)) :
    Refines R Inv pend B (liftVals el r) (pLift el r) := by
  cases r
  · exact refines_fail _
  · exact refines_pure _

theorem outcome_precheck {α : Type} {s : σ} {x : PRes α} {r : Except Err α × σ}
    (h : Outcome Inv pend s x r) : Outcome Inv pend s (precheck x) r := by
  cases x with
  | ok a rest => trivial
  | fail e =>
    unfold precheck
    simp only
    split
    · exact h
    · rename_i he
      obtain ⟨e', h1, h2, h3, h4⟩ := h
      exact ⟨e', h1, .inl (by simpa [he] using h2), h3, h4⟩
  | amb e => exact h
  | unspec => trivial

theorem outcome_precheck_eof {α : Type} {s s' : σ} {x : PRes α} {e : Err} (he : e.isEof = true)
    (hi : Inv s') (hp : pend s = [] → pend s' = []) :
    Outcome Inv pend s (precheck x) (.error e, s') := by
  cases x with
  | ok a rest => trivial
  | fail e' =>
    unfold precheck
    simp only
    split
    · rename_i h'
      exact ⟨e, rfl, by simp [h', he], hi, hp⟩
    · exact ⟨e, rfl, .inr he, hi, hp⟩
  | amb e' => exact ⟨e, rfl, .inr he, hi, hp⟩
  | unspec => trivial

variable (L : Lawful R Inv pend) {T : Target} {e : Endian}
include L

theorem refines_bulk {t : Ty} {cx : Cx} {rd : M Val} (hp : isPrimitive T t = true)
    (hl : layoutOk T t = true) (hb : bulkOk T e t = true) (n : Nat) :
    Refines R Inv pend B (M.bind (readBytes (n * sizeOf T t)) fun mem =>
        liftVals (elemOf T t rd) (convSlice T.toHost e (elemOf T t rd) (chunks (sizeOf T t) n mem)))
      (pRep n (parse T e t cx)) :=
  refines_congr (refines_bind (refines_readBytes L _) fun _ => refines_lift _ _)
    fun bs _ => bulk_eq hp hl hb n bs

theorem refines_readVec {t : Ty} {cx : Cx} {rd : M Val} (hl : layoutOk T t = true)
    (hr : Refines R Inv pend B rd (parse T e t cx)) (n : Nat) :
    Refines R Inv pend B (readVec T.toHost e (elemOf T t rd) n) (pVec T e t (parse T e t cx) n) := by
  by_cases hu : (isPrimitive T t && !bulkOk T e t) = true
  · refine refines_congr (refines_unspec _) fun bs _ => ?_
    simp [pVec, hu, P.unspec]
  have hcore : Refines R Inv pend B
      (if n * sizeOf T t > T.isizeMax then M.fail (.panic .capacityOverflow)
       else .alloc n (minBytes T t) <|
        if isPrimitive T t then
          M.bind (readBytes (n * sizeOf T t)) fun mem =>
            liftVals (elemOf T t rd) (convSlice T.toHost e (elemOf T t rd) (chunks (sizeOf T t) n mem))
        else if sizeOf T t = 0 then M.pure (List.replicate n (zstVal t))
        else repeatM n rd)
      (fun bs => if n * sizeOf T t > T.isizeMax then .fail (.panic .capacityOverflow)
        else if !isPrimitive T t && sizeOf T t == 0 then .ok (List.replicate n (zstVal t)) bs
        else pRep n (parse T e t cx) bs) := by
    by_cases hc : n * sizeOf T t > T.isizeMax
    · simp only [hc, if_true]
      exact refines_fail _
    simp only [hc, if_false]
    apply refines_alloc
    by_cases hp : isPrimitive T t = true
    · simp only [hp, if_true, Bool.not_true, Bool.false_and]
      exact refines_bulk L hp hl (by simpa [hp] using hu) n
    · simp only [hp, Bool.not_false, Bool.true_and]
      by_cases hz : sizeOf T t = 0
      · simp only [hz]
        exact refines_pure _
      · simp only [hz]
        simp only [Bool.false_eq_true, if_false]
        simpa [hz] using refines_repeat hr n
  intro s hs hB
  have hcore := hcore s hs hB
  unfold readVec pVec
  simp only [hu]
  by_cases h1 : minBytes T t * n > T.usizeMax
  · simp only [elemOf, h1, if_true]
    exact outcome_eof rfl hs (.inl rfl)
  simp only [elemOf, h1, if_false]
  rw [run_canRead]
  by_cases h2 : minBytes T t * n > (pend s).length
  · simp only [h2, if_true]
    by_cases h3 : R.canRead (minBytes T t * n) s = some false
    · rw [if_pos h3]
      exact outcome_precheck_eof rfl hs fun h => h
    · rw [if_neg h3]
      exact outcome_precheck hcore
  · simp only [h2, if_false]
    have h3 : R.canRead (minBytes T t * n) s ≠ some false := by
      have : minBytes T t * n ≤ (pend s).length := by omega
      rcases L.canRead (minBytes T t * n) s hs with h | h <;> simp [h, this]
    rw [if_neg h3]
    exact hcore

omit L in
theorem native_chunks {t : Ty} (hp : isPrimitive T t = true) (hl : layoutOk T t = true)
    (he : (sizeOf T t == 1 || !e.conv T.toHost) = true) {n : Nat} {bs : Bytes}
    (h : n * sizeOf T t ≤ bs.length) :
    (chunks (sizeOf T t) n bs).map (ofMem T t) = (chunks (sizeOf T t) n bs).map (seqVal T e t) :=
  native_vals hp hl (by simpa using he) _ (chunks_mem h)

theorem refines_readCow {t : Ty} {cx : Cx} {rd : M Val} (hB : B ≤ T.isizeMax) (hl : layoutOk T t = true)
    (hr : Refines R Inv pend B rd (parse T e t cx)) (n : Nat) :
    Refines R Inv pend B (M.map CowVal.vals (readCow T.toHost e (elemOf T t rd) n))
      (pCow T e t (parse T e t cx) n) := by
  have hvec := refines_readVec L hl hr n
  have hvec' : Refines R Inv pend B
      (M.map CowVal.vals (M.map .owned (readVec T.toHost e (elemOf T t rd) n)))
      (pVec T e t (parse T e t cx) n) := by
    refine refines_congr (refines_map _ (refines_map _ hvec)) fun bs _ => ?_
    unfold P.map P.bind
    cases pVec T e t (parse T e t cx) n bs <;> rfl
  unfold readCow
  by_cases hc : (isPrimitive T t && (sizeOf T t == 1 || !e.conv T.toHost)) = true
  rotate_left
  · have hc' := hc
    unfold pCow
    simp only [elemOf] at hvec' ⊢
    simp only [hc, Bool.false_and]
    exact hvec'
  by_cases ho : (decide (n * sizeOf T t > T.usizeMax) || sizeOf T t == 0) = true
  · unfold pCow
    simp only [hc, ho, Bool.and_true, if_true]
    exact refines_unspec _
  have hq : pCow T e t (parse T e t cx) n = pVec T e t (parse T e t cx) n := by
    unfold pCow
    rw [Bool.not_eq_true] at ho
    rw [if_neg (by rw [ho]; simp)]
  rw [hq]
  have hp : isPrimitive T t = true := by simp only [Bool.and_eq_true] at hc; exact hc.1
  have hn : (sizeOf T t == 1 || !e.conv T.toHost) = true := by
    simp only [Bool.and_eq_true] at hc; exact hc.2
  simp only [Bool.or_eq_true, decide_eq_true_eq, beq_iff_eq, not_or, Nat.not_lt] at ho
  have hw : wmul T.toHost n (sizeOf T t) = n * sizeOf T t := by
    unfold wmul; rw [Nat.mod_eq_of_lt]; omega
  simp only [elemOf] at hvec' ⊢
  simp only [hc, if_true, hw]
  by_cases hu : bulkOk T e t = true
  rotate_left
  · refine refines_congr (refines_unspec _) fun bs _ => ?_
    simp [pVec, hp, hu, P.unspec]
  have hbp : bulkPlain t = true := by simp only [bulkOk, Bool.and_eq_true] at hu; exact hu.1
  have hmin := minBytes_prim t hp hl hbp
  intro s hs hBs
  show Outcome Inv pend s _ (Prog.run R (Prog.borrow _ _) s)
  rw [run_borrow]
  rcases L.borrow (n * sizeOf T t) s hs with h | ⟨h, a, s', h1, h2, h3⟩ | ⟨h, er, s', h1, h2, h3, h4⟩
  · rw [h]
    exact hvec' s hs hBs
  · rw [h1]
    have hlen : ((pend s).take (n * sizeOf T t)).length = n * sizeOf T t := by
      rw [List.length_take]; omega
    have hpv : pVec T e t (parse T e t cx) n (pend s) =
        .ok ((chunks (sizeOf T t) n (pend s)).map (seqVal T e t)) ((pend s).drop (n * sizeOf T t)) := by
      unfold pVec
      have k1 : ¬ n * sizeOf T t > T.usizeMax := by omega
      have k2 : ¬ n * sizeOf T t > T.isizeMax := by omega
      have k3 : ¬ n * sizeOf T t > (pend s).length := by omega
      simp only [hp, hu, hmin, Nat.mul_comm (sizeOf T t) n, k1, k2, k3]
      simpa using (pRep_prim (cx := cx) (e := e) hp hl hbp n (pend s)).1 h
    rw [hpv]
    simp only [hlen, ne_eq, not_true, if_false]
    have hck : (chunks (sizeOf T t) n ((pend s).take (n * sizeOf T t))).map (ofMem T t) =
        (chunks (sizeOf T t) n (pend s)).map (seqVal T e t) := by
      rw [chunks_take (Nat.le_refl _)]
      exact native_chunks hp hl hn h
    have hdiv : n * sizeOf T t / sizeOf T t = n := Nat.mul_div_cancel _ (by omega)
    split
    · simp only [ho.2, if_false, hdiv, hck]
      exact ⟨rfl, h2, h3, by simp⟩
    · have k2 : ¬ n * sizeOf T t > T.isizeMax := by omega
      simp only [k2, if_false, hck]
      exact ⟨rfl, h2, h3, by simp⟩
  · rw [h1]
    have hpv : ∃ x, pVec T e t (parse T e t cx) n (pend s) = precheck x := by
      unfold pVec
      have k1 : ¬ n * sizeOf T t > T.usizeMax := by omega
      simp only [hp, hu, hmin, Nat.mul_comm (sizeOf T t) n, k1, h, if_true]
      exact ⟨_, rfl⟩
    obtain ⟨x, hx⟩ := hpv
    rw [hx]
    refine outcome_precheck_eof h2 h3 ?_
    intro hh; rcases h4 with h4 | h4
    · rw [h4, hh]
    · exact h4

theorem refines_readCollection {t : Ty} {cx : Cx} {rd : M Val} (hl : layoutOk T t = true)
    (hr : Refines R Inv pend B rd (parse T e t cx)) (n : Nat) :
    Refines R Inv pend B (readCollection T.toHost e (elemOf T t rd) n)
      (pColl T e t (parse T e t cx) n) := by
  unfold readCollection pColl
  simp only [elemOf]
  refine refines_ite (fun hc => ?_) fun _ => refines_repeat hr n
  refine refines_ite (fun _ => refines_fail _) fun ho => ?_
  simp only [Bool.and_eq_true] at hc
  by_cases hz : (!bulkPlain t || sizeOf T t == 0) = true
  · rw [if_pos hz]
    exact refines_unspec _
  rw [if_neg hz]
  simp only [Bool.or_eq_true, Bool.not_eq_true', beq_iff_eq, not_or, Bool.not_eq_false] at hz
  intro s hs hBs
  rw [run_borrowR]
  rcases L.borrowR (n * sizeOf T t) s hs with h | ⟨h, a, s', h1, h2, h3⟩ | ⟨h, er, s', h1, h2, h3, h4⟩
  · rw [h]
    exact refines_repeat hr n s hs hBs
  · rw [h1, (pRep_prim (cx := cx) (e := e) hc.1 hl hz.1 n (pend s)).1 h]
    simp only [hz.2, if_false]
    rw [chunks_take (Nat.le_refl _), native_chunks hc.1 hl (by simpa using hc.2) h]
    exact ⟨rfl, h2, h3, by simp⟩
  · rw [h1, (pRep_prim (cx := cx) (e := e) hc.1 hl hz.1 n (pend s)).2 h]
    exact outcome_eof h2 h3 h4

omit L in
theorem refines_pair {pk pv : P Val} {ek ev : Elem} (hk : Refines R Inv pend B ek.read pk)
    (hv : Refines R Inv pend B ev.read pv) : Refines R Inv pend B (readPair ek ev) (pPair pk pv) :=
  refines_bind hk fun _ => refines_bind hv fun _ => refines_pure _

omit L in
theorem pRep_pair {k v : Ty} {cx cx' : Cx} (hpk : isPrimitive T k = true) (hpv : isPrimitive T v = true)
    (hlk : layoutOk T k = true) (hlv : layoutOk T v = true) (hbk : bulkPlain k = true)
    (hbv : bulkPlain v = true) (n : Nat) (bs : Bytes) :
    (n * (sizeOf T k + sizeOf T v) ≤ bs.length →
      pRep n (pPair (parse T e k cx) (parse T e v cx')) bs =
      .ok ((chunks (sizeOf T k + sizeOf T v) n bs).map fun m =>
        .pair (seqVal T e k (m.take (sizeOf T k))) (.pair (seqVal T e v (m.drop (sizeOf T k))) .unit))
        (bs.drop (n * (sizeOf T k + sizeOf T v)))) ∧
    (bs.length < n * (sizeOf T k + sizeOf T v) →
      pRep n (pPair (parse T e k cx) (parse T e v cx')) bs = .fail .unexpectedEndOfInput) := by
  induction n generalizing bs with
  | zero => simp [pRep, P.pure, chunks]
  | succ n ih =>
    obtain ⟨k1, k2⟩ := parse_prim (e := e) k cx bs hpk hlk hbk
    obtain ⟨v1, v2⟩ := parse_prim (e := e) v cx' (bs.drop (sizeOf T k)) hpv hlv hbv
    obtain ⟨i1, i2⟩ := ih (bs.drop (sizeOf T k + sizeOf T v))
    rw [Nat.succ_mul]
    simp only [List.length_drop] at v1 v2 i1 i2
    constructor
    · intro h
      have e1 : pPair (parse T e k cx) (parse T e v cx') bs =
          .ok (.pair (seqVal T e k (bs.take (sizeOf T k)))
            (.pair (seqVal T e v ((bs.drop (sizeOf T k)).take (sizeOf T v))) .unit))
            (bs.drop (sizeOf T k + sizeOf T v)) := by
        unfold pPair
        rw [P.bind_ok (k1 (by omega)), P.bind_ok (v1 (by omega)), List.drop_drop]
        rfl
      simp only [pRep]
      rw [P.bind_ok e1, P.bind_ok (i1 (by omega))]
      simp only [P.pure, chunks, List.map_cons, List.drop_drop, PRes.ok.injEq, List.cons.injEq, and_true]
      refine ⟨?_, ?_⟩
      · rw [List.take_take, Nat.min_eq_left (by omega), List.drop_take]
        simp
      · congr 1; omega
    · intro h
      simp only [pRep]
      by_cases hk : sizeOf T k ≤ bs.length
      · by_cases hv : sizeOf T v ≤ bs.length - sizeOf T k
        · have e1 : pPair (parse T e k cx) (parse T e v cx') bs =
              .ok (.pair (seqVal T e k (bs.take (sizeOf T k)))
                (.pair (seqVal T e v ((bs.drop (sizeOf T k)).take (sizeOf T v))) .unit))
                (bs.drop (sizeOf T k + sizeOf T v)) := by
            unfold pPair
            rw [P.bind_ok (k1 hk), P.bind_ok (v1 hv), List.drop_drop]
            rfl
          rw [P.bind_ok e1, P.bind_fail (i2 (by omega))]
        · refine P.bind_fail ?_
          unfold pPair
          rw [P.bind_ok (k1 hk), P.bind_fail (v2 (by omega))]
      · refine P.bind_fail ?_
        unfold pPair
        rw [P.bind_fail (k2 (by omega))]

theorem refines_readKV {k v : Ty} {cx cx' : Cx} {rk rv : M Val} (hlk : layoutOk T k = true)
    (hlv : layoutOk T v = true) (hrk : Refines R Inv pend B rk (parse T e k cx))
    (hrv : Refines R Inv pend B rv (parse T e v cx')) (n : Nat) :
    Refines R Inv pend B (readKV T.toHost e (elemOf T k rk) (elemOf T v rv) n)
      (pKV T e k v (parse T e k cx) (parse T e v cx') n) := by
  have hpair := refines_pair (ek := elemOf T k rk) (ev := elemOf T v rv) hrk hrv
  unfold readKV pKV
  refine refines_ite (fun hc => ?_) fun _ => refines_repeat hpair n
  refine refines_ite (fun _ => refines_fail _) fun ho => ?_
  simp only [elemOf, Bool.and_eq_true] at hc
  by_cases hz : (!(bulkPlain k && bulkPlain v) || sizeOf T k + sizeOf T v == 0) = true
  · rw [if_pos hz]
    exact refines_unspec _
  rw [if_neg hz]
  simp only [Bool.or_eq_true, Bool.not_eq_true', beq_iff_eq, not_or, Bool.not_eq_false,
    Bool.and_eq_true] at hz
  intro s hs hBs
  rw [run_borrowR]
  simp only [elemOf]
  obtain ⟨r1, r2⟩ := pRep_pair (cx := cx) (cx' := cx') (e := e) hc.1.1 hc.1.2 hlk hlv hz.1.1 hz.1.2 n (pend s)
  rcases L.borrowR (n * (sizeOf T k + sizeOf T v)) s hs with
    h | ⟨h, a, s', h1, h2, h3⟩ | ⟨h, er, s', h1, h2, h3, h4⟩
  · rw [h]
    exact refines_repeat hpair n s hs hBs
  · rw [h1, r1 h]
    simp only [hz.2, if_false]
    rw [chunks_take (Nat.le_refl _)]
    refine ⟨?_, h2, h3, by simp⟩
    refine congrArg Except.ok (List.map_congr_left fun m hm => ?_)
    have hlen := chunks_mem h m hm
    unfold ofMemPair
    simp only
    have hk' : sizeOf T k = 1 ∨ e.conv T.toHost = false := by
      rcases (by simpa using hc.2 : (sizeOf T k = 1 ∧ sizeOf T v = 1) ∨ e.conv T.toHost = false) with h | h
      · exact .inl h.1
      · exact .inr h
    have hv' : sizeOf T v = 1 ∨ e.conv T.toHost = false := by
      rcases (by simpa using hc.2 : (sizeOf T k = 1 ∧ sizeOf T v = 1) ∨ e.conv T.toHost = false) with h | h
      · exact .inl h.2
      · exact .inr h
    have w1 := native_vals hc.1.1 hlk hk' [m.take (sizeOf T k)] (by
      intro x hx; simp only [List.mem_singleton] at hx; subst hx; rw [List.length_take]; omega)
    have w2 := native_vals hc.1.2 hlv hv' [m.drop (sizeOf T k)] (by
      intro x hx; simp only [List.mem_singleton] at hx; subst hx; rw [List.length_drop]; omega)
    simp only [List.map_cons, List.map_nil, List.cons.injEq, and_true] at w1 w2
    rw [w1, w2]
  · rw [h1, r2 h]
    exact outcome_eof h2 h3 h4

omit L in
/-- An end-of-input failure is allowed where the parser is not definite. -/
theorem refines_weaken {α : Type} {p : M α} {q q' : P α} (h : Refines R Inv pend B p q)
    (hq : ∀ bs, bs.length ≤ B → q' bs = q bs ∨
      ∃ e e', q bs = .fail e ∧ e.isEof = true ∧ q' bs = .amb e') : Refines R Inv pend B p q' := by
  intro s hs hB
  have h1 := h s hs hB
  rcases hq _ hB with h2 | ⟨e, e', h2, h3, h4⟩
  · rwa [h2]
  · rw [h2] at h1
    rw [h4]
    obtain ⟨e'', k1, k2, k3, k4⟩ := h1
    exact ⟨e'', k1, .inr (by simpa [h3] using k2), k3, k4⟩

omit L in
theorem refines_of_run {α : Type} {p p' : M α} {q : P α} (h : ∀ s, p.run R s = p'.run R s)
    (hp : Refines R Inv pend B p' q) : Refines R Inv pend B p q := by
  intro s hs hB
  rw [h]
  exact hp s hs hB

omit L in
theorem run_map_bind {α β γ : Type} (p : M α) (f : α → M β) (g : β → γ) (s : σ) :
    (M.map g (M.bind p f)).run R s = (M.bind p fun a => M.map g (f a)).run R s := by
  unfold M.map M.bind
  rw [Prog.run_bind, Prog.run_bind, Prog.run_bind]
  generalize p.run R s = r
  obtain ⟨r1, s1⟩ := r
  cases r1 with
  | error e => rfl
  | ok a => simp only; rw [Prog.run_bind]

omit L in
theorem run_bind_map {α β γ : Type} (p : M α) (g : α → β) (f : β → M γ) (s : σ) :
    (M.bind (M.map g p) f).run R s = (M.bind p fun a => f (g a)).run R s := by
  unfold M.map M.bind
  rw [Prog.run_bind, Prog.run_bind, Prog.run_bind]
  generalize p.run R s = r
  obtain ⟨r1, s1⟩ := r
  cases r1 with
  | error e => rfl
  | ok a => rfl

omit L in
theorem refines_convert (c : Conv) (v : Val) : Refines R Inv pend B (convert c v) (pConvert c v) := by
  unfold convert pConvert
  cases c.apply v with
  | ok w => exact refines_pure _
  | error er => exact refines_fail _

omit L in
theorem refines_asStr (bs : Bytes) : Refines R Inv pend B (asStr bs) (pStrVal bs) :=
  refines_ite (fun _ => refines_pure _) fun _ => refines_fail _

omit L in
theorem chunks_u8 (n : Nat) (bs : Bytes) (h : n ≤ bs.length) :
    (chunks 1 n bs).map (seqVal T e (.prim .u8)) = (bs.take n).map fun b => .num b.toNat := by
  induction n generalizing bs with
  | zero => simp [chunks]
  | succ n ih =>
    cases bs with
    | nil => simp at h
    | cons b bs =>
      simp only [chunks, List.take_succ_cons, List.take_zero, List.drop_succ_cons, List.drop_zero, List.map_cons]
      rw [ih bs (by simpa using h)]
      congr 1
      cases e <;> simp [seqVal, Endian.num, ofLe]

omit L in
theorem toBytes_num (bs : Bytes) : toBytes (bs.map fun b => .num b.toNat) = bs := by
  unfold toBytes
  rw [List.map_map]
  conv => rhs; rw [← List.map_id bs]
  apply List.map_congr_left
  intro b _
  simp

omit L in
theorem pVec_u8 {n : Nat} {cx : Cx} (hn : n ≤ T.usizeMax) (bs : Bytes) (hb : bs.length ≤ T.isizeMax) :
    pVec T e (.prim .u8) (parse T e (.prim .u8) cx) n bs =
      if n > T.isizeMax then .amb (.panic .capacityOverflow)
      else if n ≤ bs.length then .ok ((bs.take n).map fun b => .num b.toNat) (bs.drop n)
      else .fail .unexpectedEndOfInput := by
  have hp : isPrimitive T (.prim .u8) = true := rfl
  have hk : bulkOk T e (.prim .u8) = true := by simp [bulkOk, bulkPlain, convOk]
  have hs : sizeOf T (.prim .u8) = 1 := rfl
  have hm : minBytes T (.prim .u8) = 1 := rfl
  obtain ⟨r1, r2⟩ := pRep_prim (cx := cx) (e := e) hp rfl (rfl : bulkPlain (.prim .u8) = true) n bs
  simp only [hs, Nat.mul_one] at r1 r2
  unfold pVec
  have k1 : ¬ n > T.usizeMax := by omega
  simp only [hp, hk, hs, hm, Nat.one_mul, Nat.mul_one, k1, if_false]
  by_cases h2 : n > T.isizeMax
  · have h3 : n > bs.length := by omega
    simp [h2, h3, precheck, Err.isEof]
  · by_cases h3 : n ≤ bs.length
    · have h4 : ¬ n > bs.length := by omega
      simp [h2, h3, h4, r1 h3, chunks_u8 n bs h3]
    · have h4 : n > bs.length := by omega
      simp [h2, h3, h4, r2 h4, precheck, Err.isEof]

omit L in
theorem pUntil_u8 {cx : Cx} (fuel : Nat) (bs : Bytes) (h : bs.length < fuel) :
    pUntilEof fuel (parse T e (.prim .u8) cx) bs = .ok (bs.map fun b => .num b.toNat) [] := by
  induction fuel generalizing bs with
  | zero => omega
  | succ fuel ih =>
    cases bs with
    | nil => simp [pUntilEof, parse, pNum, P.map, P.bind, pTake, Prim.size, Err.isEof]
    | cons b bs =>
      have h1 : parse T e (.prim .u8) cx (b :: bs) = .ok (.num b.toNat) bs := by
        simp only [parse, pNum, P.map, P.bind, pTake, Prim.size, P.pure]
        cases e <;> simp [Endian.num, ofLe]
      simp only [pUntilEof, h1, List.length_cons, Nat.lt_succ_self, if_true]
      rw [ih bs (by simpa using h)]
      rfl

/-- The reader lends bytes, and so can be used for types with references. -/
def Borrows {σ : Type} (R : ReaderOps σ) (Inv : σ → Prop) : Prop :=
  ∀ s, Inv s → (∀ n, (R.borrow n s).1 ≠ none) ∧ (R.borrowEof s).1 ≠ none

theorem refines_borrowBytes {α : Type} (hb : Borrows R Inv) (n : Nat) {f : Nat × Bytes → M α}
    {g : Bytes → P α} (hf : ∀ a bs, Refines R Inv pend B (f (a, bs)) (g bs)) :
    Refines R Inv pend B (M.bind (borrowBytes n) f) (P.bind (pTake n) g) := by
  intro s hs hBs
  rcases L.borrow n s hs with h | ⟨h, a, s', h1, h2, h3⟩ | ⟨h, er, s', h1, h2, h3, h4⟩
  · exact absurd (by rw [h]) ((hb s hs).1 n)
  · have : (borrowBytes n).run R s = (.ok (a, (pend s).take n), s') := by
      unfold borrowBytes; rw [run_borrow, h1]; rfl
    rw [M.run_bind_ok this, P.bind_ok (pTake_ok h)]
    have h5 := hf a ((pend s).take n) s' h2 (by rw [h3, List.length_drop]; omega)
    rw [h3] at h5
    generalize (f (a, (pend s).take n)).run R s' = r at h5
    have h6 : pend s = [] → pend s' = [] := fun hh => by rw [h3, hh]; simp
    cases hg : g ((pend s).take n) ((pend s).drop n) with
    | ok b rest =>
      rw [hg] at h5
      obtain ⟨k1, k2, k3, k4⟩ := h5
      refine ⟨k1, k2, k3, ?_⟩
      rw [h3, List.length_drop] at k4; omega
    | fail er => rw [hg] at h5; obtain ⟨e', k1, k2, k3, k4⟩ := h5; exact ⟨e', k1, k2, k3, fun hh => k4 (h6 hh)⟩
    | amb er => rw [hg] at h5; obtain ⟨e', k1, k2, k3, k4⟩ := h5; exact ⟨e', k1, k2, k3, fun hh => k4 (h6 hh)⟩
    | unspec => trivial
  · have : (borrowBytes n).run R s = (.error er, s') := by
      unfold borrowBytes; rw [run_borrow, h1]; rfl
    rw [M.run_bind_err this, P.bind_fail (pTake_fail h)]
    exact outcome_eof h2 h3 h4

theorem refines_borrowRest {α : Type} (hb : Borrows R Inv) {f : Nat × Bytes → M α}
    {g : Bytes → P α} (hf : ∀ a bs, Refines R Inv pend B (f (a, bs)) (g bs)) :
    Refines R Inv pend B (M.bind borrowRest f) (P.bind pRest g) := by
  intro s hs hBs
  rcases L.borrowEof s hs with h | ⟨a, s', h1, h2, h3⟩
  · exact absurd (by rw [h]) (hb s hs).2
  · have : borrowRest.run R s = (.ok (a, pend s), s') := by
      unfold borrowRest; rw [run_borrowEof, h1]; rfl
    rw [M.run_bind_ok this, P.bind_ok (show pRest (pend s) = .ok (pend s) [] from rfl)]
    have h5 := hf a (pend s) s' h2 (by rw [h3]; simp)
    rw [h3] at h5
    generalize (f (a, pend s)).run R s' = r at h5
    have h6 : pend s = [] → pend s' = [] := fun _ => h3
    cases hg : g (pend s) [] with
    | ok b rest =>
      rw [hg] at h5
      obtain ⟨k1, k2, k3, k4⟩ := h5
      refine ⟨k1, k2, k3, ?_⟩
      rw [h3] at k4; simp at k4; simp [k4]
    | fail er => rw [hg] at h5; obtain ⟨e', k1, k2, k3, k4⟩ := h5; exact ⟨e', k1, k2, k3, fun hh => k4 (h6 hh)⟩
    | amb er => rw [hg] at h5; obtain ⟨e', k1, k2, k3, k4⟩ := h5; exact ⟨e', k1, k2, k3, fun hh => k4 (h6 hh)⟩
    | unspec => trivial

theorem refines_u8 : Refines R Inv pend B (u8Elem T e).read (parse T e (.prim .u8) Cx.std) :=
  refines_map _ (refines_readNum L _ _ _)

theorem refines_readStr (hB : B ≤ T.isizeMax) (hF : B < T.fuel) (k : StrKind)
    (hb : k = .ref → Borrows R Inv) (len : Option Nat) :
    Refines R Inv pend B (readStr T e k len) (pStr T len) := by
  cases len with
  | some n =>
    by_cases hn : n > T.usizeMax
    · unfold pStr; simp only [hn, if_true]; exact refines_unspec _
    have hvec : ∀ bs : Bytes, bs.length ≤ B →
        P.bind (pVec T e (.prim .u8) (parse T e (.prim .u8) Cx.std) n) (fun vs => pStrVal (toBytes vs)) bs =
        pStr T (some n) bs := by
      intro bs hbs
      unfold P.bind
      rw [pVec_u8 (by omega) bs (by omega)]
      unfold pStr
      simp only [hn, if_false]
      by_cases h2 : n > T.isizeMax
      · simp [h2, P.amb]
      · by_cases h3 : n ≤ bs.length
        · rw [if_neg h2, if_neg h2, if_pos h3]
          simp only [P.bind, pTake_ok h3, toBytes_num]
        · rw [if_neg h2, if_neg h2, if_neg h3]
          simp only [P.bind, pTake_fail (Nat.lt_of_not_le h3)]
    cases k with
    | owned =>
      exact refines_congr (refines_bind (refines_readVec L rfl (refines_u8 L) n)
        fun vs => refines_asStr (toBytes vs)) hvec
    | cow =>
      refine refines_of_run (fun s => (run_bind_map (readCow T.toHost e (u8Elem T e) n) CowVal.vals
        (fun vs => asStr (toBytes vs)) s).symm) ?_
      refine refines_congr (refines_bind (refines_readCow L hB rfl (refines_u8 L) n)
        fun vs => refines_asStr (toBytes vs)) fun bs hbs => ?_
      have : pCow T e (.prim .u8) (parse T e (.prim .u8) Cx.std) n =
          pVec T e (.prim .u8) (parse T e (.prim .u8) Cx.std) n := by
        unfold pCow
        rw [if_neg]
        simp only [sizeOf, Prim.size, Nat.mul_one]
        simp [hn]
      rw [this]
      exact hvec bs hbs
    | ref =>
      refine refines_weaken (refines_borrowBytes L (hb rfl) n fun a bs => refines_asStr bs) fun bs hbs => ?_
      unfold pStr
      simp only [hn, if_false]
      by_cases h2 : n > T.isizeMax
      · refine .inr ⟨_, .panic .capacityOverflow, P.bind_fail (pTake_fail (by omega)), rfl, ?_⟩
        rw [if_pos h2]; rfl
      · exact .inl (by rw [if_neg h2])
  | none =>
    have hu : ∀ bs : Bytes, bs.length ≤ B →
        P.bind (pUntilEof T.fuel (parse T e (.prim .u8) Cx.std)) (fun vs => pStrVal (toBytes vs)) bs =
        pStr T none bs := by
      intro bs hbs
      unfold P.bind
      rw [pUntil_u8 _ bs (by omega)]
      simp [pStr, P.bind, pRest, toBytes_num]
    cases k with
    | owned =>
      exact refines_congr (refines_bind (refines_untilEof (refines_u8 L) _)
        fun vs => refines_asStr (toBytes vs)) hu
    | cow =>
      exact refines_congr (refines_bind (refines_untilEof (refines_u8 L) _)
        fun vs => refines_asStr (toBytes vs)) hu
    | ref => exact refines_borrowRest L (hb rfl) fun a bs => refines_asStr bs

theorem refines_constant (hB : B ≤ T.isizeMax) (hT : T.Ok) (c : Bytes) :
    Refines R Inv pend B (readConstant T.toHost e (u8Elem T e) c) (pConst T c) := by
  unfold pConst
  by_cases hc : c.length > T.isizeMax
  · rw [if_pos hc]; exact refines_unspec _
  rw [if_neg hc]
  have hinj : ∀ bs : Bytes, (bs.map fun b => Val.num b.toNat) = (c.map fun b => .num b.toNat) ↔ bs = c := by
    intro bs
    constructor
    · intro h
      have := congrArg toBytes h
      rwa [toBytes_num, toBytes_num] at this
    · rintro rfl; rfl
  have hvec : Refines R Inv pend B
      (M.bind (readVec T.toHost e (u8Elem T e) c.length) fun data =>
        if data = c.map (fun b => .num b.toNat) then M.pure () else M.fail (.expectedConstant c))
      (P.bind (pTake c.length) fun bs => if bs = c then P.pure () else P.fail (.expectedConstant c)) := by
    refine refines_congr (refines_bind (refines_readVec L rfl (refines_u8 L) c.length) fun vs =>
      refines_ite (q := P.pure ()) (q' := P.fail (.expectedConstant c)) (fun _ => refines_pure _)
        fun _ => refines_fail _) fun bs hbs => ?_
    have hle : c.length ≤ T.usizeMax := by have := hT.isize; omega
    unfold P.bind
    rw [pVec_u8 hle bs (by omega), if_neg hc]
    by_cases h3 : c.length ≤ bs.length
    · simp only [h3, if_true, pTake_ok h3, hinj]
    · simp only [h3, if_false, pTake_fail (Nat.lt_of_not_le h3)]
  intro s hs hBs
  unfold readConstant
  rw [run_borrow]
  rcases L.borrow c.length s hs with h | ⟨h, a, s', h1, h2, h3⟩ | ⟨h, er, s', h1, h2, h3, h4⟩
  · rw [h]
    exact hvec s hs hBs
  · rw [h1, P.bind_ok (pTake_ok h)]
    simp only
    split
    · exact ⟨rfl, h2, h3, by simp⟩
    · refine ⟨_, rfl, by simp [Err.isEof], h2, fun hh => ?_⟩
      show pend s' = []
      rw [h3, hh]; simp
  · rw [h1, P.bind_fail (pTake_fail h)]
    exact outcome_eof h2 h3 h4

theorem refines_readSeq {t : Ty} {rd : M Val} (hB : B ≤ T.isizeMax) (hl : layoutOk T t = true)
    (hr : Refines R Inv pend B rd (parse T e t Cx.std)) (k : SeqKind)
    (hb : k = .ref → Borrows R Inv ∧ (sizeOf T t = 1 ∨ e.conv T.toHost = false)) (len : Option Nat) :
    Refines R Inv pend B (readSeq T e k (elemOf T t rd) len) (pSeq T e k t (parse T e t Cx.std) len) := by
  cases k with
  | vec =>
    cases len with
    | some n => exact refines_map _ (refines_readVec L hl hr n)
    | none => exact refines_map _ (refines_untilEof hr _)
  | cow =>
    cases len with
    | some n =>
      exact refines_of_run (fun s => (run_bind_map (readCow T.toHost e (elemOf T t rd) n) CowVal.vals
        (fun vs => M.pure (Val.list vs)) s).symm) (refines_map _ (refines_readCow L hB hl hr n))
    | none => exact refines_map _ (refines_untilEof hr _)
  | ref =>
    obtain ⟨hb, hn⟩ := hb rfl
    cases len with
    | some n =>
      refine refines_of_run (p' := M.map .list (if n * sizeOf T t > T.usizeMax then M.fail .outOfRangeLength
        else M.bind (borrowBytes (n * sizeOf T t)) fun r => M.pure ((chunks (sizeOf T t) n r.2).map (ofMem T t))))
        (fun s => ?_) ?_
      · unfold readSeq readRefSlice
        simp only [elemOf]
        by_cases ho : n * sizeOf T t > T.usizeMax
        · simp only [ho, if_true]; rfl
        · simp only [ho, if_false]
          rw [run_map_bind, run_map_bind]; rfl
      · unfold pSeq
        refine refines_map _ ?_
        unfold pRef
        refine refines_ite (fun _ => refines_fail _) fun ho => ?_
        by_cases hp : (isPrimitive T t && bulkPlain t) = true
        · rw [if_pos hp]
          simp only [Bool.and_eq_true] at hp
          refine refines_congr (refines_borrowBytes (g := fun bs =>
            P.pure ((chunks (sizeOf T t) n bs).map (ofMem T t))) L hb _ fun a bs => refines_pure _)
            fun bs _ => ?_
          obtain ⟨r1, r2⟩ := pRep_prim (cx := Cx.std) (e := e) hp.1 hl hp.2 n bs
          by_cases h : n * sizeOf T t ≤ bs.length
          · rw [P.bind_ok (pTake_ok h), r1 h, chunks_take (Nat.le_refl _),
              native_vals hp.1 hl hn _ (chunks_mem h)]
            rfl
          · rw [P.bind_fail (pTake_fail (by omega)), r2 (by omega)]
        · rw [if_neg hp]; exact refines_unspec _
    | none =>
      refine refines_of_run (p' := M.map .list (M.bind borrowRest fun r =>
        if sizeOf T t = 0 then M.fail (.panic .divByZero)
        else M.pure ((chunks (sizeOf T t) (r.2.length / sizeOf T t) r.2).map (ofMem T t)))) (fun s => ?_) ?_
      · unfold readSeq readRefSliceRest
        simp only [elemOf]
        rw [run_map_bind, run_map_bind]
        congr 1
        congr 1
        funext r
        by_cases hz : sizeOf T t = 0
        · simp only [hz, if_true]; rfl
        · simp only [hz, if_false]; rfl
      · unfold pSeq
        refine refines_map _ ?_
        unfold pRefRest
        by_cases hz : sizeOf T t = 0
        · simp only [hz, if_true]
          exact refines_congr (refines_borrowRest L hb (g := fun _ => P.fail (.panic .divByZero))
            fun a bs => refines_fail _) fun bs _ => rfl
        simp only [hz, if_false]
        by_cases hp : (isPrimitive T t && bulkPlain t) = true
        · simp only [hp, if_true]
          simp only [Bool.and_eq_true] at hp
          refine refines_congr (refines_borrowRest (g := fun bs =>
            P.pure ((chunks (sizeOf T t) (bs.length / sizeOf T t) bs).map (ofMem T t))) L hb
              fun a bs => refines_pure _) fun bs _ => ?_
          have h : bs.length / sizeOf T t * sizeOf T t ≤ bs.length := Nat.div_mul_le_self _ _
          rw [(pRep_prim (cx := Cx.std) (e := e) hp.1 hl hp.2 (bs.length / sizeOf T t) bs).1 h,
            ← native_vals hp.1 hl hn _ (chunks_mem h)]
          rfl
        · simp only [hp]
          exact refines_unspec _

theorem refines_readArray {t : Ty} {rd : M Val} (hl : layoutOk T t = true)
    (hr : Refines R Inv pend B rd (parse T e t Cx.std)) (inl : Bool) (n : Nat) :
    Refines R Inv pend B (readArray T e inl (elemOf T t rd) n) (pArray T e inl t (parse T e t Cx.std) n) := by
  unfold readArray pArray
  simp only [elemOf]
  by_cases hc : (!inl && isPrimitive T t) = true
  · simp only [hc, if_true, Bool.true_and]
    by_cases hb : bulkOk T e t = true
    · simp only [hb]
      refine refines_of_run (fun s => (run_map_bind (readBytes (n * sizeOf T t)) (fun mem =>
        liftVals (elemOf T t rd) (convSlice T.toHost e (elemOf T t rd) (chunks (sizeOf T t) n mem)))
        Val.list s).symm) ?_
      simp only [Bool.and_eq_true] at hc
      exact refines_map _ (refines_bulk L hc.2 hl hb n)
    · simp only [hb]
      exact refines_unspec _
  · simp only [hc, Bool.false_and]
    exact refines_map _ (refines_repeat hr n)

theorem refines_tag (h : Host) (d : EnumDesc) :
    Refines R Inv pend B (readTag h e d) (pTag e d) := by
  obtain ⟨lt, pk⟩ := d
  cases pk <;> cases lt <;> unfold readTag pTag <;> simp only
  all_goals first
    | exact refines_readVarint L h e
    | exact refines_peekVarint L h e
    | exact refines_readNum L h e _
    | exact refines_peekNum L h e _

theorem refines_duration (h : Host) : Refines R Inv pend B (readDuration h e) (pDuration e) :=
  refines_bind (refines_readNum L h e 8) fun _ => refines_bind (refines_readNum L h e 4) fun _ =>
    refines_ite (fun _ => refines_pure _) fun _ => refines_fail _

theorem refines_ipv6 : Refines R Inv pend B (readIpv6 T.toHost e) (pIpv6 T e) :=
  refines_map _ (refines_readBytes L 16)

theorem refines_bool (h : Host) : Refines R Inv pend B (readBool h e) (pBool e) :=
  refines_map _ (refines_readNum L h e 1)

end

mutual
/-- No references in the type: it can be read from any reader. -/
def noRefs : Ty → Bool
  | .str k => k != .ref
  | .seq k t => k != .ref && noRefs t
  | .refArray _ _ => false
  | .set t | .array _ t | .option t | .range t | .rangeInc t | .box t | .via _ t => noRefs t
  | .map a b | .result a b | .pair a b => noRefs a && noRefs b
  | .struct _ fs => noRefsFields fs
  | .enum _ vs => noRefsVariants vs
  | _ => true
/-- Fields. -/
def noRefsFields : Fields → Bool
  | .nil => true
  | .cons _ t fs => noRefs t && noRefsFields fs
/-- Variants. -/
def noRefsVariants : Variants → Bool
  | .nil => true
  | .cons _ fs vs => noRefsFields fs && noRefsVariants vs
end

section
variable {σ : Type} {R : ReaderOps σ} {Inv : σ → Prop} {pend : σ → Bytes} {B : Nat}
variable (L : Lawful R Inv pend) {T : Target} (hT : T.Ok) (hB : B ≤ T.isizeMax) (hF : B < T.fuel)
variable {e : Endian}
include L hT hB hF

mutual
/-- Reading any type with any reader does what the parser says. -/
theorem decode_refines : ∀ (t : Ty) (cx : Cx), layoutOk T t = true → (noRefs t = true ∨ Borrows R Inv) →
    Refines R Inv pend B (decode T e t cx) (parse T e t cx)
  | .prim p, _, _, _ => by unfold decode parse; exact refines_map _ (refines_readNum L _ _ _)
  | .usize, _, _, _ => by
    unfold decode parse
    exact refines_bind (refines_readNum L _ _ _) fun n =>
      refines_ite (fun _ => refines_fail _) fun _ => refines_pure _
  | .bool, _, _, _ => by unfold decode parse; exact refines_map _ (refines_bool L _)
  | .char, _, _, _ => by
    unfold decode parse
    exact refines_bind (refines_readNum L _ _ _) fun n =>
      refines_ite (fun _ => refines_pure _) fun _ => refines_fail _
  | .nonZero p, _, _, _ => by
    unfold decode parse
    exact refines_bind (refines_readNum L _ _ _) fun n =>
      refines_ite (fun _ => refines_fail _) fun _ => refines_pure _
  | .atomic p, _, _, _ => by unfold decode parse; exact refines_map _ (refines_readNum L _ _ _)
  | .ipv4, _, _, _ => by unfold decode parse; exact refines_map _ (refines_readNum L _ _ _)
  | .ipv6, _, _, _ => by unfold decode parse; exact refines_ipv6 L
  | .ipAddr, _, _, _ => by
    unfold decode parse
    exact refines_bind (refines_readNum L _ _ _) fun n =>
      refines_ite (fun _ => refines_map _ (refines_readNum L _ _ _)) fun _ =>
        refines_ite (fun _ => refines_map _ (refines_ipv6 L)) fun _ => refines_fail _
  | .duration, _, _, _ => by unfold decode parse; exact refines_map _ (refines_duration L _)
  | .systemTime, _, _, _ => by
    unfold decode parse
    exact refines_bind (refines_duration L _) fun n =>
      refines_ite (fun _ => refines_pure _) fun _ => refines_fail _
  | .endianness, _, _, _ => by
    unfold decode parse
    exact refines_bind (refines_readNum L _ _ _) fun n =>
      refines_ite (fun _ => refines_pure _) fun _ =>
        refines_ite (fun _ => refines_pure _) fun _ => refines_fail _
  | .varint64, _, _, _ => by unfold decode parse; exact refines_map _ (refines_readVarint L _ _)
  | .uuid, _, _, _ => by unfold decode parse; exact refines_map _ (refines_readBytes L _)
  | .str k, cx, _, hb => by
    unfold decode parse
    refine refines_bind (refines_readLenR L _ _ _) fun len => refines_readStr L hB hF k (fun hk => ?_) len
    rcases hb with h | h
    · simp [noRefs, hk] at h
    · exact h
  | .seq k t, cx, hl, hb => by
    unfold decode parse
    simp only [layoutOk] at hl
    refine refines_ite (fun _ => refines_fail _) fun hc => ?_
    refine refines_bind (refines_readLenR L _ _ _) fun len => ?_
    refine refines_readSeq L hB hl (decode_refines t Cx.std hl ?_) k (fun hk => ?_) len
    · rcases hb with h | h
      · simp only [noRefs, Bool.and_eq_true] at h; exact .inl h.2
      · exact .inr h
    · subst hk
      refine ⟨?_, ?_⟩
      · rcases hb with h | h
        · simp [noRefs] at h
        · exact h
      · by_cases h1 : sizeOf T t = 1
        · exact .inl h1
        · refine .inr ?_
          simpa [h1] using hc
  | .set t, cx, hl, hb => by
    unfold decode parse
    simp only [layoutOk] at hl
    simp only [noRefs] at hb
    have ih := decode_refines t Cx.std hl hb
    refine refines_bind (refines_readLenR L _ _ _) fun len => ?_
    cases len with
    | some n => exact refines_map _ (refines_readCollection L hl ih n)
    | none => exact refines_map _ (refines_untilEof ih _)
  | .map k v, cx, hl, hb => by
    unfold decode parse
    simp only [layoutOk, Bool.and_eq_true] at hl
    simp only [noRefs, Bool.and_eq_true] at hb
    have ihk := decode_refines k Cx.std hl.1 (hb.imp (·.1) id)
    have ihv := decode_refines v Cx.std hl.2 (hb.imp (·.2) id)
    refine refines_bind (refines_readLenR L _ _ _) fun len => ?_
    cases len with
    | some n => exact refines_map _ (refines_readKV L hl.1 hl.2 ihk ihv n)
    | none => exact refines_map _ (refines_untilEof (refines_pair (ek := elemOf T k _) (ev := elemOf T v _) ihk ihv) _)
  | .array n t, cx, hl, hb => by
    unfold decode parse
    simp only [layoutOk] at hl
    simp only [noRefs] at hb
    exact refines_readArray L hl (decode_refines t Cx.std hl hb) _ _
  | .refArray n t, cx, hl, hb => by
    unfold decode parse
    simp only [layoutOk] at hl
    have hb : Borrows R Inv := by
      rcases hb with h | h
      · simp [noRefs] at h
      · exact h
    refine refines_ite (fun _ => refines_fail _) fun hc => ?_
    have hn : sizeOf T t = 1 ∨ e.conv T.toHost = false := by
      by_cases h1 : sizeOf T t = 1
      · exact .inl h1
      · refine .inr ?_
        simpa [h1] using hc
    by_cases hp : (isPrimitive T t && bulkPlain t) = true
    · rw [if_pos hp]
      simp only [Bool.and_eq_true] at hp
      refine refines_congr (refines_borrowBytes (g := fun bs =>
        P.pure (.list ((chunks (sizeOf T t) n bs).map (ofMem T t)))) L hb _ fun a bs => refines_pure _)
        fun bs _ => ?_
      rw [Nat.mul_comm]
      obtain ⟨r1, r2⟩ := pRep_prim (cx := Cx.std) (e := e) hp.1 hl hp.2 n bs
      by_cases h : n * sizeOf T t ≤ bs.length
      · rw [P.bind_ok (pTake_ok h), P.map_ok (r1 h), chunks_take (Nat.le_refl _),
          native_vals hp.1 hl hn _ (chunks_mem h)]
        rfl
      · rw [P.bind_fail (pTake_fail (by omega)), P.map_fail (r2 (by omega))]
    · rw [if_neg hp]; exact refines_unspec _
  | .option t, cx, hl, hb => by
    unfold decode parse
    simp only [layoutOk] at hl
    simp only [noRefs] at hb
    exact refines_bind (refines_bool L _) fun flag => refines_ite
      (fun _ => refines_map _ (decode_refines t _ hl hb)) fun _ => refines_pure _
  | .result t er, cx, hl, hb => by
    unfold decode parse
    simp only [layoutOk, Bool.and_eq_true] at hl
    simp only [noRefs, Bool.and_eq_true] at hb
    exact refines_bind (refines_bool L _) fun flag => refines_ite
      (fun _ => refines_map _ (decode_refines t _ hl.1 (hb.imp (·.1) id)))
      fun _ => refines_map _ (decode_refines er _ hl.2 (hb.imp (·.2) id))
  | .range t, cx, hl, hb => by
    unfold decode parse
    simp only [layoutOk] at hl
    simp only [noRefs] at hb
    exact refines_bind (decode_refines t _ hl hb) fun _ =>
      refines_bind (decode_refines t _ hl hb) fun _ => refines_pure _
  | .rangeInc t, cx, hl, hb => by
    unfold decode parse
    simp only [layoutOk] at hl
    simp only [noRefs] at hb
    exact refines_bind (decode_refines t _ hl hb) fun _ =>
      refines_bind (decode_refines t _ hl hb) fun _ => refines_pure _
  | .unit, _, _, _ => by unfold decode parse; exact refines_pure _
  | .pair a b, cx, hl, hb => by
    unfold decode parse
    simp only [layoutOk, Bool.and_eq_true] at hl
    simp only [noRefs, Bool.and_eq_true] at hb
    exact refines_bind (decode_refines a _ hl.1 (hb.imp (·.1) id)) fun _ =>
      refines_bind (decode_refines b _ hl.2 (hb.imp (·.2) id)) fun _ => refines_pure _
  | .box t, cx, hl, hb => by
    unfold decode parse
    simp only [layoutOk] at hl
    simp only [noRefs] at hb
    exact decode_refines t _ hl hb
  | .via c t, cx, hl, hb => by
    unfold decode parse
    simp only [layoutOk] at hl
    simp only [noRefs] at hb
    exact refines_bind (decode_refines t _ hl hb) fun _ => refines_convert _ _
  | .struct d fs, cx, hl, hb => by
    unfold decode parse
    simp only [layoutOk, Bool.and_eq_true] at hl
    simp only [noRefs] at hb
    exact decodeFields_refines fs [] hl.2 hb
  | .enum d vs, cx, hl, hb => by
    unfold decode parse
    simp only [layoutOk] at hl
    simp only [noRefs] at hb
    exact refines_bind (refines_tag L _ _) fun tag => decodeVariants_refines vs tag 0 hl hb
theorem decodeFields_refines : ∀ (fs : Fields) (prev : List Val), layoutOkFields T fs = true →
    (noRefsFields fs = true ∨ Borrows R Inv) →
    Refines R Inv pend B (decodeFields T e fs prev) (parseFields T e fs prev)
  | .nil, _, _, _ => by unfold decodeFields parseFields; exact refines_pure _
  | .cons a t fs, prev, hl, hb => by
    unfold decodeFields parseFields
    simp only [layoutOkFields, Bool.and_eq_true] at hl
    simp only [noRefsFields, Bool.and_eq_true] at hb
    refine refines_ite (fun _ => refines_map _ (decodeFields_refines fs prev hl.2 (hb.imp (·.2) id)))
      fun _ => ?_
    have h1 : Refines R Inv pend B
        (if a.varint then M.map .num (readVarint T.toHost e) else decode T e t (a.cx T.toHost prev))
        (if a.varint then P.map .num pVarint else parse T e t (a.cx T.toHost prev)) :=
      refines_ite (fun _ => refines_map _ (refines_readVarint L _ _))
        fun _ => decode_refines t _ hl.1 (hb.imp (·.1) id)
    have h2 : Refines R Inv pend B
        (if a.pre.isEmpty then
          (if a.varint then M.map .num (readVarint T.toHost e) else decode T e t (a.cx T.toHost prev))
         else M.bind (readConstant T.toHost e (u8Elem T e) a.pre) fun _ =>
          (if a.varint then M.map .num (readVarint T.toHost e) else decode T e t (a.cx T.toHost prev)))
        (if a.pre.isEmpty then
          (if a.varint then P.map .num pVarint else parse T e t (a.cx T.toHost prev))
         else P.bind (pConst T a.pre) fun _ =>
          (if a.varint then P.map .num pVarint else parse T e t (a.cx T.toHost prev))) :=
      refines_ite (fun _ => h1) fun _ => refines_bind (refines_constant L hB hT _) fun _ => h1
    exact refines_bind (refines_ite (fun _ => refines_onEof h2 _) fun _ => h2) fun v =>
      refines_map _ (decodeFields_refines fs _ hl.2 (hb.imp (·.2) id))
theorem decodeVariants_refines : ∀ (vs : Variants) (tag i : Nat), layoutOkVariants T vs = true →
    (noRefsVariants vs = true ∨ Borrows R Inv) →
    Refines R Inv pend B (decodeVariants T e vs tag i) (parseVariants T e vs tag i)
  | .nil, _, _, _, _ => by unfold decodeVariants parseVariants; exact refines_fail _
  | .cons tag' fs vs, tag, i, hl, hb => by
    unfold decodeVariants parseVariants
    simp only [layoutOkVariants, Bool.and_eq_true] at hl
    simp only [noRefsVariants, Bool.and_eq_true] at hb
    exact refines_ite (fun _ => refines_map _ (decodeFields_refines fs [] hl.1 (hb.imp (·.1) id)))
      fun _ => decodeVariants_refines vs tag (i + 1) hl.2 (hb.imp (·.2) id)
end

end

end Verif
