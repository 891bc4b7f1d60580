import Verif.Sidh.Model
import Verif.Curve.Square

/-!
# The strategy loops of the key exchange

`walkA` and `walkB` never leave their arrays, whatever the field elements are; for a kernel point of the right order they compute
the isogeny with that kernel (`FIsog`) at any number of points.
-/

namespace Secuer.Sidh

open Secuer.Curve Secuer.Mont

section loop

variable {F Cv Co : Type} (ops : StratOps F Cv Co)

/-- The inner loop does not touch `Q`. -/
theorem inner_Q (target : ℕ) (q : Option (Pt F)) : ∀ (room : ℕ) (s : StratState F Cv),
    stratInner ops target room { s with Q := q } = (stratInner ops target room s).map fun s => { s with Q := q } := by
  intro room
  induction room with
  | zero => intro s; simp only [stratInner]; by_cases h : s.index < target <;> simp [h]
  | succ room ih =>
    intro s
    simp only [stratInner]
    by_cases h : s.index < target
    · cases hm : s.strat with
      | nil => simp [h]
      | cons m ms => 
        simp only [h, if_true]
        exact ih { s with
          stack := (s.R, s.index) :: s.stack, R := ops.mul s.cv s.R m, index := s.index + m, strat := ms }
    · simp [h]

/-- The loop over the rows: its control flow and the map applied to the points do not depend on the points. -/
theorem rows_fn (maxPts : ℕ) : ∀ (n : ℕ) (s : StratState F Cv), ∃ o : Option (StratState F Cv × (Pt F → Pt F)),
    (∀ qs, keyRows ops maxPts n s qs = o.map fun r => (r.1, qs.map r.2)) ∧
    ∀ q, stratRows ops maxPts n { s with Q := q } = o.map fun r => { r.1 with Q := q.map r.2 } := by
  intro n
  induction n with
  | zero => intro s; exact ⟨some (s, id), fun qs => by simp [keyRows], fun q => by simp [stratRows]⟩
  | succ n ih =>
    intro s
    cases hi : stratInner ops (n + 1) (maxPts - s.stack.length) s with
    | none =>
      refine ⟨none, fun qs => by simp only [keyRows, hi]; rfl, fun q => ?_⟩
      simp only [stratRows]
      rw [inner_Q, hi]; rfl
    | some s' =>
      cases hst : s'.stack with
      | nil =>
        refine ⟨none, fun qs => by simp only [keyRows, hi, hst]; rfl, fun q => ?_⟩
        simp only [stratRows]
        rw [inner_Q, hi]
        simp [hst]
      | cons e es =>
        obtain ⟨o, h1, h2⟩ := ih { s' with
          cv := (ops.get s'.R).1, R := ops.eval (ops.get s'.R).2 e.1, index := e.2,
          stack := es.map (fun e => (ops.eval (ops.get s'.R).2 e.1, e.2)) }
        refine ⟨o.map fun r => (r.1, fun p => r.2 (ops.eval (ops.get s'.R).2 p)), fun qs => ?_, fun q => ?_⟩
        · simp only [keyRows, hi, hst, List.map_cons]
          rw [h1]
          cases o <;> simp [Function.comp_def]
        · simp only [stratRows]
          rw [inner_Q, hi]
          simp only [Option.map_some, hst, List.map_cons]
          refine (h2 (q.map (ops.eval (ops.get s'.R).2))).trans ?_
          cases o <;> cases q <;> simp

theorem inner_total (target : ℕ) : ∀ (room : ℕ) (s : StratState F Cv) (st' : List ℕ) (i' : ℕ) (ms' : List ℕ),
    ctlInner target room (s.stack.map Prod.snd) s.index s.strat = some (st', i', ms') →
    ∃ s', stratInner ops target room s = some s' ∧ s'.stack.map Prod.snd = st' ∧ s'.index = i' ∧ s'.strat = ms' := by
  intro room
  induction room with
  | zero =>
    intro s st' i' ms' hc
    simp only [ctlInner] at hc
    by_cases h : s.index < target
    · simp [h] at hc
    · simp only [h, if_false, Option.some.injEq, Prod.mk.injEq] at hc
      obtain ⟨rfl, rfl, rfl⟩ := hc
      exact ⟨s, by simp [stratInner, h], rfl, rfl, rfl⟩
  | succ room ih =>
    intro s st' i' ms' hc
    by_cases h : s.index < target
    · cases hm : s.strat with
      | nil => simp [ctlInner, h, hm] at hc
      | cons m ms =>
        simp only [ctlInner, h, if_true, hm] at hc
        obtain ⟨s', h1, h2⟩ := ih { s with
          stack := (s.R, s.index) :: s.stack, R := ops.mul s.cv s.R m, index := s.index + m, strat := ms } st' i' ms' (by simpa using hc)
        exact ⟨s', by simp only [stratInner, h, if_true, hm]; exact h1, h2⟩
    · simp only [ctlInner, h, if_false, Option.some.injEq, Prod.mk.injEq] at hc
      obtain ⟨rfl, rfl, rfl⟩ := hc
      exact ⟨s, by simp [stratInner, h], rfl, rfl, rfl⟩

/-- No access outside an array, for every table whose control flow is good, and all field elements. -/
theorem rows_total (maxPts : ℕ) : ∀ (n : ℕ) (s : StratState F Cv) (qs : List (Pt F)),
    ctlRows maxPts n (s.stack.map Prod.snd) s.index s.strat = true →
    ∃ s' h, keyRows ops maxPts n s qs = some (s', qs.map h) := by
  intro n
  induction n with
  | zero => intro s qs _; exact ⟨s, id, by simp [keyRows]⟩
  | succ n ih =>
    intro s qs hc
    simp only [ctlRows, List.length_map] at hc
    cases hi : ctlInner (n + 1) (maxPts - s.stack.length) (s.stack.map Prod.snd) s.index s.strat with
    | none => simp [hi] at hc
    | some v =>
      obtain ⟨st', i', ms'⟩ := v
      rw [hi] at hc
      obtain ⟨s', h1, h4, h5, h6⟩ := inner_total ops (n + 1) _ s st' i' ms' hi
      cases st' with
      | nil => simp at hc
      | cons j st =>
        simp only [Bool.and_eq_true, beq_iff_eq] at hc
        cases hs : s'.stack with
        | nil => rw [hs] at h4; simp at h4
        | cons e es =>
          rw [hs] at h4
          simp only [List.map_cons, List.cons.injEq] at h4
          obtain ⟨hj, hst'⟩ := h4
          simp only [keyRows, h1, hs, List.map_cons]
          obtain ⟨s'', h, e⟩ := ih { s' with
            cv := (ops.get s'.R).1, R := ops.eval (ops.get s'.R).2 e.1, index := e.2,
            stack := es.map (fun e => (ops.eval (ops.get s'.R).2 e.1, e.2)) } (qs.map (ops.eval (ops.get s'.R).2)) (by
              show ctlRows maxPts n ((es.map _).map Prod.snd) e.2 s'.strat = true
              rw [List.map_map, hj, h6]
              simpa [Function.comp_def, hst'] using hc.2)
          exact ⟨s'', _, by rw [e, List.map_map]⟩

/-- The loop computes the textbook chain. -/
theorem keyLoop_full {F : Type} [Field F] {ops : StratOps F Cv Co} (S : StratSem ops) (maxPts n : ℕ) {A : F} {r : Pt F}
    {cv : Cv} {strat : List ℕ} (hV : S.V (n + 1) A r) (hcv : S.CvOK A cv) (hctl : ctlRows maxPts n [] 0 strat = true) :
    ∃ s h, (∀ qs, keyRows ops maxPts n ⟨cv, r, none, [], 0, strat⟩ qs = some (s, qs.map h)) ∧
      S.CvOK (S.full (n + 1) A r).1 (ops.get s.R).1 ∧
      ∀ q, PEq ((S.full (n + 1) A r).2 q) (ops.eval (ops.get s.R).2 (h q)) := by
  obtain ⟨o, h1, h2⟩ := rows_fn ops maxPts n ⟨cv, r, none, [], 0, strat⟩
  obtain ⟨s, e1, e2, _⟩ := loop_full S maxPts n none hV hcv hctl
  have e0 := (h2 none).symm.trans e1
  cases o with
  | none => cases e0
  | some v =>
    obtain ⟨s0, h⟩ := v
    simp only [Option.map_some, Option.some.injEq] at e0
    have hR : s.R = s0.R := by rw [← e0]
    refine ⟨s0, h, fun qs => h1 qs, by rw [← hR]; exact e2, fun q => ?_⟩
    obtain ⟨s', g1, _, g3, _⟩ := loop_full S maxPts n (some q) hV hcv hctl
    have g0 := (h2 (some q)).symm.trans g1
    simp only [Option.map_some, Option.some.injEq] at g0
    rw [← g0] at g3
    exact g3

end loop

section total

variable {F : Type} [Field F] {env : Env F}

/-- Alice's loop stays inside its arrays, for all field elements. -/
theorem walkA_total (hG : env.toIsoParams.Good) (a c : F) (R : Pt F) (qs : List (Pt F)) :
    ∃ cv h, walkA env a c R qs = some (cv, qs.map h) := by
  unfold walkA
  by_cases hodd : env.e2 % 2 = 1
  · simp only [hodd, if_true]
    obtain ⟨s, h, e⟩ := rows_total opsA env.ptsA (env.maxA - 1) ⟨get2isog (xDBLe R a c (env.e2 - 1)),
      eval2isog R (xDBLe R a c (env.e2 - 1)), none, [], 0, env.stratA⟩
      (qs.map fun q => eval2isog q (xDBLe R a c (env.e2 - 1))) (by simpa using hG.ctlA)
    rw [e]
    exact ⟨(opsA.get s.R).1, fun p => opsA.eval (opsA.get s.R).2 (h (eval2isog p (xDBLe R a c (env.e2 - 1)))),
      by simp [Function.comp_def]⟩
  · simp only [hodd, if_false]
    obtain ⟨s, h, e⟩ := rows_total opsA env.ptsA (env.maxA - 1) ⟨(a, c), R, none, [], 0, env.stratA⟩ qs
      (by simpa using hG.ctlA)
    rw [e]
    exact ⟨(opsA.get s.R).1, fun p => opsA.eval (opsA.get s.R).2 (h p), by simp [Function.comp_def]⟩

/-- Bob's loop stays inside its arrays, for all field elements. -/
theorem walkB_total (hG : env.toIsoParams.Good) (a c : F) (R : Pt F) (qs : List (Pt F)) :
    ∃ cv h, walkB env a c R qs = some (cv, qs.map h) := by
  unfold walkB
  obtain ⟨s, h, e⟩ := rows_total opsB env.ptsB (env.maxB - 1) ⟨(a, c), R, none, [], 0, env.stratB⟩ qs
    (by simpa using hG.ctlB)
  rw [e]
  exact ⟨(opsB.get s.R).1, fun p => opsB.eval (opsB.get s.R).2 (h p), by simp [Function.comp_def]⟩

end total

variable {F K : Type} [Field F] [Field K] [DecidableEq K] [IsAlgClosed K] (φ : F →+* K) {env : Env F}

/-- The loop of 4-isogenies. -/
theorem rowsA_ok (h2F : (2 : F) ≠ 0) (hG : env.toIsoParams.Good) {A : F} {r : Pt F} {P : (W (φ A)).Point}
    {cv : F × F} (hA : A ^ 2 ≠ 4) (hcv : Is24 A cv.1 cv.2) (hr : Rep (r.map φ) P) (hP : Good2 (2 * env.maxA) P) :
    ∃ a' gF gK s h, (∀ qs, keyRows opsA env.ptsA (env.maxA - 1) ⟨cv, r, none, [], 0, env.stratA⟩ qs = some (s, qs.map h)) ∧
      Is24 a' (opsA.get s.R).1.1 (opsA.get s.R).1.2 ∧ (∀ q, PEq (gF q) (opsA.eval (opsA.get s.R).2 (h q))) ∧
      FIsog φ 2 (2 * env.maxA) A a' gF gK P ⟨0, 1⟩ ∧ IsSquare (a' + 2) := by
  have hpos := hG.maxA_pos
  have hm : env.maxA - 1 + 1 = env.maxA := by omega
  have hP' : Good2 (2 * (env.maxA - 1 + 1)) P := by rw [hm]; exact hP
  obtain ⟨s, h, h1, h2, h3⟩ := keyLoop_full (semA φ h2F) env.ptsA (env.maxA - 1) (A := A) (r := r) (cv := cv)
    (strat := env.stratA) ⟨hA, P, hr, hP'⟩ hcv hG.ctlA
  obtain ⟨gK, c1, c2, c3, c4⟩ := semA_cyc φ h2F (env.maxA - 1) A r P hA hr hP'
  refine ⟨_, _, gK, s, h, h1, h2, h3, ⟨?_, c2, by rw [pow_mul]; rw [hm] at c3; exact c3, ?_,
    fun _ => semA_sq φ h2F _ _ _, fun _ => ⟨rfl, c4⟩, fun h => by omega⟩, semA_sq φ h2F _ _ _⟩
  · rw [hm] at c1 ⊢; exact c1
  · exact fun p q h => (semA φ h2F).full_congr _ _ _ _ _ h

/-- Alice's walk is the `2^e2`-isogeny with the given kernel. -/
theorem walkA_ok (h2F : (2 : F) ≠ 0) (hG : env.toIsoParams.Good) {A : F} {r : Pt F} {P : (W (φ A)).Point}
    {a c : F} (hA : A ^ 2 ≠ 4) (hcv : Is24 A a c) (hr : Rep (r.map φ) P) (hP : Good2 env.e2 P) :
    ∃ a' gF gK cv h, (∀ qs, walkA env a c r qs = some (cv, qs.map h)) ∧ Is24 a' cv.1 cv.2 ∧
      (∀ q, PEq (gF q) (h q)) ∧ FIsog φ 2 env.e2 A a' gF gK P ⟨0, 1⟩ := by
  have h2 := two_map φ h2F
  have hhalf := hG.halfA
  have hmaxpos := hG.maxA_pos
  have he2 : 0 < env.e2 := by omega
  have hAK := sq_ne_four_map φ hA
  unfold walkA
  by_cases hodd : env.e2 % 2 = 1
  · simp only [hodd, if_true]
    have hk1 : env.e2 - 1 + 1 = env.e2 := by omega
    have hT1 := xDBLe_rep' φ h2F hcv hr (env.e2 - 1)
    set T1 := xDBLe r a c (env.e2 - 1) with hT1def
    obtain ⟨x, ex, ec, hf2, hker2, P', hP', hg'⟩ := Good2.step2 h2 hAK (k := env.e2 - 1) (P := P)
      (by rw [hk1]; exact hP)
    obtain ⟨hx, hSz⟩ := map_aff_of_rep φ hT1 ex
    obtain ⟨x0, hx0⟩ : ∃ x0, aff T1 = x0 := ⟨_, rfl⟩
    rw [hx0] at hx
    subst hx
    have hcod : φ (2 - 4 * x0 ^ 2) = 2 - 4 * φ x0 ^ 2 := by simp [map_ofNat]
    have hev : ∀ p, PEq (f2 x0 p) (eval2isog p T1) := by
      intro p
      have := eval2isog_eq hSz p
      rw [← hx0]
      exact ⟨2 * T1.Z, mul_ne_zero h2F hSz, this.1, this.2⟩
    have hg2 : Is24 (2 - 4 * x0 ^ 2) (get2isog T1).1 (get2isog T1).2 := by
      rw [← hx0]; exact get2isog_is24 h2F hSz
    obtain ⟨P2, hP2rep, hP2f, hP2g, hcyc2⟩ : ∃ P2 : (W (φ (2 - 4 * x0 ^ 2))).Point,
        Rep ((eval2isog r T1).map φ) P2 ∧ Rep (f2 (φ x0) (xr P)) P2 ∧ Good2 (2 * env.maxA) P2 ∧
        Cyc 2 1 (φ A) (φ (2 - 4 * x0 ^ 2)) (f2 (φ x0)) (2 ^ (env.e2 - 1) • P) ⟨0, 1⟩ := by
      rw [hcod]
      refine ⟨P', ?_, hP', ?_, ?_⟩
      · have h1 := hP'.peq (hf2.congr _ _ hr)
        rw [← map_f2] at h1
        exact h1.peq (PEq.map φ (hev _))
      · rw [show 2 * env.maxA = env.e2 - 1 by omega]; exact hg'
      · obtain ⟨x', hx', hcyc⟩ := cyc2 h2 hAK (P := 2 ^ (env.e2 - 1) • P)
          (by rw [← mul_nsmul, ← pow_succ, hk1]; exact hP.1) (hP.2 he2).1 (hP.2 he2).2
        rw [hx'] at ex
        simp only [Pt.mk.injEq, and_true] at ex
        rw [ex] at hcyc
        exact hcyc
    obtain ⟨a', gF, gK, s, h, h1, h24, h3, h5, h6⟩ := rowsA_ok φ h2F hG (cv := ((get2isog T1).1, (get2isog T1).2))
      (sq_ne_four_of_map φ hcyc2.tgt) hg2 hP2rep hP2g
    refine ⟨a', fun p => gF (f2 x0 p), fun p => gK (f2 (φ x0) p), (opsA.get s.R).1, 
      fun p => opsA.eval (opsA.get s.R).2 (h (eval2isog p T1)), fun qs => ?_, h24, fun q => ?_, ?_⟩
    · rw [h1]; simp [Function.comp_def]
    · exact (h5.congr _ _ (hev q)).trans (h3 _)
    · have hc := Cyc.comp_known (m := 2 * env.maxA) h2 (P := P) (f := f2 (φ x0)) (b := ⟨0, 1⟩)
        (by rw [show 2 * env.maxA = env.e2 - 1 by omega]; exact hcyc2) h5.cyc hP2f
      rw [hG.halfA.symm, hodd]
      refine ⟨hc, ?_, ?_, ?_, fun _ => h6, fun _ => ⟨rfl, ?_⟩, fun h => by omega⟩
      · intro p
        show gK (f2 (φ x0) (p.map φ)) = _
        rw [← h5.lift, map_f2]
      · have hd := h5.defd.comp φ (defOver_f2 φ x0)
        rwa [← pow_succ'] at hd
      · intro p q' hpq
        exact h5.congr _ _ (f2_congr _ hpq)
      · exact Norm2.pre h2 (f := f2 (φ x0)) h5.cyc.src hcyc2.hom h5.cyc hc (h5.norm.1 rfl).2
  · simp only [hodd, if_false]
    have hev : 2 * env.maxA = env.e2 := by omega
    obtain ⟨a', gF, gK, s, h, h1, h24, h3, h5, h6⟩ := rowsA_ok φ h2F hG (cv := (a, c)) hA hcv hr (by rw [hev]; exact hP)
    rw [hev] at h5
    refine ⟨a', gF, gK, (opsA.get s.R).1, fun p => opsA.eval (opsA.get s.R).2 (h p), fun qs => ?_, h24, h3, h5⟩
    rw [h1]; simp [Function.comp_def]

/-- Bob's walk is the `3^e3`-isogeny with the given kernel. -/
theorem walkB_ok (h2F : (2 : F) ≠ 0) (hG : env.toIsoParams.Good) {A : F} {r : Pt F} {P : (W (φ A)).Point}
    {a c : F} (hA : A ^ 2 ≠ 4) (hcv : IsPM A a c) (hr : Rep (r.map φ) P) (hP : Good3 env.e3 P) :
    ∃ a' gF gK b cv h, (∀ qs, walkB env a c r qs = some (cv, qs.map h)) ∧ IsPM a' cv.1 cv.2 ∧
      (∀ q, PEq (gF q) (h q)) ∧ FIsog φ 3 env.e3 A a' gF gK P b := by
  have hpos := hG.maxB_pos
  have hm : env.maxB - 1 + 1 = env.e3 := by have := hG.maxB; omega
  have hP' : Good3 (env.maxB - 1 + 1) P := by rw [hm]; exact hP
  obtain ⟨s, h, h1, h2, h3⟩ := keyLoop_full (semB φ h2F) env.ptsB (env.maxB - 1) (A := A) (r := r) (cv := (a, c))
    (strat := env.stratB) ⟨hA, P, hr, hP'⟩ hcv hG.ctlB
  obtain ⟨gK, c1, c2, c3, c4⟩ := semB_cyc φ h2F (env.maxB - 1) A r P hA hr hP'
  refine ⟨_, _, gK, ⟨-1, 3 * φ (aff ((semB φ h2F).last (env.maxB - 1) A r).2)⟩, (opsB.get s.R).1, fun p => opsB.eval (opsB.get s.R).2 (h p), fun qs => ?_, h2, h3, ⟨?_, c2,
    by rw [hm] at c3; exact c3, ?_, semB_sq φ h2F _ A r P hA hr hP', fun h => by omega, fun _ => c4⟩⟩
  · unfold walkB
    rw [h1]; simp [Function.comp_def]
  · rw [hm] at c1; rw [hm]; exact c1
  · exact fun p q h => (semB φ h2F).full_congr _ _ _ _ _ h

end Secuer.Sidh
