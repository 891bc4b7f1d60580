import Verif.CMem.Verify

/-!
# Random chains on memory

`Random_Point_AB`, `Random_Isogeny_Chain_A` and `Random_Isogeny_Chain_B` of `poik.c` with `assert` compiled out (`NDEBUG`), in the portable
build.  A chain is an array of curves and an array of points (`poik.c:18-26`).
-/

set_option maxRecDepth 100000

namespace Secuer.CMem

open Secuer.Word Secuer.Field
open Secuer.Curve (Pt Crv Iso Out Tape M Chain)
open Secuer.WCurve (Draw)

attribute [local instance] Arith.portable

variable {l : Level}

/-! ## The programs -/

/-- The loop of `Random_Point_AB` (`poik.c:737-750`), `n` iterations left; `A` and `Q` are its local variables -/
def randomPointABLoopM (l : Level) (q emax A P Q : ℕ) (avoid : Option ℕ) (sp : ℕ) : ℕ → Tape Draw → Mem → Out (Mem × Tape Draw)
  | 0, _, _ => .abort
  | n + 1, t, m =>
    bindT (randomPointWithOrderM l q A P Q sp t m) fun r t =>
      if r.1 < emax then randomPointABLoopM l q emax A P Q avoid sp n t r.2 else
      match avoid with
      | none => .ok (r.2, t)
      | some a =>
        let w := projEqualM l Q (Q + 2 * nw l) a (a + 2 * nw l) sp r.2
        if w.1 ≠ 0 then randomPointABLoopM l q emax A P Q avoid sp n t w.2 else .ok (w.2, t)

/-- `Random_Point_AB` (`poik.c:728-753`), `q` 2 or 3; locals: `A`, `Q` -/
def randomPointABM (l : Level) (q E P : ℕ) (avoid : Option ℕ) (sp : ℕ) (t : Tape Draw) (m : Mem) : Out (Mem × Tape Draw) :=
  let v := loc (nw l) sp
  let m := divM (portable l) E (E + 2 * nw l) (v 0) (v 3) m
  randomPointABLoopM l q (if q = 2 then l.iso.e2 else l.iso.e3) (v 0) P (v 1) avoid (v 3) 9999 t m

/-- The call of `Isogeny_A` in `Random_Isogeny_Chain_A` (`poik.c:858`).  Its result is not looked at; if it is false, the curve `EE` has not
been written and is read uninitialised (`poik.c:852`). -/
def walkStepAM (l : Level) (E P EE _pb sp : ℕ) (t : Tape Draw) (m : Mem) : Out (Mem × Tape Draw) :=
  match isogenyAM l E P (some EE) none none sp m with
  | none => .ub
  | some (false, _) => .ub
  | some (true, m) => .ok (m, t)

/-- The call of `Isogeny_B` in `Random_Isogeny_Chain_B` (`poik.c:898`), the same -/
def walkStepBM (l : Level) (E P EE pb sp : ℕ) (t : Tape Draw) (m : Mem) : Out (Mem × Tape Draw) :=
  bindT (isogenyBM l E P (some EE) none (some pb) sp t m) fun r t => if r.1 = false then .ub else .ok (r.2, t)

/-- The iterations of `Random_Isogeny_Chain_A` (`poik.c:851-860`) and `Random_Isogeny_Chain_B` (`poik.c:896-899`), `n` of them left, the next
curve at `E`, the next point at `P` -/
def walkLoopM (l : Level) (q : ℕ) (step : (E P EE pb sp : ℕ) → Tape Draw → Mem → Out (Mem × Tape Draw)) (pb sp : ℕ) :
    (n E P : ℕ) → (avoid : Option ℕ) → Tape Draw → Mem → Out (Mem × Tape Draw)
  | 0, _, _, _, t, m => .ok (m, t)
  | n + 1, E, P, avoid, t, m =>
    bindT (randomPointABM l q E P avoid sp t m) fun m t =>
      bindT (step E P (E + 4 * nw l) pb sp t m) fun m t => walkLoopM l q step pb sp n (E + 4 * nw l) (P + 4 * nw l) (some pb) t m

/-- The initializer `{{0}, {1}}` (`poik.c:848`) -/
def pbackWords (l : Level) : List Digit :=
  List.replicate (2 * nw l) 0 ++ ((List.replicate (nw l) 0).set 0 1 ++ List.replicate (nw l) 0)

/-- `Random_Isogeny_Chain_A` (`poik.c:846-860`) for a width of `n`; the chain consists of the curves at `cE` and the points at `cP`; local:
`Pback` -/
def randomChainAM (l : Level) (n E0 cE cP sp : ℕ) (t : Tape Draw) (m : Mem) : Out (Mem × Tape Draw) :=
  let v := loc (nw l) sp
  let m := fillMem (pbackWords l) (v 0) m
  let m := copyPtM (nw l) E0 cE m
  walkLoopM l 2 (walkStepAM l) (v 0) (v 2) n cE cP none t m

/-- `Random_Isogeny_Chain_B` (`poik.c:891-899`) for a height of `n` -/
def randomChainBM (l : Level) (n E0 cE cP sp : ℕ) (t : Tape Draw) (m : Mem) : Out (Mem × Tape Draw) :=
  let v := loc (nw l) sp
  let m := copyPtM (nw l) E0 cE m
  walkLoopM l 3 (walkStepBM l) (v 0) (v 2) n cE cP none t m

/-! ## `Random_Point_AB` -/

/-- The variables of a point that may be missing -/
abbrev optAddr (n : ℕ) (a : Option ℕ) : List ℕ := a.elim [] fun a => [a, a + 2 * n]

theorem rdP_keep {n s : ℕ} {m m' : Mem} {W : List (ℕ × F2)} (h : Effect n s m m' W) {a : ℕ} (ha : a + 2 * n + 2 * n ≤ s)
    (hw : ∀ w ∈ W, (w.1 + 2 * n ≤ a ∨ a + 2 * n ≤ w.1) ∧ (w.1 + 2 * n ≤ a + 2 * n ∨ a + 2 * n + 2 * n ≤ w.1)) : rdP n m' a = rdP n m a := by
  change Pt.mk _ _ = Pt.mk _ _
  exact congr (congrArg Pt.mk (h.keep (by omega) fun w hwW => (hw w hwW).1)) (h.keep (by omega) fun w hwW => (hw w hwW).2)

section
variable {A P Q s : ℕ} {avoid : Option ℕ}

theorem randomPointABLoopM_spec {q emax : ℕ} (hL : Layout (nw l) s (argO l A P Q ++ optAddr (nw l) avoid)) : ∀ (n : ℕ) (t : Tape Draw) (m : Mem),
    ResT (fun x m' => ∃ y, Effect (nw l) s m m' (ptVars (nw l) P x ++ ptVars (nw l) Q y))
      (WCurve.randomPointABLoop l (rdF (nw l) m A) q emax (avoid.map (rdP (nw l) m)) n t) (randomPointABLoopM l q emax A P Q avoid s n t m)
  | 0, t, m => trivial
  | n + 1, t, m => by
    have hL1 : Layout (nw l) s (argO l A P Q) := by
      rcases avoid with _ | a <;> exact hL.call 0 [0, 1, 2, 3, 4] (by decide) rfl
    rw [randomPointABLoopM, WCurve.randomPointABLoop]
    refine ResT.bind (randomPointWithOrderM_spec (q := q) hL1 t m) fun x r t h => ?_
    obtain ⟨P1, e1, Q1⟩ := x
    obtain ⟨e, m1⟩ := r
    obtain ⟨h1, h2⟩ := h
    dsimp only at h1 h2
    subst h1
    dsimp only
    have hd := hL.disj
    have hb := hL.below
    -- what the function reads is unchanged
    have keep : ∀ m2, Agree s m2 m1 → ResT (fun x m' => ∃ y, Effect (nw l) s m m' (ptVars (nw l) P x ++ ptVars (nw l) Q y))
        (WCurve.randomPointABLoop l (rdF (nw l) m A) q emax (avoid.map (rdP (nw l) m)) n t)
        (randomPointABLoopM l q emax A P Q avoid s n t m2) := by
      intro m2 hag
      have h3 : Effect (nw l) s m m2 (ptVars (nw l) P P1 ++ ptVars (nw l) Q Q1) := by
        refine ⟨fun w hw => ?_, fun x hx hx' => (hag x hx).trans (h2.frame x hx hx')⟩
        rw [← h2.out w hw]
        have : w.1 + 2 * nw l ≤ s := by
          rcases avoid with _ | a <;> simp [ptVars, argO] at hb hw <;> rcases hw with rfl | rfl | rfl | rfl <;> dsimp only <;> omega
        exact rdF_congr fun y h4 h5 => hag y (by omega)
      have kA : rdF (nw l) m2 A = rdF (nw l) m A := by
        refine h3.keep (hL1.below A (by simp)) fun w hw => ?_
        have hd := hL1.disj
        simp [argO, ptVars] at hd hw
        rcases hw with rfl | rfl | rfl | rfl <;> dsimp only <;> omega
      have kP : avoid.map (rdP (nw l) m2) = avoid.map (rdP (nw l) m) := by
        rcases avoid with _ | a
        · rfl
        · simp [argO] at hd hb
          rw [Option.map_some, Option.map_some, rdP_keep h3 (by omega)]
          intro w hw
          simp [ptVars] at hw
          rcases hw with rfl | rfl | rfl | rfl <;> dsimp only <;> omega
      have ih := randomPointABLoopM_spec (q := q) (emax := emax) hL n t m2
      rw [kA, kP] at ih
      refine ih.mono fun x m' h => ?_
      obtain ⟨y, h⟩ := h
      refine ⟨y, h3.comp h (fun w hw => h.out w hw) (fun w hw => ?_) fun w hw => List.mem_map.2 ⟨w, hw, rfl⟩⟩
      simp [ptVars] at hw ⊢
      rcases hw with rfl | rfl | rfl | rfl <;> simp
    by_cases hlt : e1 < emax
    · rw [if_pos hlt, if_pos hlt]
      exact keep m1 fun _ _ => rfl
    · rw [if_neg hlt, if_neg hlt]
      rcases avoid with _ | a
      · exact ⟨rfl, _, h2⟩
      · have lay : Layout (nw l) s [Q, Q + 2 * nw l, a, a + 2 * nw l] := hL.call 0 [3, 4, 5, 6] (by decide) rfl
        obtain ⟨p1, p2⟩ := projEqualM_spec m1 lay
        simp [argO] at hd hb
        have eQ : rdP (nw l) m1 Q = Q1 := (rdP_of_effect2 h2).2
        have ea : rdP (nw l) m1 a = rdP (nw l) m a := by
          refine rdP_keep h2 (by omega) ?_
          intro w hw
          simp [ptVars] at hw
          rcases hw with rfl | rfl | rfl | rfl <;> dsimp only <;> omega
        have e : (projEqualM l Q (Q + 2 * nw l) a (a + 2 * nw l) s m1).1 = WCurve.pointEqual l Q1 (rdP (nw l) m a) := by
          rw [p1, ← ea, ← eQ]
          rfl
        change ResT _ ((if Option.any (fun a => WCurve.pointEqual l Q1 a ≠ 0) (some (rdP (nw l) m a)) then _ else _ : M Draw (Pt F2)) t)
          (if (projEqualM l Q (Q + 2 * nw l) a (a + 2 * nw l) s m1).1 ≠ 0 then _ else _)
        rw [e]
        generalize projEqualM l Q (Q + 2 * nw l) a (a + 2 * nw l) s m1 = w at p2 ⊢
        simp only [Option.any_some, decide_eq_true_eq]
        by_cases hz : WCurve.pointEqual l Q1 (rdP (nw l) m a) ≠ 0
        · rw [if_pos hz, if_pos hz]
          exact keep w.2 p2
        · rw [if_neg hz, if_neg hz]
          refine ⟨rfl, Q1, ⟨fun v hv => ?_, fun x hx hx' => (p2 x hx).trans (h2.frame x hx hx')⟩⟩
          rw [← h2.out v hv]
          have : v.1 + 2 * nw l ≤ s := by
            simp [ptVars] at hv
            rcases hv with rfl | rfl | rfl | rfl <;> dsimp only <;> omega
          exact rdF_congr fun y h4 h5 => p2 y (by omega)

end

/-- `Random_Point_AB` on memory -/
theorem randomPointABM_spec {q E P s : ℕ} {avoid : Option ℕ} (hL : Layout (nw l) s ([E, E + 2 * nw l, P, P + 2 * nw l] ++ optAddr (nw l) avoid))
    (t : Tape Draw) (m : Mem) :
    ResT (fun x m' => Effect (nw l) s m m' (ptVars (nw l) P x)) (WCurve.randomPointAB l (rdC (nw l) m E) q (avoid.map (rdP (nw l) m)) t)
      (randomPointABM l q E P avoid s t m) := by
  have hlA : Layout (nw l) (loc (nw l) s 3) [E, E + 2 * nw l, loc (nw l) s 0] := by
    rcases avoid with _ | a
    · exact hL.call 3 [0, 1, 4] (by decide) rfl
    · exact hL.call 3 [0, 1, 6] (by decide) rfl
  have hlO : Layout (nw l) (loc (nw l) s 3) (argO l (loc (nw l) s 0) P (loc (nw l) s 1) ++ optAddr (nw l) avoid) := by
    rcases avoid with _ | a
    · exact hL.call 3 [4, 2, 3, 5, 6] (by decide) rfl
    · exact hL.call 3 [6, 2, 3, 7, 8, 4, 5] (by decide) rfl
  have c1 := divM_effect (portable l) m hlA
  have l3 : loc (nw l) s 3 = s + 6 * nw l := by rw [loc_eq]; omega
  have l1 : loc (nw l) s 1 = s + 2 * nw l := by rw [loc_eq]; omega
  have l0 : loc (nw l) s 0 = s := by rw [loc_eq]; omega
  have hb := hL.below
  have e : randomPointABM l q E P avoid s t m = randomPointABLoopM l q (if q = 2 then l.iso.e2 else l.iso.e3) (loc (nw l) s 0) P
      (loc (nw l) s 1) avoid (loc (nw l) s 3) 9999 t (divM (portable l) E (E + 2 * nw l) (loc (nw l) s 0) (loc (nw l) s 3) m) := rfl
  rw [e]
  generalize hm1 : divM (portable l) E (E + 2 * nw l) (loc (nw l) s 0) (loc (nw l) s 3) m = m1 at c1
  have e0 : rdF (nw l) m1 (loc (nw l) s 0) = WCurve.div l (rdC (nw l) m E).A (rdC (nw l) m E).C := c1.out _ (List.mem_singleton.2 rfl)
  have ea : avoid.map (rdP (nw l) m1) = avoid.map (rdP (nw l) m) := by
    rcases avoid with _ | a
    · rfl
    · simp at hb
      rw [Option.map_some, Option.map_some, rdP_keep c1 (by omega)]
      intro w hw
      rw [List.mem_singleton] at hw
      subst hw
      dsimp only
      omega
  have h := randomPointABLoopM_spec (q := q) (emax := if q = 2 then l.iso.e2 else l.iso.e3) hlO 9999 t m1
  rw [e0, ea] at h
  refine ResT.mono h fun x m' h => ?_
  obtain ⟨y, h⟩ := h
  refine ⟨fun w hw => h.out w (List.mem_append_left _ hw), fun z hz hz' => ?_⟩
  rw [h.frame z (by omega), c1.frame z (by omega)]
  · intro w hw
    rw [List.mem_singleton] at hw
    subst hw
    dsimp only
    omega
  · intro w hw
    rcases List.mem_append.1 hw with hw | hw
    · exact hz' w hw
    · simp [ptVars] at hw
      rcases hw with rfl | rfl <;> dsimp only <;> omega

/-! ## Arrays of curves and points -/

/-- `n` curves -/
def rdCs (l : Level) (m : Mem) : (n E : ℕ) → List (Crv F2)
  | 0, _ => []
  | n + 1, E => rdC (nw l) m E :: rdCs l m n (E + 4 * nw l)

/-- `n` points -/
def rdPs (l : Level) (m : Mem) : (n P : ℕ) → List (Pt F2)
  | 0, _ => []
  | n + 1, P => rdP (nw l) m P :: rdPs l m n (P + 4 * nw l)

theorem rdCs_eq (m : Mem) : ∀ n E, rdCs l m n E = (List.range n).map fun i => rdC (nw l) m (E + i * (4 * nw l))
  | 0, _ => rfl
  | n + 1, E => by
    rw [rdCs, rdCs_eq m n, List.range_succ_eq_map, List.map_cons, List.map_map, Nat.zero_mul, Nat.add_zero]
    congr 1
    refine List.map_congr_left fun i _ => ?_
    rw [Function.comp_apply, Nat.succ_mul i (4 * nw l), Nat.add_assoc, Nat.add_comm (4 * nw l)]

theorem rdPs_eq (m : Mem) : ∀ n E, rdPs l m n E = (List.range n).map fun i => rdP (nw l) m (E + i * (4 * nw l))
  | 0, _ => rfl
  | n + 1, E => by
    rw [rdPs, rdPs_eq m n, List.range_succ_eq_map, List.map_cons, List.map_map, Nat.zero_mul, Nat.add_zero]
    congr 1
    refine List.map_congr_left fun i _ => ?_
    rw [Function.comp_apply, Nat.succ_mul i (4 * nw l), Nat.add_assoc, Nat.add_comm (4 * nw l)]

theorem BF.rdP {s : ℕ} {W : List (ℕ × ℕ)} {m m' : Mem} (h : BF s W m m') {n a : ℕ} (ha : a + 4 * n ≤ s)
    (hw : ∀ w ∈ W, 8 * (a + 4 * n) ≤ w.1 ∨ w.1 + w.2 ≤ 8 * a) : rdP n m' a = rdP n m a := by
  change Pt.mk _ _ = Pt.mk _ _
  exact congr (congrArg Pt.mk (h.rdF (by omega) fun w hwW => by have := hw w hwW; omega))
    (h.rdF (by omega) fun w hwW => by have := hw w hwW; omega)

theorem BF.rdCs {s : ℕ} {W : List (ℕ × ℕ)} {m m' : Mem} (h : BF s W m m') : ∀ {n a : ℕ}, a + n * (4 * nw l) ≤ s →
    (∀ w ∈ W, 8 * (a + n * (4 * nw l)) ≤ w.1 ∨ w.1 + w.2 ≤ 8 * a) → rdCs l m' n a = rdCs l m n a
  | 0, _, _, _ => rfl
  | n + 1, a, ha, hw => by
    simp only [Nat.succ_mul n (4 * nw l)] at ha hw
    rw [CMem.rdCs, CMem.rdCs, h.rdCs (by omega) (fun w hwW => by have := hw w hwW; omega)]
    congr 1
    exact h.rdC (by omega) fun w hwW => by have := hw w hwW; omega

theorem BF.rdPs {s : ℕ} {W : List (ℕ × ℕ)} {m m' : Mem} (h : BF s W m m') : ∀ {n a : ℕ}, a + n * (4 * nw l) ≤ s →
    (∀ w ∈ W, 8 * (a + n * (4 * nw l)) ≤ w.1 ∨ w.1 + w.2 ≤ 8 * a) → rdPs l m' n a = rdPs l m n a
  | 0, _, _, _ => rfl
  | n + 1, a, ha, hw => by
    simp only [Nat.succ_mul n (4 * nw l)] at ha hw
    rw [CMem.rdPs, CMem.rdPs, h.rdPs (by omega) (fun w hwW => by have := hw w hwW; omega)]
    congr 1
    exact h.rdP (by omega) fun w hwW => by have := hw w hwW; omega

/-! ## The iterations on values -/

/-- The iterations of both functions on values; `step` is the call of `Isogeny_A` or `Isogeny_B` and yields the next point to avoid. -/
def walkLoop (l : Level) (q : ℕ) (step : Crv F2 → Pt F2 → M Draw (Crv F2 × Option (Pt F2))) (E : Crv F2) (avoid : Option (Pt F2)) :
    ℕ → M Draw (List (Pt F2) × List (Crv F2))
  | 0 => M.pure ([], [])
  | n + 1 => M.bind (WCurve.randomPointAB l E q avoid) fun P => M.bind (step E P) fun r =>
      M.bind (walkLoop l q step r.1 r.2 n) fun s => M.pure (P :: s.1, r.1 :: s.2)

/-- The call of `Isogeny_A` -/
def walkStepA (l : Level) (E : Crv F2) (P : Pt F2) : M Draw (Crv F2 × Option (Pt F2)) :=
  M.bind (M.lift (WCurve.isogenyA l E P none)) fun r =>
    match r with
    | none => M.ub
    | some (E', _, _) => M.pure (E', some (WCurve.pback l))

/-- The call of `Isogeny_B` -/
def walkStepB (l : Level) (E : Crv F2) (P : Pt F2) : M Draw (Crv F2 × Option (Pt F2)) :=
  M.bind (WCurve.isogenyB l true E P none) fun r =>
    match r with
    | none => M.ub
    | some (E', _, back) => M.pure (E', back)

theorem chainALoop_eq : ∀ (n : ℕ) (E : Crv F2) (a : Option (Pt F2)), WCurve.chainALoop l E a n = walkLoop l 2 (walkStepA l) E a n
  | 0, _, _ => rfl
  | n + 1, E, a => by
    funext t
    rw [WCurve.chainALoop, walkLoop]
    simp only [bind, M.bind, walkStepA, M.lift]
    rcases WCurve.randomPointAB l E 2 a t with ⟨P, t1⟩ | _ | _ | _
    · dsimp only
      rcases WCurve.isogenyA l E P none with (_ | ⟨E', q, b⟩) | _ | _ | _
      · rfl
      · dsimp only [M.pure]
        rw [chainALoop_eq n]
        rfl
      all_goals rfl
    all_goals rfl

theorem chainBLoop_eq : ∀ (n : ℕ) (E : Crv F2) (a : Option (Pt F2)), WCurve.chainBLoop l E a n = walkLoop l 3 (walkStepB l) E a n
  | 0, _, _ => rfl
  | n + 1, E, a => by
    funext t
    rw [WCurve.chainBLoop, walkLoop]
    simp only [bind, M.bind, walkStepB]
    rcases WCurve.randomPointAB l E 3 a t with ⟨P, t1⟩ | _ | _ | _
    · dsimp only
      rcases WCurve.isogenyB l true E P none t1 with ⟨_ | ⟨E', q, b⟩, t2⟩ | _ | _ | _
      · rfl
      · dsimp only [M.pure]
        rw [chainBLoop_eq n]
        rfl
      all_goals rfl
    all_goals rfl

/-! ## The steps -/

/-- `stepM` on memory does what `step` does on values, if the point to avoid satisfies `I`. -/
def WalkOk (l : Level) (I : Pt F2 → Prop) (step : Crv F2 → Pt F2 → M Draw (Crv F2 × Option (Pt F2)))
    (stepM : (E P EE pb sp : ℕ) → Tape Draw → Mem → Out (Mem × Tape Draw)) : Prop :=
  ∀ (E P EE pb s : ℕ) (t : Tape Draw) (m : Mem),
    Layout (nw l) s [E, E + 2 * nw l, P, P + 2 * nw l, EE, EE + 2 * nw l, pb, pb + 2 * nw l] → I (rdP (nw l) m pb) →
    ResT (fun r m' => rdC (nw l) m' EE = r.1 ∧ r.2 = some (rdP (nw l) m' pb) ∧ I (rdP (nw l) m' pb) ∧
        BF s [(8 * EE, 32 * nw l), (8 * pb, 32 * nw l)] m m')
      (step (rdC (nw l) m E) (rdP (nw l) m P) t) (stepM E P EE pb s t m)

theorem walkStepA_ok : WalkOk l (· = WCurve.pback l) (walkStepA l) (walkStepAM l) := by
  intro E P EE pb s t m hL hI
  have args : IsoArgs (nw l) s E P (some EE) none none :=
    ⟨hL.call 0 [0, 1, 2, 3] (by decide) rfl, hL.call 0 [4, 5] (by decide) rfl⟩
  have r := isogenyAM_spec args m
  have hb := hL.below
  have hd := hL.disj
  simp at hb hd
  simp only [walkStepA, walkStepAM, M.bind, M.lift]
  change IsoRes _ _ _ _ _ _ (WCurve.isogenyA l _ _ none) _ at r
  generalize WCurve.isogenyA l (rdC (nw l) m E) (rdP (nw l) m P) none = o at r ⊢
  generalize isogenyAM l E P (some EE) none none s m = o' at r ⊢
  rcases o with (_ | ⟨E', q, b⟩) | _ | _ | _ <;> rcases o' with _ | ⟨_ | _, m'⟩ <;> simp only [IsoRes] at r
  · trivial
  · rcases q with _ | q
    swap
    · exact absurd r.1 (by simp)
    obtain ⟨-, r⟩ := r
    have hk : rdP (nw l) m' pb = rdP (nw l) m pb := r.bf.rdP (by omega) (by simp [optVars, crvVars]; omega)
    refine ⟨rfl, ?_, ?_, hk.trans hI, r.bf.mono (le_refl _) (by simp [optVars, crvVars]; omega)⟩
    · change Crv.mk _ _ = Crv.mk _ _
      exact congr (congrArg Crv.mk (r.out (EE, E'.A) (by simp [optVars, crvVars]))) (r.out (EE + 2 * nw l, E'.C) (by simp [optVars, crvVars]))
    · rw [hk, hI]
  · trivial

theorem walkStepB_ok : WalkOk l (fun _ => True) (walkStepB l) (walkStepBM l) := by
  intro E P EE pb s t m hL _
  have args : IsoArgsB (nw l) s E P (some EE) none (some pb) :=
    ⟨hL.call 0 [0, 1, 2, 3, 6, 7] (by decide) rfl, hL.call 0 [6, 7, 4, 5] (by decide) rfl⟩
  have r := isogenyBM_spec args t m
  have hb := hL.below
  have hd := hL.disj
  simp at hb hd
  simp only [walkStepB, walkStepBM, M.bind]
  change ResT _ (WCurve.isogenyB l true _ _ none t) _ at r
  generalize WCurve.isogenyB l true (rdC (nw l) m E) (rdP (nw l) m P) none t = o at r ⊢
  generalize isogenyBM l E P (some EE) none (some pb) s t m = o' at r ⊢
  rcases o with ⟨_ | ⟨E', q, b⟩, t1⟩ | _ | _ | _ <;> rcases o' with ⟨⟨_ | _, m'⟩, t2⟩ | _ | _ | _ <;> simp only [ResT, IsoResB, and_false] at r
  · trivial
  · obtain ⟨rfl, r1, r2, r⟩ := r
    rcases q with _ | q
    swap
    · exact absurd r1 (by simp)
    rcases b with _ | b
    · exact absurd r2 (by simp)
    refine ⟨rfl, ?_, ?_, trivial, r.bf.mono (le_refl _) (by simp [optVars, crvVars, ptVars]; omega)⟩
    · change Crv.mk _ _ = Crv.mk _ _
      exact congr (congrArg Crv.mk (r.out (EE, E'.A) (by simp [optVars, crvVars, ptVars])))
        (r.out (EE + 2 * nw l, E'.C) (by simp [optVars, crvVars, ptVars]))
    · symm
      refine congrArg some ?_
      change Pt.mk _ _ = Pt.mk _ _
      exact congr (congrArg Pt.mk (r.out (pb, b.X) (by simp [optVars, crvVars, ptVars])))
        (r.out (pb + 2 * nw l, b.Z) (by simp [optVars, crvVars, ptVars]))
  all_goals trivial

/-! ## The loop -/

/-- The places of the chain: `n + 1` curves at `E`, `n` points at `P`, the point to avoid at `pb` -/
structure ChainAt (l : Level) (s n E P pb : ℕ) : Prop where
  curves : E + (n + 1) * (4 * nw l) ≤ s
  points : P + n * (4 * nw l) ≤ s
  back : pb + 4 * nw l ≤ s
  sep : E + (n + 1) * (4 * nw l) ≤ P ∨ P + n * (4 * nw l) ≤ E
  backE : E + (n + 1) * (4 * nw l) ≤ pb ∨ pb + 4 * nw l ≤ E
  backP : P + n * (4 * nw l) ≤ pb ∨ pb + 4 * nw l ≤ P

theorem walkLoopM_spec {I : Pt F2 → Prop} {step : Crv F2 → Pt F2 → M Draw (Crv F2 × Option (Pt F2))}
    {stepM : (E P EE pb sp : ℕ) → Tape Draw → Mem → Out (Mem × Tape Draw)} (hS : WalkOk l I step stepM) {q pb s : ℕ} :
    ∀ (n : ℕ) {E P : ℕ} {avoid : Option ℕ} (t : Tape Draw) (m : Mem), ChainAt l s n E P pb → avoid = none ∨ avoid = some pb →
      I (rdP (nw l) m pb) →
      ResT (fun r m' => r.1 = rdPs l m' n P ∧ r.2 = rdCs l m' n (E + 4 * nw l) ∧
          BF s [(8 * (E + 4 * nw l), 8 * (n * (4 * nw l))), (8 * P, 8 * (n * (4 * nw l))), (8 * pb, 32 * nw l)] m m')
        (walkLoop l q step (rdC (nw l) m E) (avoid.map (rdP (nw l) m)) n t) (walkLoopM l q stepM pb s n E P avoid t m)
  | 0, E, P, avoid, t, m, _, _, _ => ⟨rfl, rfl, rfl, (BF.refl _ _).mono (le_refl _) (by simp)⟩
  | n + 1, E, P, avoid, t, m, hc, ha, hI => by
    have c1 := hc.curves
    have c2 := hc.points
    have c3 := hc.back
    have c4 := hc.sep
    have c5 := hc.backE
    have c6 := hc.backP
    rw [Nat.succ_mul (n + 1) (4 * nw l), Nat.succ_mul n (4 * nw l)] at c1 c4 c5
    rw [Nat.succ_mul n (4 * nw l)] at c2 c6
    rw [walkLoop, walkLoopM, Nat.succ_mul n (4 * nw l)]
    generalize hcc : n * (4 * nw l) = k at c1 c2 c4 c5 c6 ⊢
    have lay : Layout (nw l) s ([E, E + 2 * nw l, P, P + 2 * nw l] ++ optAddr (nw l) avoid) := by
      rcases ha with rfl | rfl
      · exact ⟨by simp; omega, by simp; omega⟩
      · exact ⟨by simp; omega, by simp; omega⟩
    refine ResT.bind (randomPointABM_spec (q := q) lay t m) fun p m1 t h1 => ?_
    have b1 := h1.bf
    have e1 : rdP (nw l) m1 P = p := by
      change Pt.mk _ _ = Pt.mk _ _
      exact congr (congrArg Pt.mk (h1.out (P, p.X) (by simp [ptVars]))) (h1.out (P + 2 * nw l, p.Z) (by simp [ptVars]))
    have e2 : rdC (nw l) m1 E = rdC (nw l) m E := b1.rdC (by omega) (by simp [ptVars]; omega)
    have e3 : rdP (nw l) m1 pb = rdP (nw l) m pb := b1.rdP (by omega) (by simp [ptVars]; omega)
    have lay2 : Layout (nw l) s [E, E + 2 * nw l, P, P + 2 * nw l, E + 4 * nw l, E + 4 * nw l + 2 * nw l, pb, pb + 2 * nw l] :=
      ⟨by simp; omega, by simp; omega⟩
    have r2 := hS _ _ _ _ _ t m1 lay2 (by rw [e3]; exact hI)
    rw [e1, e2] at r2
    refine ResT.bind r2 fun r m2 t h2 => ?_
    obtain ⟨f1, f2, f3, b2⟩ := h2
    have hc' : ChainAt l s n (E + 4 * nw l) (P + 4 * nw l) pb :=
      ⟨by rw [Nat.succ_mul n (4 * nw l), hcc]; omega, by rw [hcc]; omega, c3, by rw [Nat.succ_mul n (4 * nw l), hcc]; omega, by rw [Nat.succ_mul n (4 * nw l), hcc]; omega,
        by rw [hcc]; omega⟩
    have ih := walkLoopM_spec hS (q := q) n (avoid := some pb) t m2 hc' (Or.inr rfl) f3
    rw [f1, Option.map_some, ← f2, hcc] at ih
    have ih' := ResT.bind (k := fun m t => Out.ok (m, t)) (g := fun s => M.pure (p :: s.1, r.1 :: s.2)) (P' := fun r m' => r.1 = rdPs l m' (n + 1) P ∧ r.2 = rdCs l m' (n + 1) (E + 4 * nw l) ∧
          BF s [(8 * (E + 4 * nw l), 8 * (k + 4 * nw l)), (8 * P, 8 * (k + 4 * nw l)), (8 * pb, 32 * nw l)] m m') ih ?_
    · rcases hw : walkLoopM l q stepM pb s n (E + 4 * nw l) (P + 4 * nw l) (some pb) t m2 with ⟨_, _⟩ | _ | _ | _ <;> rw [hw] at ih' <;> exact ih'
    · intro x m3 t h3
      obtain ⟨g1, g2, b3⟩ := h3
      refine ⟨rfl, ?_, ?_, ?_⟩
      · change p :: x.1 = rdP (nw l) m3 P :: rdPs l m3 n _
        rw [g1]
        congr 1
        rw [b3.rdP (by omega) (by simp; omega), b2.rdP (by omega) (by simp; omega), e1]
      · change r.1 :: x.2 = rdC (nw l) m3 (E + 4 * nw l) :: rdCs l m3 n _
        rw [g2]
        congr 1
        rw [b3.rdC (by omega) (by simp; omega), f1]
      · exact ((b1.trans b2).trans b3).mono (le_refl _) (by simp [ptVars]; omega)

/-! ## The two functions -/

theorem fill_pback (m : Mem) (s pb : ℕ) : rdP (nw l) (fillMem (pbackWords l) pb m) pb = WCurve.pback l ∧
    BF s [(8 * pb, 32 * nw l)] m (fillMem (pbackWords l) pb m) := by
  have hlen : (pbackWords l).length = 4 * nw l := by simp [pbackWords]; omega
  rw [fillMem_eq]
  refine ⟨?_, fun y hy hw => byteAt_congr ?_⟩
  · have h : rd (wr m pb (pbackWords l)) (nw l + nw l + (nw l + nw l)) pb = pbackWords l := rd_wr_same (by rw [hlen]; omega)
    generalize wr m pb (pbackWords l) = m1 at h ⊢
    rw [rd_add, rd_add, rd_add, pbackWords, two_mul, List.replicate_add] at h
    obtain ⟨h1, h2⟩ := List.append_inj h (by simp)
    obtain ⟨h3, h4⟩ := List.append_inj h1 (by simp)
    obtain ⟨h5, h6⟩ := List.append_inj h2 (by simp)
    have e : pb + 2 * nw l = pb + (nw l + nw l) := by omega
    change Pt.mk (F2.mk _ _) (F2.mk (rd _ _ (pb + 2 * nw l)) (rd _ _ (pb + 2 * nw l + nw l))) = _
    rw [e, h5, h6]
    exact congr (congrArg Pt.mk (congr (congrArg F2.mk h3) h4)) rfl
  · have := hw _ (List.mem_singleton.2 rfl)
    dsimp only at this
    by_cases h : y / 8 < pb
    · exact wr_of_lt h
    · exact wr_of_ge (by rw [hlen]; omega)

section
variable {E0 cE cP s n : ℕ}

theorem copyPtM_bf {P Q : ℕ} (m : Mem) (h : P + 4 * nw l ≤ Q ∨ Q + 4 * nw l ≤ P) :
    rdC (nw l) (copyPtM (nw l) P Q m) Q = rdC (nw l) m P ∧ BF s [(8 * Q, 32 * nw l)] m (copyPtM (nw l) P Q m) := by
  have c := copyPtM_effect_ok (s := s) (m := m) (n := nw l) (P := P) (Q := Q) (Or.inr h)
  refine ⟨?_, c.bf.mono (le_refl _) (by simp [ptVars]; omega)⟩
  change Crv.mk _ _ = Crv.mk _ _
  exact congr (congrArg Crv.mk (c.out (Q, _) (List.mem_cons_self ..))) (c.out (Q + 2 * nw l, _) (List.mem_cons_of_mem _ (List.mem_cons_self ..)))

/-- Where the curve and the chain lie: below `s`, apart from each other -/
structure WalkArgs (l : Level) (s n E0 cE cP : ℕ) : Prop where
  start : E0 + 4 * nw l ≤ s
  curves : cE + (n + 1) * (4 * nw l) ≤ s
  points : cP + n * (4 * nw l) ≤ s
  sep : cE + (n + 1) * (4 * nw l) ≤ cP ∨ cP + n * (4 * nw l) ≤ cE
  sepE : cE + (n + 1) * (4 * nw l) ≤ E0 ∨ E0 + 4 * nw l ≤ cE

/-- What a random chain leaves in memory -/
abbrev WalkRes (l : Level) (s n cE cP : ℕ) (m : Mem) (c : Chain F2) (m' : Mem) : Prop :=
  c.E = rdCs l m' (n + 1) cE ∧ c.P = rdPs l m' n cP ∧ BF s [(8 * cE, 8 * ((n + 1) * (4 * nw l))), (8 * cP, 8 * (n * (4 * nw l)))] m m'

theorem walk_end {I : Pt F2 → Prop} {step : Crv F2 → Pt F2 → M Draw (Crv F2 × Option (Pt F2))}
    {stepM : (E P EE pb sp : ℕ) → Tape Draw → Mem → Out (Mem × Tape Draw)} (hS : WalkOk l I step stepM) {q : ℕ} (h : WalkArgs l s n E0 cE cP)
    {m m1 : Mem} (t : Tape Draw) (e1 : rdC (nw l) m1 cE = rdC (nw l) m E0) (b1 : BF s [(8 * cE, 32 * nw l)] m m1)
    (hI : I (rdP (nw l) m1 (loc (nw l) s 0))) :
    ResT (WalkRes l s n cE cP m) (M.bind (walkLoop l q step (rdC (nw l) m E0) none n) (fun r => M.pure ⟨rdC (nw l) m E0 :: r.2, r.1⟩) t)
      (walkLoopM l q stepM (loc (nw l) s 0) (loc (nw l) s 2) n cE cP none t m1) := by
  have l0 : loc (nw l) s 0 = s := by rw [loc_eq]; omega
  have l2 : loc (nw l) s 2 = s + 4 * nw l := by rw [loc_eq]; omega
  have h1 := h.curves
  have h2 := h.points
  have h3 := h.sep
  have hc : ChainAt l (loc (nw l) s 2) n cE cP (loc (nw l) s 0) :=
    ⟨by omega, by omega, by omega, h3, Or.inl (by omega), Or.inl (by omega)⟩
  have r := walkLoopM_spec hS (q := q) n t m1 hc (Or.inl rfl) hI
  rw [e1] at r
  have r' := ResT.bind (k := fun m t => Out.ok (m, t)) (g := fun r => M.pure (⟨rdC (nw l) m E0 :: r.2, r.1⟩ : Chain F2)) (P' := WalkRes l s n cE cP m) r ?_
  · generalize walkLoopM l q stepM (loc (nw l) s 0) (loc (nw l) s 2) n cE cP none t m1 = o at r' ⊢
    rcases o with ⟨_, _⟩ | _ | _ | _ <;> exact r'
  · intro x m2 t h4
    obtain ⟨g1, g2, b2⟩ := h4
    rw [Nat.succ_mul n (4 * nw l)] at h1 h3
    refine ⟨rfl, ?_, g1, ?_⟩
    · change _ :: x.2 = rdC (nw l) m2 cE :: rdCs l m2 n _
      rw [g2, ← e1]
      congr 1
      exact (b2.rdC (by omega) (by simp; omega)).symm
    · rw [Nat.succ_mul n (4 * nw l)]
      exact (b1.trans (b2.mono (s' := s) (W' := _) (by omega) fun w hw => Or.inr ⟨w, hw, le_refl _, le_refl _⟩)).mono (le_refl _)
        (by simp; omega)

/-- `Random_Isogeny_Chain_A` on memory -/
theorem randomChainAM_spec (h : WalkArgs l s n E0 cE cP) (t : Tape Draw) (m : Mem) :
    ResT (WalkRes l s n cE cP m) (WCurve.randomChainA l n (rdC (nw l) m E0) t) (randomChainAM l n E0 cE cP s t m) := by
  have l0 : loc (nw l) s 0 = s := by rw [loc_eq]; omega
  have h1 := h.start
  have h2 := h.curves
  have h3 := h.sepE
  rw [Nat.succ_mul n (4 * nw l)] at h2 h3
  obtain ⟨f1, f2⟩ := fill_pback (l := l) m (s + 4 * nw l) (loc (nw l) s 0)
  have e : randomChainAM l n E0 cE cP s t m = walkLoopM l 2 (walkStepAM l) (loc (nw l) s 0) (loc (nw l) s 2) n cE cP none t
    (copyPtM (nw l) E0 cE (fillMem (pbackWords l) (loc (nw l) s 0) m)) := rfl
  rw [e]
  generalize fillMem (pbackWords l) (loc (nw l) s 0) m = m1 at f1 f2 ⊢
  obtain ⟨g1, g2⟩ := copyPtM_bf (l := l) (s := s + 4 * nw l) m1 (P := E0) (Q := cE) (by omega)
  have e0 : WCurve.randomChainA l n (rdC (nw l) m E0) t =
      M.bind (walkLoop l 2 (walkStepA l) (rdC (nw l) m E0) none n) (fun r => M.pure ⟨rdC (nw l) m E0 :: r.2, r.1⟩) t := by
    rw [← chainALoop_eq]
    rfl
  rw [e0]
  refine walk_end walkStepA_ok h t ?_ ?_ ?_
  · rw [g1, f2.rdC (by omega) (by simp; omega)]
  · exact (f2.trans g2).mono (by omega) (by simp; omega)
  · rw [g2.rdP (by omega) (by simp; omega), f1]

/-- `Random_Isogeny_Chain_B` on memory -/
theorem randomChainBM_spec (h : WalkArgs l s n E0 cE cP) (t : Tape Draw) (m : Mem) :
    ResT (WalkRes l s n cE cP m) (WCurve.randomChainB l n (rdC (nw l) m E0) t) (randomChainBM l n E0 cE cP s t m) := by
  have h3 := h.sepE
  rw [Nat.succ_mul n (4 * nw l)] at h3
  obtain ⟨g1, g2⟩ := copyPtM_bf (l := l) (s := s) m (P := E0) (Q := cE) (by omega)
  have e0 : WCurve.randomChainB l n (rdC (nw l) m E0) t =
      M.bind (walkLoop l 3 (walkStepB l) (rdC (nw l) m E0) none n) (fun r => M.pure ⟨rdC (nw l) m E0 :: r.2, r.1⟩) t := by
    rw [← chainBLoop_eq]
    rfl
  rw [e0]
  exact walk_end walkStepB_ok h t g1 g2 trivial

end

end Secuer.CMem
