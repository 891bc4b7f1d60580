import Verif.Curve.ChainSpec

/-!
# The outcome of unpacking a chain does not depend on the randomness

`Unpack_Chain_A` and `Unpack_Chain_B` draw random points: in the curve check, whose result they ignore, and for the
direction back in `Isogeny_B`, which is determined up to a scalar.
-/

namespace Secuer.Curve

open Secuer.Mont

variable {F : Type} [Field F] [DecidableEq F]

/-! ### The strategy loop -/

/-- Equal but for the scaling of the point that is carried along. -/
structure SameQ {Cv : Type} (s s' : StratState F Cv) : Prop where
  cv : s.cv = s'.cv
  R : s.R = s'.R
  stack : s.stack = s'.stack
  index : s.index = s'.index
  strat : s.strat = s'.strat
  Q : OptPEq s.Q s'.Q

def OptSameQ {Cv : Type} : Option (StratState F Cv) → Option (StratState F Cv) → Prop
  | none, none => True
  | some s, some s' => SameQ s s'
  | _, _ => False

theorem stratInner_sameQ {Cv Co : Type} (ops : StratOps F Cv Co) (target : ℕ) : ∀ (room : ℕ) (s s' : StratState F Cv),
    SameQ s s' → OptSameQ (stratInner ops target room s) (stratInner ops target room s')
  | 0, s, s', h => by
    unfold stratInner
    rw [h.index]
    by_cases hi : s'.index < target
    · simp only [hi, if_true]; trivial
    · simp only [hi, if_false]; exact h
  | room + 1, s, s', h => by
    unfold stratInner
    rw [h.index, h.strat]
    by_cases hi : s'.index < target
    · simp only [hi, if_true]
      cases hs : s'.strat with
      | nil => trivial
      | cons m ms =>
        simp only
        refine stratInner_sameQ ops target room _ _ ⟨h.cv, ?_, ?_, rfl, rfl, h.Q⟩
        · simp only [h.cv, h.R]
        · simp only [h.R, h.stack]
    · simp only [hi, if_false]; exact h

theorem stratRows_sameQ {Cv Co : Type} (ops : StratOps F Cv Co)
    (hev : ∀ co p q, PEq p q → PEq (ops.eval co p) (ops.eval co q)) (maxPts : ℕ) : ∀ (n : ℕ) (s s' : StratState F Cv),
    SameQ s s' → OptSameQ (stratRows ops maxPts n s) (stratRows ops maxPts n s')
  | 0, s, s', h => h
  | n + 1, s, s', h => by
    unfold stratRows
    rw [h.stack]
    have hi := stratInner_sameQ ops (n + 1) (maxPts - s'.stack.length) s s' h
    revert hi
    generalize stratInner ops (n + 1) (maxPts - s'.stack.length) s = r
    generalize stratInner ops (n + 1) (maxPts - s'.stack.length) s' = r'
    intro hi
    match r, r', hi with
    | none, none, _ => trivial
    | some u, some u', hi =>
      simp only [hi.R, hi.stack]
      cases hs : u'.stack.map (fun e => (ops.eval (ops.get u'.R).2 e.1, e.2)) with
      | nil => trivial
      | cons e es =>
        simp only
        exact stratRows_sameQ ops hev maxPts n _ _ ⟨rfl, rfl, rfl, rfl, hi.strat, hi.Q.map (hev _)⟩

theorem opsB_congr (co : F × F) (p q : Pt F) (h : PEq p q) : PEq (opsB.eval co p) (opsB.eval co q) := by
  obtain ⟨k, hk, hx, hz⟩ := h
  refine ⟨k ^ 3, pow_ne_zero 3 hk, ?_, ?_⟩
  · simp only [opsB, eval3isog, hx, hz]; ring
  · simp only [opsB, eval3isog, hx, hz]; ring

theorem evalIso_congr (i : Iso F) (p q : Pt F) (h : PEq p q) : PEq (evalIso i p) (evalIso i q) := by
  obtain ⟨k, hk, hx, hz⟩ := h
  refine ⟨k, hk, ?_, ?_⟩
  · simp only [evalIso, hx, hz]; ring
  · simp only [evalIso, hz]; ring

/-! ### `Isogeny_B` and the loop over the chain -/

variable (env : Env F)

theorem isogenyB_sameQ (E : Crv F) (k q q' : Pt F) (h : PEq q q') :
    (isogenyB env false E k (some q) = pure none ∧ isogenyB env false E k (some q') = pure none) ∨
    (isogenyB env false E k (some q) = M.ub ∧ isogenyB env false E k (some q') = M.ub) ∨
    ∃ E' b b', isogenyB env false E k (some q) = pure (some (E', b, none)) ∧
      isogenyB env false E k (some q') = pure (some (E', b', none)) ∧ OptPEq b b' := by
  unfold isogenyB
  simp only
  by_cases hc : (xTPLe k (acToAac24 E).2.1 (acToAac24 E).1 (env.e3 - 1)).Z = 0 ∨
      (xTPL (xTPLe k (acToAac24 E).2.1 (acToAac24 E).1 (env.e3 - 1)) (acToAac24 E).2.1 (acToAac24 E).1).Z ≠ 0
  · exact Or.inl ⟨if_pos hc, if_pos hc⟩
  · rw [if_neg hc, if_neg hc]
    have hr := stratRows_sameQ opsB opsB_congr env.ptsB (env.maxB - 1)
      ⟨((acToAac24 E).2.1, (acToAac24 E).1), k, some q, [], 0, env.stratB⟩
      ⟨((acToAac24 E).2.1, (acToAac24 E).1), k, some q', [], 0, env.stratB⟩ ⟨rfl, rfl, rfl, rfl, rfl, h⟩
    revert hr
    generalize stratRows opsB env.ptsB (env.maxB - 1)
      ⟨((acToAac24 E).2.1, (acToAac24 E).1), k, some q, [], 0, env.stratB⟩ = r
    generalize stratRows opsB env.ptsB (env.maxB - 1)
      ⟨((acToAac24 E).2.1, (acToAac24 E).1), k, some q', [], 0, env.stratB⟩ = r'
    intro hr
    match r, r', hr with
    | none, none, _ => exact Or.inr (Or.inl ⟨rfl, rfl⟩)
    | some u, some u', hi =>
      refine Or.inr (Or.inr ⟨aa24ToAc (opsB.get u'.R).1.1 (opsB.get u'.R).1.2, u.Q.map (opsB.eval (opsB.get u'.R).2),
        u'.Q.map (opsB.eval (opsB.get u'.R).2), ?_, rfl, hi.Q.map (fun p q h => opsB_congr (opsB.get u'.R).2 p q h)⟩)
      simp only [hi.R]
      rfl

theorem unpackChainBLoop_sameQ : ∀ (xs : List F) (E : Crv F) (b b' : Pt F), PEq b b' →
    (unpackChainBLoop env xs E b = pure none ∧ unpackChainBLoop env xs E b' = pure none) ∨
    (unpackChainBLoop env xs E b = M.ub ∧ unpackChainBLoop env xs E b' = M.ub) ∨
    ∃ E' c c', unpackChainBLoop env xs E b = pure (some (E', c)) ∧
      unpackChainBLoop env xs E b' = pure (some (E', c')) ∧ PEq c c'
  | [], E, b, b', h => Or.inr (Or.inr ⟨E, b, b', rfl, rfl, h⟩)
  | x :: xs, E, b, b', h => by
    unfold unpackChainBLoop
    unfold canonicalModelM
    by_cases hu : allModelsUB env E = true
    · simp only [hu, if_true]
      exact Or.inr (Or.inl ⟨rfl, rfl⟩)
    · simp only [hu, Bool.false_eq_true, if_false, lift_ok_bind]
      rcases isogenyB_sameQ env ⟨(canonicalModel env E).B, 1⟩ (unpackPoint x) _ _
        (evalIso_congr (canonicalModel env E) b b' h) with ⟨h1, h2⟩ | ⟨h1, h2⟩ | ⟨E', c, c', h1, h2, hc⟩
      · rw [h1, h2]; exact Or.inl ⟨rfl, rfl⟩
      · rw [h1, h2]; exact Or.inr (Or.inl ⟨rfl, rfl⟩)
      · rw [h1, h2]
        match c, c', hc with
        | none, none, _ => exact Or.inr (Or.inl ⟨rfl, rfl⟩)
        | some c, some c', hc => exact unpackChainBLoop_sameQ xs E' c c' hc

/-- The end of `Unpack_Chain_B`, once the first isogeny has been computed. -/
theorem finishB_det (xs : List F) (E : Crv F) (b : Pt F) : ∃ r : Option (Crv F), ∀ b', PEq b b' → Ret (do
    match ← unpackChainBLoop env xs E b' with
    | none => pure none
    | some (E, back) => if back.Z = 0 then pure none else pure (some E) : M F (Option (Crv F))) (fun o => o = r) := by
  have clash : ∀ {m m' : Out (Option (Crv F × Pt F) × Tape F)} {g : M F (Option (Crv F × Pt F))},
      g ⟨[], [], []⟩ = m → g ⟨[], [], []⟩ = m' → m = m' := fun h h' => h.symm.trans h'
  rcases unpackChainBLoop_sameQ env xs E b b (PEq.refl b) with ⟨h1, _⟩ | ⟨h1, _⟩ | ⟨E₁, c₁, _, h1, _, _⟩
  · refine ⟨none, fun b' hb => ?_⟩
    rcases unpackChainBLoop_sameQ env xs E b b' hb with ⟨h2, h3⟩ | ⟨h2, h3⟩ | ⟨E₂, c₂, c₃, h2, h3, hc⟩
    · rw [h3]; exact Ret.pure rfl
    · rw [h3]; exact fun t a t' e => by cases e
    · cases clash (congrFun h1 _) (congrFun h2 _)
  · refine ⟨none, fun b' hb => ?_⟩
    rcases unpackChainBLoop_sameQ env xs E b b' hb with ⟨h2, h3⟩ | ⟨h2, h3⟩ | ⟨E₂, c₂, c₃, h2, h3, hc⟩
    · rw [h3]; exact Ret.pure rfl
    · rw [h3]; exact fun t a t' e => by cases e
    · cases clash (congrFun h1 _) (congrFun h2 _)
  · refine ⟨if c₁.Z = 0 then none else some E₁, fun b' hb => ?_⟩
    rcases unpackChainBLoop_sameQ env xs E b b' hb with ⟨h2, h3⟩ | ⟨h2, h3⟩ | ⟨E₂, c₂, c₃, h2, h3, hc⟩
    · cases clash (congrFun h1 _) (congrFun h2 _)
    · cases clash (congrFun h1 _) (congrFun h2 _)
    · cases clash (congrFun h1 _) (congrFun h2 _)
      rw [h3]
      change Ret (if c₃.Z = 0 then pure none else pure (some E₁)) _
      by_cases hz : c₁.Z = 0
      · have hz' : c₃.Z = 0 := hc.Z_iff.2 hz
        rw [if_pos hz, if_pos hz']; exact Ret.pure rfl
      · have hz' : c₃.Z ≠ 0 := fun h => hz (hc.Z_iff.1 h)
        rw [if_neg hz, if_neg hz']; exact Ret.pure rfl

/-! ### Chains -/

variable {env} {K : Type} [Field K] [IsAlgClosed K] [DecidableEq K] {φ : F →+* K} {σ : K →+* K} {p : ℕ}

theorem checkCurve_determined {α : Type} (po : ProvesOrder) (E : Crv F) {m : M F α} {r : α}
    (h : Ret m (fun a => a = r)) (junk : ℕ → Pt F × Pt F) : Ret (checkCurve env po junk E >>= fun _ => m) (fun a => a = r) :=
  Ret.bind (Q := fun _ => True) (fun _ _ _ _ => trivial) (fun _ _ => h)

theorem unpackChainB_det (hS : Setting φ σ p env) (po : ProvesOrder) {a : F} (ha : Super φ σ p a) (xs : List F) :
    ∃ r, ∀ junk, Ret (unpackChainB env po junk a xs) (fun o => o = r) := by
  cases xs with
  | nil =>
    refine ⟨none, fun junk => ?_⟩
    unfold unpackChainB
    exact checkCurve_determined po _ (Ret.pure rfl) junk
  | cons x xs =>
    have ha' : Super φ σ p ((⟨a, 1⟩ : Crv F).A / (⟨a, 1⟩ : Crv F).C) := by simpa using ha
    obtain ⟨P, hP⟩ := exists_rep_unpack hS (a := (⟨a, 1⟩ : Crv F).A / (⟨a, 1⟩ : Crv F).C) ha'.1 x
    obtain ⟨hrej, hacc⟩ := isogenyB_ok φ hS.two hS.good (E := ⟨a, 1⟩) one_ne_zero ha'.1
      true (unpackPoint x) none hP
    unfold unpackChainB
    simp only
    by_cases ho : addOrderOf P = 3 ^ env.e3
    · obtain ⟨E', q', gF, gK, b, hC, _, hF, hub, _, hok⟩ := hacc ho
      obtain ⟨r, hr⟩ := finishB_det env xs E' b
      refine ⟨r, fun junk => checkCurve_determined po _ (Ret.bind (hok rfl) ?_) junk⟩
      rintro _ ⟨b', rfl, hb, hbnz⟩
      exact hr b' hb
    · rw [hrej ho]
      exact ⟨none, fun junk => checkCurve_determined po _ (Ret.pure rfl) junk⟩

theorem unpackChainA_det (hS : Setting φ σ p env) (po : ProvesOrder) {a : F} (ha : Super φ σ p a) (xs : List F) :
    ∃ r, ∀ junk, Ret (unpackChainA env po junk a xs) (fun o => o = r) := by
  cases xs with
  | nil =>
    refine ⟨none, fun junk => ?_⟩
    unfold unpackChainA
    exact checkCurve_determined po _ (fun t a t' e => by cases e) junk
  | cons x xs =>
    have ha' : Super φ σ p ((⟨a, 1⟩ : Crv F).A / (⟨a, 1⟩ : Crv F).C) := by simpa using ha
    obtain ⟨P, hP⟩ := exists_rep_unpack hS (a := (⟨a, 1⟩ : Crv F).A / (⟨a, 1⟩ : Crv F).C) ha'.1 x
    obtain ⟨hrej, hacc⟩ := isogenyA_ok φ hS.two hS.sqrt hS.good (E := ⟨a, 1⟩) one_ne_zero ha'.1
      (ha'.full4 hS.frob hS.two) (unpackPoint x) none hP
    unfold unpackChainA
    simp only
    by_cases ho : addOrderOf P = 2 ^ env.e2
    · obtain ⟨E', q', gF, gK, hok, hC, _, hF⟩ := hacc ho
      obtain ⟨P', hF'⟩ := hF.cast (B := a) (by simp)
      rw [hok]
      simp only [lift_ok_bind]
      have hinv := ChInv.first hS ha hC hF' nz_zero_one (by rw [map_zero_one]; exact PEq.refl _)
      rcases unpackChainALoop_spec hS xs _ E' ⟨0, 1⟩ hinv with h | ⟨E'', b, h, _⟩
      · rw [h]
        exact ⟨none, fun junk => checkCurve_determined po _ (Ret.pure rfl) junk⟩
      · rw [h]
        refine ⟨if b.Z = 0 then none else some E'', fun junk => checkCurve_determined po _ ?_ junk⟩
        change Ret (if b.Z = 0 then pure none else pure (some E'')) _
        by_cases hz : b.Z = 0
        · rw [if_pos hz, if_pos hz]; exact Ret.pure rfl
        · rw [if_neg hz, if_neg hz]; exact Ret.pure rfl
    · rw [hrej ho]
      simp only [lift_ok_bind]
      exact ⟨none, fun junk => checkCurve_determined po _ (Ret.pure rfl) junk⟩

end Secuer.Curve
