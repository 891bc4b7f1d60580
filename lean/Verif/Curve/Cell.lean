import Verif.Curve.WalkChain

/-!
# One cell of the grid of `Instance`

A 2-power and a 3-power isogeny out of the same curve, and the two isogenies parallel to them, close up to a square.
-/

namespace Secuer.Curve

open Secuer.Mont

variable {F K : Type} [Field F] [DecidableEq F] [Field K] [DecidableEq K] [IsAlgClosed K]
variable {φ : F →+* K} {σ : K →+* K} {p : ℕ} {env : Env F}

theorem Tors.Z_ne {ℓ : ℕ} {A : K} {b : Pt K} (h : Tors ℓ (A := A) b) : b.Z ≠ 0 := by
  obtain ⟨T, hT, _, h0⟩ := h
  exact fun hz => h0 (hT.Z_iff.1 hz)

theorem Tors.nz {ℓ : ℕ} {A : K} {b : Pt K} (h : Tors ℓ (A := A) b) : Nz b := Or.inr h.Z_ne

/-- Points of order prime to the degree keep their order. -/
theorem FIsog.push_order (h2 : (2 : K) ≠ 0) {ℓ e : ℕ} (hℓ : ℓ.Prime) {a a' : F} {gF : Pt F → Pt F} {gK : Pt K → Pt K}
    {P R : (W (φ a)).Point} {R' : (W (φ a')).Point} {b : Pt K} (h : FIsog φ ℓ e a a' gF gK P b)
    (hR : Rep (gK (xr R)) R') (hc : (addOrderOf R).Coprime ℓ) : addOrderOf R' = addOrderOf R := by
  obtain ⟨ψ, hi, hk⟩ := h.isog h2 hℓ
  have e1 : addOrderOf R' = addOrderOf (ψ R) := by
    rcases (hi.rep _ _ (rep_xr R)).eq_or_neg hR with h | h
    · rw [h]
    · rw [h, addOrderOf_neg]
  rw [e1, addOrderOf_eq_addOrderOf_iff]
  intro n
  rw [← map_nsmul]
  constructor
  · intro h0
    have hm : n • R ∈ AddSubgroup.zmultiples P := by rw [← hk]; exact h0
    have d1 : addOrderOf (n • R) ∣ ℓ ^ e := by
      rw [← h.order hℓ]
      exact addOrderOf_dvd_of_mem_zmultiples hm
    have d2 : addOrderOf (n • R) ∣ addOrderOf R := addOrderOf_smul_dvd n
    have := Nat.dvd_gcd d2 d1
    rw [Nat.Coprime.pow_right e hc] at this
    exact AddMonoid.addOrderOf_eq_one_iff.1 (Nat.dvd_one.1 this)
  · intro h0; rw [h0, map_zero]

theorem FIsog.push_tors (h2 : (2 : K) ≠ 0) {ℓ m e : ℕ} (hℓ : ℓ.Prime) (hm : m.Prime) (hne : m ≠ ℓ) {a a' : F} {gF : Pt F → Pt F}
    {gK : Pt K → Pt K} {P : (W (φ a)).Point} {b b₀ : Pt K} (h : FIsog φ ℓ e a a' gF gK P b) (hb : Tors m (A := φ a) b₀) :
    Tors m (A := φ a') (gK b₀) := by
  obtain ⟨T, hT, h0, h1⟩ := hb
  obtain ⟨ψ, hi, hk⟩ := h.isog h2 hℓ
  have ho : addOrderOf T = m := by
    haveI := Fact.mk hm
    exact addOrderOf_eq_prime h0 h1
  have hR : Rep (gK (xr T)) (ψ T) := hi.rep _ _ (rep_xr T)
  have := h.push_order h2 hℓ hR (by rw [ho]; exact (Nat.coprime_primes hm hℓ).2 hne)
  refine ⟨ψ T, hR.peq (h.cyc.hom.congr _ _ hT), by rw [← map_nsmul, h0, map_zero], fun hz => ?_⟩
  rw [hz, addOrderOf_zero, ho] at this
  exact hm.one_lt.ne this

theorem Walk.push_tors (h2 : (2 : K) ≠ 0) {ℓ m e : ℕ} (hℓ : ℓ.Prime) (hm : m.Prime) (hne : m ≠ ℓ) {bo : Option (Pt K)}
    {a a'' : F} {cells : List (Crv F × Pt F)} {G : Pt K → Pt K} (hw : Walk φ ℓ e bo a cells a'' G) :
    ∀ {b₀ : Pt K}, Tors m (A := φ a) b₀ → Tors m (A := φ a'') (G b₀) := by
  induction hw with
  | nil => exact fun h => h
  | cons _ _ hF _ _ ih => exact fun h => ih (hF.push_tors h2 hℓ hm hne h)

theorem Walk.congr {ℓ e : ℕ} {bo : Option (Pt K)} {a a'' : F} {cells : List (Crv F × Pt F)} {G : Pt K → Pt K}
    (hw : Walk φ ℓ e bo a cells a'' G) : ∀ {q r : Pt K}, PEq q r → PEq (G q) (G r) := by
  induction hw with
  | nil => exact fun h => h
  | cons _ _ hF _ _ ih => exact fun h => ih (hF.cyc.hom.congr _ _ h)

theorem Walk.nz {ℓ e : ℕ} {bo : Option (Pt K)} {a a'' : F} {cells : List (Crv F × Pt F)} {G : Pt K → Pt K}
    (hw : Walk φ ℓ e bo a cells a'' G) : ∀ {q : Pt K}, Nz q → Nz (G q) := by
  induction hw with
  | nil => exact fun h => h
  | cons _ _ hF _ _ ih => exact fun h => ih (hF.cyc.hom.nz _ h)

/-- The direction back matters only up to scaling. -/
theorem Walk.back {ℓ e : ℕ} {b b' : Pt K} {a a'' : F} {cells : List (Crv F × Pt F)} {G : Pt K → Pt K}
    (hw : Walk φ ℓ e (some b) a cells a'' G) (h : PEq b b') : Walk φ ℓ e (some b') a cells a'' G := by
  generalize hbo : some b = bo at hw
  cases hw with
  | nil => exact Walk.nil _ _
  | cons hE hk hF hb hr =>
    refine Walk.cons hE hk hF ?_ hr
    rintro _ ⟨rfl⟩ hz
    exact hb b (by rw [← hbo]; rfl) ((hF.cyc.hom.congr _ _ h).Z_iff.1 hz)

/-- The last cell of a walk leads to its end. -/
theorem Walk.last (hS : Setting φ σ p env) {ℓ e : ℕ} {bo : Option (Pt K)} {a a'' : F} {cells : List (Crv F × Pt F)}
    {G : Pt K → Pt K} (hw : Walk φ ℓ e bo a cells a'' G) (ha : Super φ σ p a) : ∀ {c}, cells.getLast? = some c →
    ∃ (a' : F) (P : (W (φ a')).Point) (gF : Pt F → Pt F) (gK : Pt K → Pt K) (b : Pt K), On c.1 a' ∧ Super φ σ p a' ∧
      Rep (c.2.map φ) P ∧ FIsog φ ℓ e a' a'' gF gK P b := by
  induction hw with
  | nil => intro c h; simp at h
  | @cons bo a a' a'' E k rest P gF gK b G hE hk hF hb hr ih =>
    intro c h
    cases hr with
    | nil =>
      simp at h; subst h
      exact ⟨a, P, gF, gK, b, hE, ha, hk, hF⟩
    | cons h1 h2 h3 h4 h5 =>
      rw [List.getLast?_cons_cons] at h
      exact ih (hF.super hS ha) h

/-- One cell. -/
theorem cell (hS : Setting φ σ p env) (h3 : (3 : K) ≠ 0) {a a' c : F} (ha : Super φ σ p a) {gF fF : Pt F → Pt F}
    {gK fK : Pt K → Pt K} {P R : (W (φ a)).Point} {b d : Pt K} (kg : FIsog φ 2 env.e2 a a' gF gK P b)
    (kf : FIsog φ 3 env.e3 a c fF fK R d) {Et El : Crv F} {Kt Kl : Pt F} (hEt : On Et a) (hEl : On El a)
    (hKt : Rep (Kt.map φ) P) (hKl : Rep (Kl.map φ) R) :
    ∃ Er Kr bb Eb Kb, isogenyA env Et Kt (some Kl) = .ok (some (Er, some Kr, bb)) ∧
      isogenyB env false El Kl (some Kt) = pure (some (Eb, some Kb, none)) ∧ On Er a' ∧ On Eb c ∧
      ∃ (c' : F) (gF' : Pt F → Pt F) (gK' : Pt K → Pt K) (P' : (W (φ c)).Point) (b' : Pt K) (fF' : Pt F → Pt F)
        (fK' : Pt K → Pt K) (R' : (W (φ a')).Point) (d' : Pt K), FIsog φ 2 env.e2 c c' gF' gK' P' b' ∧
        FIsog φ 3 env.e3 a' c' fF' fK' R' d' ∧ Rep (Kr.map φ) R' ∧ Rep (Kb.map φ) P' ∧
        ∀ q, Nz q → PEq (gK' (fK q)) (fK' (gK q)) := by
  have h2 := two_map φ hS.two
  have p2 := Nat.prime_two
  have p3 := Nat.prime_three
  obtain ⟨Er, q', hF, hK, hrun, hC, hq, kh⟩ := runA hS hEt ha hKt (kg.order p2) (some Kl)
  obtain ⟨ea, hgh⟩ := FIsog.unique h2 h3 (Or.inl rfl) kh kg rfl
  cases q' with
  | none => simp [OptPEq] at hq
  | some Kr =>
  obtain ⟨Eb, q'', iF, iK, b2, hC2, hq2, ki, _, hrun2, _⟩ := runB hS hEl ha false hKl (kf.order p3) (some Kt)
  obtain ⟨eb, hfi⟩ := FIsog.unique h2 h3 (Or.inr rfl) ki kf rfl
  cases q'' with
  | none => simp [OptPEq] at hq2
  | some Kb =>
  refine ⟨Er, Kr, _, Eb, Kb, hrun, hrun2 rfl, ⟨hC, ea⟩, ⟨hC2, eb⟩, ?_⟩
  simp only [OptPEq, Option.map] at hq hq2
  -- the pushed kernels
  have hKr : PEq (gK (xr R)) (Kr.map φ) := by
    have e1 : PEq (hK (Kl.map φ)) (Kr.map φ) := by rw [kh.lift]; exact PEq.map φ hq
    exact (kg.cyc.hom.congr _ _ hKl).trans ((hgh _ (hKl.nz)).symm.trans e1)
  have hKb : PEq (fK (xr P)) (Kb.map φ) := by
    have e1 : PEq (iK (Kt.map φ)) (Kb.map φ) := by rw [ki.lift]; exact PEq.map φ hq2
    exact (kf.cyc.hom.congr _ _ hKt).trans ((hfi _ (hKt.nz)).symm.trans e1)
  obtain ⟨R', hR'⟩ := exists_rep (A := φ a') h2 kg.cyc.tgt (kg.cyc.hom.nz _ (xr_nz R))
  obtain ⟨P', hP'⟩ := exists_rep (A := φ c) h2 kf.cyc.tgt (kf.cyc.hom.nz _ (xr_nz P))
  have oR : addOrderOf R' = 3 ^ env.e3 := by
    rw [kg.push_order h2 p2 hR' (by rw [kf.order p3]; exact Nat.Coprime.pow_left _ (by norm_num)), kf.order p3]
  have oP : addOrderOf P' = 2 ^ env.e2 := by
    rw [kf.push_order h2 p3 hP' (by rw [kg.order p2]; exact Nat.Coprime.pow_left _ (by norm_num)), kg.order p2]
  have hKr' := hR'.peq hKr
  have hKb' := hP'.peq hKb
  obtain ⟨E1, _, gF', gK', _, _, _, kg'⟩ := runA hS (on_one c) (kf.super hS ha) hKb' oP none
  obtain ⟨E2, _, fF', fK', b3, _, _, kf', _⟩ := runB hS (on_one a') (kg.super hS ha) false hKr' oR none
  obtain ⟨e3, hsq⟩ := FIsog.square h2 h3 kg kf kg' kf' hP' hR'
  rw [← e3] at kf'
  exact ⟨_, gF', gK', P', _, fF', fK', R', _, kg', kf', hKr', hKb', hsq⟩

end Secuer.Curve
