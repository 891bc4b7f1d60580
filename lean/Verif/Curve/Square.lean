import Verif.Curve.Unique
import Verif.Curve.IsogSpecB
import Verif.Curve.Torsion

/-!
# Uniqueness and commuting squares for the isogenies computed by the program

The target coefficient and the x-coordinate map of the isogenies of `FIsog` are determined by the source
coefficient and the kernel (`FIsog.unique`), and pushing a 2-power and a 3-power kernel through one another
closes up exactly, with equal coefficients (`FIsog.square`).
-/

namespace Secuer.Curve

open Secuer.Mont

variable {K : Type} [Field K] [DecidableEq K] [IsAlgClosed K]

/-! ### Composition -/

theorem card_ker_comp {G H L : Type} [AddCommGroup G] [AddCommGroup H] [AddCommGroup L] (f : G →+ H) (g : H →+ L)
    (hf : Function.Surjective f) : Nat.card (g.comp f).ker = Nat.card f.ker * Nat.card g.ker := by
  let ρ : (g.comp f).ker →+ g.ker := (f.comp (g.comp f).ker.subtype).codRestrict _ (fun x => x.2)
  have hρ : Function.Surjective ρ := by
    intro ⟨y, hy⟩
    obtain ⟨x, rfl⟩ := hf y
    exact ⟨⟨x, hy⟩, rfl⟩
  have h1 := AddSubgroup.card_eq_card_quotient_mul_card_addSubgroup ρ.ker
  rw [h1, Nat.card_congr (QuotientAddGroup.quotientKerEquivOfSurjective ρ hρ).toEquiv, mul_comm]
  congr 1
  refine Nat.card_congr ⟨fun x => ⟨x.1.1, ?_⟩, fun x => ⟨⟨x.1, ?_⟩, ?_⟩, fun x => rfl, fun x => rfl⟩
  · have := congrArg Subtype.val (AddMonoidHom.mem_ker.1 x.2)
    exact this
  · rw [AddMonoidHom.mem_ker, AddMonoidHom.comp_apply, AddMonoidHom.mem_ker.1 x.2, map_zero]
  · exact Subtype.ext (AddMonoidHom.mem_ker.1 x.2)

variable {A B C : K}

theorem Isog.comp {d e : ℕ} {f g : Pt K → Pt K} {ψ₁ : (W A).Point →+ (W B).Point}
    {ψ₂ : (W B).Point →+ (W C).Point} (hg : Isog e B C g ψ₂) (hf : Isog d A B f ψ₁) :
    Isog (d * e) A C (fun p => g (f p)) (ψ₂.comp ψ₁) :=
  ⟨hf.src, hg.tgt, hg.surj.comp hf.surj, fun R r h => hg.rep _ _ (hf.rep _ _ h), hg.forms.comp _ hf.forms,
    by rw [card_ker_comp _ _ hf.surj, hf.card, hg.card], Nat.mul_pos hf.pos hg.pos⟩

open MvPolynomial in
omit [DecidableEq K] [IsAlgClosed K] in
theorem DefOver.toId {F : Type} [Field F] {φ : F →+* K} {d : ℕ} {g : Pt K → Pt K} (h : DefOver φ d g) :
    DefOver (RingHom.id K) d g := by
  obtain ⟨N, D, hN, hD, hg⟩ := h
  refine ⟨N.map φ, D.map φ, hN.map φ, hD.map φ, fun p => ?_⟩
  rw [hg, eval₂_map, eval₂_map, RingHom.id_comp]

theorem ModelOK.isog (h2 : (2 : K) ≠ 0) {i : Iso K} (h : ModelOK A i) (hA : A ^ 2 ≠ 4) :
    ∃ η : (W A).Point →+ (W i.B).Point, Isog 1 A i.B (evalIso i) η ∧ η.ker = ⊥ := by
  have hi := h.isoX' hA
  obtain ⟨η, hs, hr⟩ := XHom.exists_hom h2 hi.src hi.tgt hi.hom hi.surj
  have hk : η.ker = ⊥ := by
    ext R
    rw [AddMonoidHom.mem_ker, ← (hr R _ (rep_xr R)).Z_iff, hi.inj, (rep_xr R).Z_iff]; rfl
  have hd := defOver_isoK (RingHom.id K) i
  exact ⟨η, ⟨hA, h.tgt, hs, fun R r h => hr R r h, hd, by rw [hk]; simp, one_pos⟩, hk⟩

/-- The kernel of a composite. -/
theorem ker_comp_zmultiples {G H L : Type} [AddCommGroup G] [AddCommGroup H] [AddCommGroup L] (f : G →+ H)
    (g : H →+ L) {P : G} {P' : H} (hg : g.ker = AddSubgroup.zmultiples P') (hP : f P = P' ∨ f P = -P') :
    (g.comp f).ker = AddSubgroup.zmultiples P ⊔ f.ker := by
  have h1 : AddSubgroup.zmultiples P' = (AddSubgroup.zmultiples P).map f := by
    rw [AddMonoidHom.map_zmultiples]
    rcases hP with h | h
    · rw [h]
    · rw [h, AddSubgroup.zmultiples_neg]
  rw [← AddMonoidHom.comap_ker, hg, h1, AddSubgroup.comap_map_eq]

/-! ### Points outside the kernel -/

theorem mem_zmultiples_torsion {G : Type} [AddCommGroup G] {P T : G} {ℓ n : ℕ} (hℓ : 0 < ℓ)
    (hP : addOrderOf P = ℓ ^ (n + 1)) (hT : ℓ • T = 0) (h : T ∈ AddSubgroup.zmultiples P) :
    T ∈ AddSubgroup.zmultiples (ℓ ^ n • P) := by
  obtain ⟨k, rfl⟩ := h
  simp only at hT ⊢
  have h1 : ((ℓ : ℤ) * k) • P = 0 := by rw [mul_zsmul, natCast_zsmul]; exact hT
  rw [← addOrderOf_dvd_iff_zsmul_eq_zero, hP, pow_succ', Nat.cast_mul] at h1
  have h2 : ((ℓ ^ n : ℕ) : ℤ) ∣ k := Int.dvd_of_mul_dvd_mul_left (by exact_mod_cast hℓ.ne') h1
  obtain ⟨m, rfl⟩ := h2
  rw [AddSubgroup.mem_zmultiples_iff]
  refine ⟨m, ?_⟩
  rw [mul_comm, mul_zsmul, natCast_zsmul]

theorem exists_outside (h2 : (2 : K) ≠ 0) (h3 : (3 : K) ≠ 0) (hA : A ^ 2 ≠ 4) {ℓ n : ℕ} (hℓ : ℓ = 2 ∨ ℓ = 3)
    {P : (W A).Point} (hn : 0 < n) (hP : addOrderOf P = ℓ ^ n) :
    ∃ T : (W A).Point, ℓ • T = 0 ∧ T ∉ AddSubgroup.zmultiples P := by
  have hcard : Nat.card (kerMul (W A).Point ℓ) = ℓ ^ 2 := by
    rcases hℓ with rfl | rfl
    · exact card_two h2 hA
    · exact card_three h2 h3 hA
  have hpos : 1 < ℓ := by rcases hℓ with rfl | rfl <;> norm_num
  obtain ⟨m, rfl⟩ : ∃ m, n = m + 1 := ⟨n - 1, by omega⟩
  by_contra hcon
  push Not at hcon
  have hle : kerMul (W A).Point ℓ ≤ AddSubgroup.zmultiples (ℓ ^ m • P) := fun T hT =>
    mem_zmultiples_torsion (by omega) hP (mem_kerMul.1 hT) (hcon T (mem_kerMul.1 hT))
  have ho : Nat.card (AddSubgroup.zmultiples (ℓ ^ m • P)) = ℓ := by
    rw [Nat.card_zmultiples, addOrderOf_nsmul' _ (by positivity), hP, pow_succ, Nat.gcd_eq_right (dvd_mul_right _ _)]
    exact Nat.mul_div_cancel_left _ (by positivity)
  have hf : Finite (AddSubgroup.zmultiples (ℓ ^ m • P)) := Nat.finite_of_card_ne_zero (by omega)
  have := Nat.card_le_card_of_injective _ (AddSubgroup.inclusion_injective hle)
  rw [hcard, ho] at this
  nlinarith

/-! ### Exact uniqueness -/

omit [DecidableEq K] [IsAlgClosed K] in
theorem ModelOK.trivial {i : Iso K} (h : ModelOK B i) (h0 : PEq (evalIso i ⟨0, 1⟩) ⟨0, 1⟩)
    (h1 : PEq (evalIso i ⟨1, 1⟩) ⟨1, 1⟩) : i.B = B ∧ ∀ p, evalIso i p = p := by
  have e0 := h0.cross
  have e1 := h1.cross
  simp only [evalIso, mul_one, zero_mul, one_mul, zero_sub] at e0 e1
  have hr : i.r = 0 := by linear_combination -e0
  rw [hr, sub_zero] at e1
  have hB := h.B
  rw [hr, ← e1, mul_one, mul_zero, add_zero] at hB
  refine ⟨hB, fun p => ?_⟩
  simp [evalIso, hr, ← e1]

section prog

variable {F : Type} [Field F] {φ : F →+* K}

theorem FIsog.isog (h2 : (2 : K) ≠ 0) {ℓ n : ℕ} (hℓ : ℓ.Prime) {a a' : F} {gF : Pt F → Pt F} {gK : Pt K → Pt K}
    {P : (W (φ a)).Point} {b : Pt K} (h : FIsog φ ℓ n a a' gF gK P b) :
    ∃ ψ, Isog (ℓ ^ n) (φ a) (φ a') gK ψ ∧ ψ.ker = AddSubgroup.zmultiples P := by
  obtain ⟨ψ, hs, hr, hk⟩ := h.cyc.exists_hom h2
  refine ⟨ψ, ⟨h.cyc.src, h.cyc.tgt, hs, hr, h.defd.toId, ?_, pow_pos hℓ.pos _⟩, hk⟩
  rw [hk, Nat.card_zmultiples]
  exact h.cyc.addOrderOf hℓ

theorem FIsog.order {ℓ n : ℕ} (hℓ : ℓ.Prime) {a a' : F} {gF : Pt F → Pt F} {gK : Pt K → Pt K}
    {P : (W (φ a)).Point} {b : Pt K} (h : FIsog φ ℓ n a a' gF gK P b) : addOrderOf P = ℓ ^ n :=
  h.cyc.addOrderOf hℓ

/-- A point of order four whose double is not in the kernel. -/
theorem exists_half_outside (h2 : (2 : K) ≠ 0) (h3 : (3 : K) ≠ 0) (hA : A ^ 2 ≠ 4) {n : ℕ} {P : (W A).Point}
    (hn : 0 < n) (hP : addOrderOf P = 2 ^ n) :
    ∃ H : (W A).Point, 4 • H = 0 ∧ 2 • H ∉ AddSubgroup.zmultiples P := by
  obtain ⟨T, hT, hTP⟩ := exists_outside h2 h3 hA (Or.inl rfl) hn hP
  obtain ⟨H, hH⟩ := two_surj h2 hA T
  refine ⟨H, ?_, by rwa [hH]⟩
  rw [show 4 = 2 * 2 from rfl, mul_nsmul, hH, hT]

/-- The target and the map are determined by the source and the kernel. -/
theorem FIsog.unique (h2 : (2 : K) ≠ 0) (h3 : (3 : K) ≠ 0) {ℓ n : ℕ} (hℓ : ℓ = 2 ∨ ℓ = 3) {a a₁ a₂ : F}
    {gF₁ gF₂ : Pt F → Pt F} {g₁ g₂ : Pt K → Pt K} {P₁ P₂ : (W (φ a)).Point} {b₁ b₂ : Pt K}
    (k₁ : FIsog φ ℓ n a a₁ gF₁ g₁ P₁ b₁) (k₂ : FIsog φ ℓ n a a₂ gF₂ g₂ P₂ b₂)
    (hk : AddSubgroup.zmultiples P₁ = AddSubgroup.zmultiples P₂) :
    a₁ = a₂ ∧ ∀ p, Nz p → PEq (g₁ p) (g₂ p) := by
  have hp : ℓ.Prime := by rcases hℓ with rfl | rfl <;> decide
  obtain ⟨ψ₁, i₁, e₁⟩ := k₁.isog h2 hp
  obtain ⟨ψ₂, i₂, e₂⟩ := k₂.isog h2 hp
  obtain ⟨i, hB, hi, hpq⟩ := i₁.unique h2 i₂ (by rw [e₁, e₂, hk])
  have hix := hi.isoX' i₁.tgt
  have key : i.B = φ a₁ ∧ ∀ p, evalIso i p = p := by
    rcases hℓ with rfl | rfl
    · obtain ⟨rfl, n₁⟩ := k₁.norm.1 rfl
      obtain ⟨rfl, n₂⟩ := k₂.norm.1 rfl
      obtain ⟨H, hH, hHP⟩ := exists_half_outside h2 h3 k₁.cyc.src k₁.cyc.pos (k₁.order hp)
      have hH2 : 2 • (2 • H) = 0 := by rw [← mul_nsmul]; exact hH
      refine hi.trivial ?_ ?_
      · refine (hix.hom.congr _ _ (k₁.cyc.back _ hH2 hHP).symm).trans ?_
        exact (hpq _ (xr_nz _)).trans (k₂.cyc.back _ hH2 (hk ▸ hHP))
      · refine (hix.hom.congr _ _ (n₁ H hH hHP).symm).trans ?_
        exact (hpq _ (xr_nz _)).trans (n₂ H hH (hk ▸ hHP))
    · obtain ⟨u0, u1⟩ := k₁.norm.2 rfl
      obtain ⟨v0, v1⟩ := k₂.norm.2 rfl
      refine hi.trivial ?_ ?_
      · exact (hix.hom.congr _ _ u0.symm).trans ((hpq _ (Or.inr one_ne_zero)).trans v0)
      · exact (hix.hom.congr _ _ u1.symm).trans ((hpq _ (Or.inr one_ne_zero)).trans v1)
  refine ⟨φ.injective (by rw [← hB, key.1]), fun p hp => ?_⟩
  have := hpq p hp
  rwa [key.2] at this

/-- The image of a point outside `⟨P⟩` of order prime to that of `Q` is outside the image of `⟨P⟩`. -/
theorem not_mem_push {G H : Type} [AddCommGroup G] [AddCommGroup H] (g : G →+ H) {P Q T : G} {P' : H} {m k : ℕ}
    (hk : g.ker = AddSubgroup.zmultiples Q) (hP' : g P = P' ∨ g P = -P') (hQ : addOrderOf Q = m)
    (hP : addOrderOf P = k) (hT : k • T = 0) (hmk : m.Coprime k) (hTP : T ∉ AddSubgroup.zmultiples P) :
    g T ∉ AddSubgroup.zmultiples P' := by
  intro h
  have h1 : g T ∈ AddSubgroup.zmultiples (g P) := by
    rcases hP' with e | e
    · rwa [e]
    · rwa [e, AddSubgroup.zmultiples_neg]
  obtain ⟨j, hj⟩ := AddSubgroup.mem_zmultiples_iff.1 h1
  rw [← map_zsmul] at hj
  have h2 : T - j • P ∈ AddSubgroup.zmultiples Q := by
    rw [← hk, AddMonoidHom.mem_ker, map_sub, hj, sub_self]
  have h3 : m • (T - j • P) = 0 := by
    obtain ⟨i, hi⟩ := AddSubgroup.mem_zmultiples_iff.1 h2
    rw [← hi, smul_comm, ← hQ, addOrderOf_nsmul_eq_zero, smul_zero]
  have h4 : k • (T - j • P) = 0 := by
    rw [nsmul_sub, hT, smul_comm, ← hP, addOrderOf_nsmul_eq_zero, smul_zero, sub_zero]
  have h5 : T - j • P = 0 := by
    have := Nat.dvd_gcd (addOrderOf_dvd_of_nsmul_eq_zero h3) (addOrderOf_dvd_of_nsmul_eq_zero h4)
    rw [hmk] at this
    exact AddMonoid.addOrderOf_eq_one_iff.1 (Nat.dvd_one.1 this)
  exact hTP (by rw [sub_eq_zero.1 h5]; exact zsmul_mem (AddSubgroup.mem_zmultiples P) j)

/-- A 2-power and a 3-power isogeny out of the same curve close up to a commuting square. -/
theorem FIsog.square (h2 : (2 : K) ≠ 0) (h3 : (3 : K) ≠ 0) {n m : ℕ} {a b c d d' : F}
    {fF gF fF' gF' : Pt F → Pt F} {f g f' g' : Pt K → Pt K} {P Q : (W (φ a)).Point} {P' : (W (φ c)).Point}
    {Q' : (W (φ b)).Point} {t₁ t₂ t₃ t₄ : Pt K}
    (kf : FIsog φ 2 n a b fF f P t₁) (kg : FIsog φ 3 m a c gF g Q t₂)
    (kf' : FIsog φ 2 n c d fF' f' P' t₃) (kg' : FIsog φ 3 m b d' gF' g' Q' t₄)
    (hP : Rep (g (xr P)) P') (hQ : Rep (f (xr Q)) Q') :
    d = d' ∧ ∀ p, Nz p → PEq (f' (g p)) (g' (f p)) := by
  obtain ⟨ψf, i1, e1⟩ := kf.isog h2 Nat.prime_two
  obtain ⟨ψg, i2, e2⟩ := kg.isog h2 Nat.prime_three
  obtain ⟨ψf', i3, e3⟩ := kf'.isog h2 Nat.prime_two
  obtain ⟨ψg', i4, e4⟩ := kg'.isog h2 Nat.prime_three
  have oP : ψg P = P' ∨ ψg P = -P' := (i2.rep _ _ (rep_xr P)).eq_or_neg hP
  have oQ : ψf Q = Q' ∨ ψf Q = -Q' := (i1.rep _ _ (rep_xr Q)).eq_or_neg hQ
  have k1 := ker_comp_zmultiples ψg ψf' e3 oP
  have k2 := ker_comp_zmultiples ψf ψg' e4 oQ
  have hker : (ψf'.comp ψg).ker = (ψg'.comp ψf).ker := by
    rw [k1, k2, e2, e1, sup_comm]
  have j1 := i3.comp i2
  have j2 := i4.comp i1
  rw [mul_comm] at j2
  obtain ⟨i, hB, hi, hpq⟩ := j1.unique h2 j2 hker
  have hix := hi.isoX' j1.tgt
  obtain ⟨rfl, n1⟩ := kf.norm.1 rfl
  obtain ⟨rfl, n3⟩ := kf'.norm.1 rfl
  obtain ⟨u0, u1⟩ := kg'.norm.2 rfl
  obtain ⟨H, hH, hHP⟩ := exists_half_outside h2 h3 kf.cyc.src kf.cyc.pos (kf.order Nat.prime_two)
  have hH2 : 2 • (2 • H) = 0 := by rw [← mul_nsmul]; exact hH
  have hcop : (3 ^ m).Coprime (2 ^ n) := Nat.Coprime.pow _ _ (by norm_num)
  have hout : ψg (2 • H) ∉ AddSubgroup.zmultiples P' := by
    refine not_mem_push ψg e2 oP (kg.order Nat.prime_three) (kf.order Nat.prime_two) ?_ hcop hHP
    have := kf.cyc.pos
    obtain ⟨n', rfl⟩ : ∃ n', n = n' + 1 := ⟨n - 1, by omega⟩
    rw [pow_succ', mul_nsmul, hH2, nsmul_zero]
  have key : i.B = φ d ∧ ∀ p, evalIso i p = p := by
    refine hi.trivial ?_ ?_
    · have l : PEq (f' (g (xr (2 • H)))) ⟨0, 1⟩ :=
        (kf'.cyc.hom.congr _ _ (i2.rep _ _ (rep_xr (2 • H)))).symm.trans
          (kf'.cyc.back _ (by rw [← map_nsmul, hH2, map_zero]) hout)
      have r : PEq (g' (f (xr (2 • H)))) ⟨0, 1⟩ := (kg'.cyc.hom.congr _ _ (kf.cyc.back _ hH2 hHP)).trans u0
      exact (hix.hom.congr _ _ l.symm).trans ((hpq _ (xr_nz _)).trans r)
    · have l : PEq (f' (g (xr H))) ⟨1, 1⟩ :=
        (kf'.cyc.hom.congr _ _ (i2.rep _ _ (rep_xr H))).symm.trans
          (n3 _ (by rw [← map_nsmul, hH, map_zero]) (by rw [← map_nsmul]; exact hout))
      have r : PEq (g' (f (xr H))) ⟨1, 1⟩ := (kg'.cyc.hom.congr _ _ (n1 H hH hHP)).trans u1
      exact (hix.hom.congr _ _ l.symm).trans ((hpq _ (xr_nz _)).trans r)
  refine ⟨φ.injective (by rw [← hB, key.1]), fun p hp => ?_⟩
  have := hpq p hp
  rwa [key.2] at this

end prog

/-! ### Isomorphisms are rigid away from the j-invariants 0 and 1728 -/

omit [DecidableEq K] [IsAlgClosed K] in
theorem ModelOK.rigid (h3 : (3 : K) ≠ 0) (hA : A ^ 2 ≠ 3) (hA' : A * (2 * A ^ 2 - 9) ≠ 0) {i j : Iso K}
    (hi : ModelOK A i) (hj : ModelOK A j) (hB : i.B = j.B) : i = j := by
  have c4 : ∀ {i : Iso K}, ModelOK A i → i.u2 ^ 2 * (i.B ^ 2 - 3) = A ^ 2 - 3 := by
    intro i h
    linear_combination (i.B * i.u2 + A + 3 * i.r) * h.B - 3 * h.usq
  have c6 : ∀ {i : Iso K}, ModelOK A i → i.u2 ^ 3 * (i.B * (2 * i.B ^ 2 - 9)) = A * (2 * A ^ 2 - 9) := by
    intro i h
    have e : i.u2 ^ 3 * (i.B * (2 * i.B ^ 2 - 9)) = 2 * (i.B * i.u2) ^ 3 - 9 * (i.B * i.u2) * i.u2 ^ 2 := by ring
    rw [e, h.B, h.usq]
    linear_combination -27 * h.root
  have hi4 := c4 hi
  have hi6 := c6 hi
  have hj4 := c4 hj
  have hj6 := c6 hj
  rw [← hB] at hj4 hj6
  have n4 : i.B ^ 2 - 3 ≠ 0 := by
    intro h
    rw [h, mul_zero] at hi4
    exact hA (by linear_combination -hi4)
  have n6 : i.B * (2 * i.B ^ 2 - 9) ≠ 0 := by
    intro h
    rw [h, mul_zero] at hi6
    exact hA' hi6.symm
  have s2 : i.u2 ^ 2 = j.u2 ^ 2 := mul_right_cancel₀ n4 (hi4.trans hj4.symm)
  have s3 : i.u2 ^ 3 = j.u2 ^ 3 := mul_right_cancel₀ n6 (hi6.trans hj6.symm)
  have hu : i.u2 = j.u2 := by
    apply mul_left_cancel₀ (pow_ne_zero 2 hi.u0)
    rw [← pow_succ, s3, s2]; ring
  have hr : i.r = j.r := by
    apply mul_left_cancel₀ h3
    linear_combination hj.B - hi.B + i.B * hu + j.u2 * hB
  cases i; cases j
  simp_all

end Secuer.Curve
