import Verif.Sage.Library
import Mathlib.GroupTheory.SpecificGroups.Cyclic

/-!
# Chains that `unpack_chain` accepts are cyclic isogenies
-/

namespace Secuer.Sage

open Secuer.Protocol Secuer.Curve Secuer.Mont Secuer.Field Secuer.Text Secuer.Scalar Secuer.ChainProps Secuer.CurveProps

variable {l : Level}

theorem card_kerMul_succ_le {G : Type} [AddCommGroup G] [Finite G] (n m : ℕ) :
    Nat.card (kerMul G (n * m)) ≤ Nat.card (kerMul G n) * Nat.card (kerMul G m) := by
  let f : kerMul G (n * m) →+ kerMul G n :=
    { toFun := fun x => ⟨m • x.1, by rw [mem_kerMul, ← mul_nsmul, mul_comm]; exact x.2⟩
      map_zero' := by ext; simp
      map_add' := by intro x y; ext; simp }
  have h1 : Nat.card (kerMul G (n * m)) = Nat.card f.range * Nat.card f.ker := by
    rw [← AddSubgroup.card_mul_index f.ker, AddSubgroup.index_ker, mul_comm]
  have h2 : Nat.card f.range ≤ Nat.card (kerMul G n) := Nat.card_le_card_of_injective _ f.range.subtype_injective
  have h3 : Nat.card f.ker ≤ Nat.card (kerMul G m) := by
    refine Nat.card_le_card_of_injective (fun x => (⟨x.1.1, ?_⟩ : kerMul G m)) ?_
    · have := x.2
      rw [AddMonoidHom.mem_ker] at this
      exact congrArg Subtype.val this
    · intro x y h
      have h' := congrArg Subtype.val h
      exact Subtype.ext (Subtype.ext h')
  rw [h1]
  exact Nat.mul_le_mul h2 h3

theorem card_kerMul_le {G : Type} [AddCommGroup G] [Finite G] {ℓ : ℕ} (h : Nat.card (kerMul G ℓ) ≤ ℓ) :
    ∀ k, Nat.card (kerMul G (ℓ ^ k)) ≤ ℓ ^ k
  | 0 => by
    have : kerMul G (ℓ ^ 0) = ⊥ := by
      ext x
      rw [mem_kerMul, pow_zero, one_nsmul, AddSubgroup.mem_bot]
    rw [this, AddSubgroup.card_bot, pow_zero]
  | k + 1 => by
    rw [pow_succ]
    exact (card_kerMul_succ_le _ _).trans (Nat.mul_le_mul (card_kerMul_le h k) h)

/-- A group of prime power order with few elements of order `ℓ` is cyclic. -/
theorem cyclic_of_card {G : Type} [AddCommGroup G] {ℓ m : ℕ} (hℓ : ℓ.Prime) (hc : Nat.card G = ℓ ^ m)
    (h : Nat.card (kerMul G ℓ) ≤ ℓ) : ∃ P : G, addOrderOf P = ℓ ^ m := by
  have hfin : Finite G := Nat.finite_of_card_ne_zero (by rw [hc]; exact (pow_pos hℓ.pos _).ne')
  haveI := Fintype.ofFinite G
  classical
  haveI : IsAddCyclic G := isAddCyclic_of_card_nsmul_eq_zero_le fun n hn => by
    obtain ⟨j, _, hj⟩ := (Nat.dvd_prime_pow hℓ).1 (Nat.gcd_dvd_right n (ℓ ^ m))
    have h1 : (Finset.univ.filter fun a : G => n • a = 0).card ≤ Nat.card (kerMul G (ℓ ^ j)) := by
      rw [← Fintype.card_subtype, ← Nat.card_eq_fintype_card]
      refine Nat.card_le_card_of_injective (fun x => (⟨x.1, ?_⟩ : kerMul G (ℓ ^ j))) fun x y h => by
        have h' := congrArg Subtype.val h
        exact Subtype.ext h'
      rw [mem_kerMul, ← hj, ← addOrderOf_dvd_iff_nsmul_eq_zero]
      refine Nat.dvd_gcd (addOrderOf_dvd_iff_nsmul_eq_zero.2 x.2) ?_
      rw [← hc]
      exact addOrderOf_dvd_natCard x.1
    exact h1.trans ((card_kerMul_le h j).trans (hj ▸ Nat.le_of_dvd hn (Nat.gcd_dvd_left n _)))
  obtain ⟨P, hP⟩ := IsAddCyclic.exists_ofOrder_eq_natCard (α := G)
  exact ⟨P, hP.trans hc⟩

/-- The kernel of an isogeny of prime power degree that does not kill all points of order `ℓ` -/
theorem cyclic_ker {a : l.F} (ha : RightOrder l a) {ℓ m : ℕ} (hℓ : ℓ = 2 ∨ ℓ = 3) (S : AddSubgroup (W (l.φ a)).Point)
    (hc : Nat.card S = ℓ ^ m) {T : (W (l.φ a)).Point} (hT : ℓ • T = 0) (hTS : T ∉ S) :
    ∃ P, S = AddSubgroup.zmultiples P ∧ addOrderOf P = ℓ ^ m := by
  have hp := prime_of hℓ
  have hfin : Finite S := Nat.finite_of_card_ne_zero (by rw [hc]; exact (pow_pos hp.pos _).ne')
  have hle : Nat.card (kerMul S ℓ) ≤ ℓ := by
    let V := kerMul (W (l.φ a)).Point ℓ
    have hV : Nat.card V = ℓ ^ 2 := card_tors ha hℓ
    have hVf : Finite V := Nat.finite_of_card_ne_zero (by rw [hV]; exact (pow_pos hp.pos _).ne')
    let f : kerMul S ℓ →+ V :=
      { toFun := fun x => ⟨x.1.1, by have := mem_kerMul.1 x.2; exact congrArg Subtype.val this⟩
        map_zero' := rfl
        map_add' := fun _ _ => rfl }
    have hinj : Function.Injective f := by
      intro x y h
      have := congrArg Subtype.val h
      exact Subtype.ext (Subtype.ext this)
    have hcard : Nat.card f.range = Nat.card (kerMul S ℓ) :=
      (Nat.card_congr (AddMonoidHom.ofInjective hinj).toEquiv).symm
    have hdvd : Nat.card f.range ∣ ℓ ^ 2 := hV ▸ AddSubgroup.card_addSubgroup_dvd_card f.range
    have hne : Nat.card f.range ≠ ℓ ^ 2 := by
      intro he
      have htop := AddSubgroup.eq_top_of_card_eq f.range (he.trans hV.symm)
      obtain ⟨x, hx⟩ : (⟨T, hT⟩ : V) ∈ f.range := by rw [htop]; trivial
      have : x.1.1 = T := congrArg Subtype.val hx
      exact hTS (this ▸ x.1.2)
    rw [← hcard]
    obtain ⟨j, hj, hje⟩ := (Nat.dvd_prime_pow hp).1 hdvd
    rw [hje] at hne ⊢
    have : j ≤ 1 := by
      rcases Nat.lt_or_ge j 2 with h | h
      · omega
      · exact absurd (by rw [le_antisymm hj h]) hne
    calc ℓ ^ j ≤ ℓ ^ 1 := Nat.pow_le_pow_right hp.pos this
      _ = ℓ := pow_one ℓ
  obtain ⟨P, hP⟩ := cyclic_of_card hp hc hle
  refine ⟨P.1, ?_, by rw [← hP, AddSubgroup.addOrderOf_coe]⟩
  symm
  refine AddSubgroup.eq_of_le_of_card_ge (by rw [AddSubgroup.zmultiples_le]; exact P.2) ?_
  rw [hc, Nat.card_zmultiples, AddSubgroup.addOrderOf_coe, hP]

/-- The loop composes isogenies. -/
theorem loop_isog {lib : Lib l} (hlib : lib.OK) {ℓ e : ℕ} (hd : Deg l ℓ e) : ∀ (xs : List l.F) (a : l.F) (P Q : (W a).Point)
    (b : l.F), RightOrder l a → ¬(P = 0 ∧ Q = 0) → chainLoop lib ℓ (ℓ ^ e) xs a P Q = .ok b →
    RightOrder l b ∧ ∃ g ψ, Isog (ℓ ^ (e * xs.length)) (l.φ a) (l.φ b) g ψ ∧ DefOver l.φ (ℓ ^ (e * xs.length)) g ∧
      ¬(ψ (up P) = 0 ∧ ψ (up Q) = 0)
  | [], a, P, Q, b, ha, h0, h => by
    simp only [chainLoop, Res.ok.injEq] at h
    subst h
    have hdef : DefOver l.φ (ℓ ^ (e * ([] : List l.F).length)) (id : Pt l.K → Pt l.K) := by
      refine ⟨MvPolynomial.X 0, MvPolynomial.X 1, ?_, ?_, fun p => ?_⟩
      · simpa using MvPolynomial.isHomogeneous_X l.F (0 : Fin 2)
      · simpa using MvPolynomial.isHomogeneous_X l.F (1 : Fin 2)
      · simp
    refine ⟨ha, id, AddMonoidHom.id _, ⟨sq_ne_four_map _ ha.1, sq_ne_four_map _ ha.1, fun x => ⟨x, rfl⟩, fun _ _ h => h,
      hdef.toId, ?_, pow_pos hd.prime.pos _⟩, hdef, ?_⟩
    · have : (AddMonoidHom.id (W (l.φ a)).Point).ker = ⊥ := rfl
      rw [this, AddSubgroup.card_bot, List.length_nil, mul_zero, pow_zero]
    · rw [AddMonoidHom.id_apply, AddMonoidHom.id_apply, up_eq_zero, up_eq_zero]; exact h0
  | x :: xs, a, P, Q, b, ha, h0, h => by
    unfold chainLoop at h
    cases hl : lib.lift a x with
    | none => rw [hl] at h; cases h
    | some K =>
      rw [hl] at h
      simp only at h
      by_cases ho : addOrderOf K = ℓ ^ e
      · have ha' := isog_right hlib ha hd ho
        rw [if_neg (by rw [order_test hd]; exact not_not.2 ho), curve_ok hlib ha'] at h
        simp only [Res.bind] at h
        split at h
        · cases h
        · rename_i hn
          obtain ⟨hb, g₂, ψ₂, i2, d2, h2⟩ := loop_isog hlib hd xs _ _ _ b ha' hn h
          obtain ⟨g₁, ψ₁, i1, d1, hk, hup⟩ := isog_hom hlib ha hd ho
          have hi := i2.comp i1
          have hdd := d2.comp l.φ d1
          rw [← pow_add] at hi hdd
          have he : e * (x :: xs).length = e + e * xs.length := by rw [List.length_cons]; ring
          rw [he]
          refine ⟨hb, _, _, hi, hdd, ?_⟩
          rw [AddMonoidHom.comp_apply, AddMonoidHom.comp_apply, ← hup, ← hup]
          exact h2
      · rw [if_pos ((order_test hd K).2 ho)] at h
        cases h

/-- An accepted chain is an isogeny with cyclic kernel between curves of the right order. -/
theorem chain_sound {lib : Lib l} (hlib : lib.OK) {a : l.F} (ha : RightOrder l a) {ℓ e : ℕ} (hd : Deg l ℓ e) {xs : List l.F}
    {b : l.F} (h : unpackChain lib a xs ℓ (ℓ ^ e) = .ok b) : RightOrder l b ∧ CyclicIsogeny l (ℓ ^ (e * xs.length)) a b := by
  unfold unpackChain at h
  rw [curve_ok hlib ha] at h
  obtain ⟨b1, b2, b3, b4⟩ := hlib.basis a ℓ ha hd.two_or
  obtain ⟨hb, g, ψ, hi, ⟨N, D, hN, hD, hg⟩, hn⟩ := loop_isog hlib hd xs a _ _ b ha (fun h0 => b3 h0.1) h
  obtain ⟨T, hT, hT0⟩ : ∃ T : (W a).Point, ℓ • T = 0 ∧ ψ (up T) ≠ 0 := by
    by_cases h1 : ψ (up (lib.basis ℓ a).1) = 0
    · exact ⟨_, b2, fun h2 => hn ⟨h1, h2⟩⟩
    · exact ⟨_, b1, h1⟩
  obtain ⟨P, hP, hPo⟩ := cyclic_ker ha hd.two_or ψ.ker hi.card (T := up T) (by rw [← up_nsmul, hT, up_zero]) hT0
  refine ⟨hb, ψ, P, N, D, hi.surj, hP, hPo, hN, hD, fun q Q hq => ?_⟩
  have := hi.rep Q q (isX_iff.1 hq)
  rw [hg] at this
  exact isX_iff.2 this

end Secuer.Sage
