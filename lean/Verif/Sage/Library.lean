import Verif.Sage.Agree

/-!
# A library that does what is assumed of Sage, and chains that `unpack_chain` accepts
-/

namespace Secuer.Sage

open Secuer.Protocol Secuer.Curve Secuer.Mont Secuer.Field Secuer.Text Secuer.Scalar Secuer.ChainProps Secuer.CurveProps

variable {l : Level}

/-! ### Existence -/

theorem card_tors {a : l.F} (ha : RightOrder l a) {ℓ : ℕ} (hℓ : ℓ = 2 ∨ ℓ = 3) :
    Nat.card (kerMul (W (l.φ a)).Point ℓ) = ℓ ^ 2 := by
  rcases hℓ with rfl | rfl
  · exact card_two (two_map l.φ l.two) (sq_ne_four_map l.φ ha.1)
  · exact card_three (two_map l.φ l.two) (three_K l) (sq_ne_four_map l.φ ha.1)

/-- A point of order `ℓ` outside a subgroup of at most `ℓ` elements -/
theorem exists_tors {a : l.F} (ha : RightOrder l a) {ℓ : ℕ} (hℓ : ℓ = 2 ∨ ℓ = 3) (S : AddSubgroup (W (l.φ a)).Point)
    [Finite S] (hS : Nat.card S ≤ ℓ) : ∃ T : (W a).Point, ℓ • T = 0 ∧ up T ∉ S := by
  have hdvd : ℓ ∣ l.p + 1 := by
    rcases hℓ with rfl | rfl
    · exact Deg.dvd1 (Or.inl ⟨rfl, rfl⟩ : Deg l 2 _)
    · exact Deg.dvd1 (Or.inr ⟨rfl, rfl⟩ : Deg l 3 _)
  by_contra hcon
  push Not at hcon
  have hle : kerMul (W (l.φ a)).Point ℓ ≤ S := by
    intro R hR
    have hR' : ℓ • R = 0 := hR
    obtain ⟨T, rfl⟩ := exists_up ha (kill_of_dvd hdvd hR')
    exact hcon T (up_eq_zero.1 (by rw [up_nsmul, hR']))
  have : Nat.card (kerMul (W (l.φ a)).Point ℓ) ≤ Nat.card S := Nat.card_mono (Set.toFinite (S : Set (W (l.φ a)).Point)) (SetLike.coe_subset_coe.2 hle)
  have h2 := card_tors ha hℓ
  rcases hℓ with rfl | rfl <;> omega

theorem exists_basis {a : l.F} (ha : RightOrder l a) {ℓ : ℕ} (hℓ : ℓ = 2 ∨ ℓ = 3) :
    ∃ b : (W a).Point × (W a).Point, ℓ • b.1 = 0 ∧ ℓ • b.2 = 0 ∧ b.1 ≠ 0 ∧ b.2 ∉ AddSubgroup.zmultiples b.1 := by
  obtain ⟨P, hP, hP0⟩ := exists_tors ha hℓ ⊥ (by rw [AddSubgroup.card_bot]; rcases hℓ with rfl | rfl <;> norm_num)
  have hfin : IsOfFinAddOrder (up P) := isOfFinAddOrder_iff_nsmul_eq_zero.2
    ⟨ℓ, by rcases hℓ with rfl | rfl <;> norm_num, by rw [← up_nsmul, hP, up_zero]⟩
  have : Finite (AddSubgroup.zmultiples (up P)) := finite_zmultiples.2 hfin
  obtain ⟨Q, hQ, hQP⟩ := exists_tors ha hℓ (AddSubgroup.zmultiples (up P)) (by
    rw [Nat.card_zmultiples]
    exact addOrderOf_le_of_nsmul_eq_zero (by rcases hℓ with rfl | rfl <;> norm_num) (by rw [← up_nsmul, hP, up_zero]))
  refine ⟨(P, Q), hP, hQ, fun h => hP0 (by rw [show P = 0 from h, up_zero]; exact AddSubgroup.zero_mem _), fun h => hQP ?_⟩
  obtain ⟨n, hn⟩ := AddSubgroup.mem_zmultiples_iff.1 h
  exact AddSubgroup.mem_zmultiples_iff.2 ⟨n, by rw [← up_zsmul, hn]⟩

theorem least_canonical {E : Crv l.F} (hs : Super l.φ l.σ l.p (E.A / E.C)) : Least l (canonicalModel l.env E).B := by
  have hS := l.setting
  obtain ⟨_, hm⟩ := canonicalModelM_ok hS hs
  refine ⟨hm.tgt, fun b hb hj => ?_⟩
  have hj' := (jOf_eq_iff hS.two hb hm.tgt).1 hj
  obtain ⟨i, hi, rfl⟩ := allModels_complete hS.sqrt hS.two hs.1 (hs.full4 hS.frob hS.two) (hm.sameJ.trans hm.tgt hj'.symm)
  have h1 := canonicalModel_le (env := l.env) E i hi
  rw [Prod.Lex.toLex_le_toLex] at h1
  exact h1

theorem exists_fisog {a : l.F} (ha : RightOrder l a) {ℓ e : ℕ} (hd : Deg l ℓ e) {P : (W a).Point} (ho : addOrderOf P = ℓ ^ e) :
    ∃ (E' : Crv l.F) (gF : Pt l.F → Pt l.F) (gK : Pt l.K → Pt l.K) (b : Pt l.K), E'.C ≠ 0 ∧
      FIsog l.φ ℓ e a (E'.A / E'.C) gF gK (up P) b := by
  have hS := l.setting
  have hs := (rightOrder_iff l).1 ha
  have ho' : addOrderOf (up P) = ℓ ^ e := by rw [up_order, ho]
  obtain ⟨k, hk⟩ : ∃ k : Pt l.F, Rep (k.map l.φ) (up P) := ⟨_, rep_up (rep_xr P)⟩
  rcases hd with ⟨rfl, rfl⟩ | ⟨rfl, rfl⟩
  · obtain ⟨E', q', gF, gK, _, hC, _, kg⟩ := runA hS (on_one a) hs hk ho' none
    exact ⟨E', gF, gK, _, hC, kg⟩
  · obtain ⟨E', q', gF, gK, b, hC, _, kg, _⟩ := runB hS (on_one a) hs false hk ho' none
    exact ⟨E', gF, gK, _, hC, kg⟩

theorem exists_isog {a : l.F} (ha : RightOrder l a) {ℓ e : ℕ} (hd : Deg l ℓ e) {P : (W a).Point} (ho : addOrderOf P = ℓ ^ e) :
    ∃ s : (a' : l.F) × ((W a).Point → (W a').Point), Least l s.1 ∧ IsIsogeny (ℓ ^ e) P s.2 := by
  have hS := l.setting
  have h2 := two_map l.φ l.two
  have hs := (rightOrder_iff l).1 ha
  obtain ⟨E', gF, gK, b, hC, kg⟩ := exists_fisog ha hd ho
  have hs' := kg.super hS hs
  obtain ⟨_, hm⟩ := canonicalModelM_ok hS hs'
  have hB : RightOrder l (canonicalModel l.env E').B := (rightOrder_iff l).2 (hs'.model hS.frob hS.two hm hS.neg)
  obtain ⟨ψ, hψ, hk1⟩ := kg.isog h2 hd.prime
  obtain ⟨η, hη, hk2⟩ : ∃ η : (W (l.φ (E'.A / E'.C))).Point →+ (W (l.φ (canonicalModel l.env E').B)).Point,
      Isog 1 (l.φ (E'.A / E'.C)) (l.φ (canonicalModel l.env E').B) (isoK l.φ (canonicalModel l.env E')) η ∧ η.ker = ⊥ := by
    have hfun : isoK l.φ (canonicalModel l.env E') = evalIso ((canonicalModel l.env E').mapK l.φ) := funext fun q => isoK_eq _ q
    rw [hfun]
    exact hm.mapK (φ := l.φ) |>.isog h2 (sq_ne_four_map l.φ hs'.1)
  have hc := hη.comp hψ
  have hdef := (defOver_isoK (φ := l.φ) (canonicalModel l.env E')).comp l.φ kg.defd
  rw [mul_one] at hc hdef
  have hkill : ∀ R : (W a).Point, ∃ S : (W (canonicalModel l.env E').B).Point, up S = (η.comp ψ) (up R) := fun R =>
    exists_up hB (by rw [← map_nsmul, ← up_nsmul, hs.kill hS.frob R, up_zero, map_zero])
  choose f hf using hkill
  obtain ⟨N, D, hN, hD, hg⟩ := hdef
  refine ⟨⟨_, f⟩, least_canonical hs', η.comp ψ, N, D, hc.surj, ?_, hN, hD, fun q Q hq => ?_, hf⟩
  · rw [← hk1]
    ext R
    simp only [AddMonoidHom.mem_ker, AddMonoidHom.comp_apply]
    rw [← AddMonoidHom.mem_ker, hk2, AddSubgroup.mem_bot]
  · have := hc.rep Q q (isX_iff.1 hq)
    simp only at hg
    rw [hg] at this
    exact isX_iff.2 this

theorem exists_isog' {a : l.F} {P : (W a).Point} (h : ∃ ℓ e, RightOrder l a ∧ Deg l ℓ e ∧ addOrderOf P = ℓ ^ e) :
    ∃ s : (a' : l.F) × ((W a).Point → (W a').Point), Least l s.1 ∧ IsIsogeny (addOrderOf P) P s.2 := by
  obtain ⟨ℓ, e, ha, hd, ho⟩ := h
  rw [ho]
  exact exists_isog ha hd ho

open Classical in
variable (l) in
/-- A library that does what is assumed of Sage. -/
noncomputable def someLib : Lib l where
  order a := decide (RightOrder l a)
  basis ℓ a := if h : RightOrder l a ∧ (ℓ = 2 ∨ ℓ = 3) then (exists_basis h.1 h.2).choose else (0, 0)
  lift a x := if h : ∃ y, (W a).Nonsingular x y then some (.some x h.choose h.choose_spec) else none
  isog a P := if h : ∃ ℓ e, RightOrder l a ∧ Deg l ℓ e ∧ addOrderOf P = ℓ ^ e then (exists_isog' h).choose else ⟨a, id⟩

theorem someLib_ok : (someLib l).OK where
  order a h := by simp [someLib, h]
  basis a ℓ h h' := by
    simp only [someLib, dif_pos (And.intro h h')]
    exact (exists_basis h h').choose_spec
  lift_some a x P _ h := by
    simp only [someLib] at h
    split at h
    · rename_i hy
      cases h
      exact ⟨_, hy.choose_spec, rfl⟩
    · cases h
  lift_none a x _ h := by
    simp only [someLib] at h
    split at h
    · cases h
    · rename_i hy
      push Not at hy
      exact hy
  isog a P ℓ e h hd ho := by
    have hex : ∃ ℓ e, RightOrder l a ∧ Deg l ℓ e ∧ addOrderOf P = ℓ ^ e := ⟨ℓ, e, h, hd, ho⟩
    have key : (someLib l).isog a P = (exists_isog' hex).choose := dif_pos hex
    rw [key]
    refine ⟨(exists_isog' hex).choose_spec.1, ?_⟩
    have : ∀ d, d = addOrderOf P → IsIsogeny d P (exists_isog' hex).choose.2 := by
      rintro d rfl
      exact (exists_isog' hex).choose_spec.2
    exact this _ ho.symm

theorem someLib_exact (a : l.F) (h : (someLib l).order a = true) : RightOrder l a := by
  simpa [someLib] using h

/-! ### Accepted chains -/

theorem isog_right {lib : Lib l} (hlib : lib.OK) {a : l.F} (ha : RightOrder l a) {ℓ e : ℕ} (hd : Deg l ℓ e) {K : (W a).Point}
    (ho : addOrderOf K = ℓ ^ e) : RightOrder l (lib.isog a K).1 := by
  have hS := l.setting
  have hs := (rightOrder_iff l).1 ha
  obtain ⟨E', gF, gK, b, hC, kg⟩ := exists_fisog ha hd ho
  obtain ⟨g, ψ, η, hrep, hup, hker, hleast, hηB, hη, hηg, hj⟩ := common hlib hd ha ho (Or.inl rfl) kg
  have hs' := kg.super hS hs
  have hcan := canonical_of_least hs' hleast hj
  obtain ⟨_, hmod'⟩ := canonicalModelM_ok hS hs'
  exact (rightOrder_iff l).2 (hcan ▸ hs'.model hS.frob hS.two hmod' hS.neg)

/-- The library's isogeny on the points over the closure -/
theorem isog_hom {lib : Lib l} (hlib : lib.OK) {a : l.F} (ha : RightOrder l a) {ℓ e : ℕ} (hd : Deg l ℓ e) {K : (W a).Point}
    (ho : addOrderOf K = ℓ ^ e) : ∃ g ψ, Isog (ℓ ^ e) (l.φ a) (l.φ (lib.isog a K).1) g ψ ∧ DefOver l.φ (ℓ ^ e) g ∧
      ψ.ker = AddSubgroup.zmultiples (up K) ∧ ∀ R, up ((lib.isog a K).2 R) = ψ (up R) := by
  obtain ⟨hleast, hisog⟩ := hlib.isog a K ℓ e ha hd ho
  exact isog_of hisog (pow_pos hd.prime.pos _) ho ha.1 hleast.1

/-- A step that does not kill a given point of order `ℓ` -/
theorem exists_step {lib : Lib l} (hlib : lib.OK) {a : l.F} (ha : RightOrder l a) {ℓ e : ℕ} (hd : Deg l ℓ e) {T : (W a).Point}
    (hT : ℓ • T = 0) (h0 : T ≠ 0) : ∃ x K, lib.lift a x = some K ∧ addOrderOf K = ℓ ^ e ∧ (lib.isog a K).2 T ≠ 0 ∧
      ℓ • (lib.isog a K).2 T = 0 := by
  have hs := (rightOrder_iff l).1 ha
  have hexp : expo l.env ℓ = e := by rcases hd with ⟨rfl, rfl⟩ | ⟨rfl, rfl⟩ <;> rfl
  have he : expo l.env ℓ ≤ 9998 := by rw [hexp]; rcases hd with ⟨_, rfl⟩ | ⟨_, rfl⟩ <;> cases l <;> decide
  have hTr := rep_up (rep_xr T)
  have hT' : ℓ • up T = 0 := by rw [← up_nsmul, hT, up_zero]
  have hT0 : up T ≠ 0 := fun h => h0 (up_eq_zero.1 h)
  obtain ⟨x, P, hx, ho, hav⟩ := exists_packed l.setting l.three_ne hd.two_or he hs (avoid := some (xr T)) (bo := some ((xr T).map l.φ))
    (Or.inr ⟨_, _, rfl, rfl, PEq.refl _, up T, hTr, hT', hT0⟩)
  rw [hexp] at ho
  obtain ⟨K, hl, hK⟩ := lift_of hlib hd ha hx (by rw [← ho]; exact addOrderOf_nsmul_eq_zero P)
  have hoK : addOrderOf K = ℓ ^ e := by
    rw [← up_order, ← ho]
    rcases hK with h' | h' <;> rw [h']
    exact addOrderOf_neg P
  obtain ⟨g, ψ, _, _, hker, hup⟩ := isog_hom hlib ha hd hoK
  refine ⟨x, K, hl, hoK, fun h => ?_, up_inj ?_⟩
  · have h1 : up T ∈ ψ.ker := by rw [AddMonoidHom.mem_ker, ← hup, h, up_zero]
    rw [hker] at h1
    refine hav (xr T) rfl (up T) hTr hT' hT0 ?_
    rcases hK with h' | h'
    · rwa [h'] at h1
    · rwa [h', AddSubgroup.zmultiples_neg] at h1
  · rw [up_nsmul, hup, ← map_nsmul, hT', map_zero, up_zero]

theorem exists_loop {lib : Lib l} (hlib : lib.OK) {ℓ e : ℕ} (hd : Deg l ℓ e) : ∀ (n : ℕ) (a : l.F) (P Q : (W a).Point),
    RightOrder l a → ℓ • P = 0 → P ≠ 0 → ∃ xs b, xs.length = n ∧ RightOrder l b ∧ chainLoop lib ℓ (ℓ ^ e) xs a P Q = .ok b
  | 0, a, P, Q, ha, _, _ => ⟨[], a, rfl, ha, rfl⟩
  | n + 1, a, P, Q, ha, hP, h0 => by
    obtain ⟨x, K, hl, ho, hP0, hP'⟩ := exists_step hlib ha hd hP h0
    have ha' := isog_right hlib ha hd ho
    obtain ⟨xs, b, hn, hb, hloop⟩ := exists_loop hlib hd n _ _ ((lib.isog a K).2 Q) ha' hP' hP0
    refine ⟨x :: xs, b, by rw [List.length_cons, hn], hb, ?_⟩
    unfold chainLoop
    rw [hl]
    simp only
    rw [if_neg (by rw [order_test hd]; exact not_not.2 ho), curve_ok hlib ha']
    simp only [Res.bind]
    rw [if_neg (fun h => hP0 h.1), hloop]

/-- From every curve of the right order there are accepted chains of every length. -/
theorem exists_chain {lib : Lib l} (hlib : lib.OK) {a : l.F} (ha : RightOrder l a) {ℓ e : ℕ} (hd : Deg l ℓ e) (n : ℕ) :
    ∃ xs b, xs.length = n ∧ RightOrder l b ∧ unpackChain lib a xs ℓ (ℓ ^ e) = .ok b := by
  obtain ⟨h1, _, h3, _⟩ := hlib.basis a ℓ ha hd.two_or
  obtain ⟨xs, b, hn, hb, h⟩ := exists_loop hlib hd n a (lib.basis ℓ a).1 (lib.basis ℓ a).2 ha h1 h3
  refine ⟨xs, b, hn, hb, ?_⟩
  unfold unpackChain
  rw [curve_ok hlib ha]
  exact h

end Secuer.Sage
