import Verif.Sage.Verifier
import Verif.Protocol.Complete
import Verif.Props.HonestProps

/-!
# `unpack_chain` of the Sage verifier and `Unpack_Chain_A`, `Unpack_Chain_B` of the C verifier
-/

namespace Secuer.Sage

open Secuer.Protocol Secuer.Curve Secuer.Mont Secuer.Field Secuer.Text Secuer.Scalar Secuer.ChainProps Secuer.CurveProps

variable {l : Level}

/-! ### Points over `GF(p²)` and over the closure -/

theorem up_add {a : l.F} (P Q : (W a).Point) : up (P + Q) = up P + up Q := map_add (exists_pointMap l.φ a).choose P Q

theorem up_zero {a : l.F} : up (0 : (W a).Point) = 0 := map_zero (exists_pointMap l.φ a).choose

theorem up_nsmul {a : l.F} (n : ℕ) (P : (W a).Point) : up (n • P) = n • up P :=
  map_nsmul (exists_pointMap l.φ a).choose n P

theorem up_zsmul {a : l.F} (n : ℤ) (P : (W a).Point) : up (n • P) = n • up P :=
  map_zsmul (exists_pointMap l.φ a).choose n P

theorem up_inj {a : l.F} : Function.Injective (up : (W a).Point → _) := (exists_pointMap l.φ a).choose_spec.1

theorem up_eq_zero {a : l.F} {P : (W a).Point} : up P = 0 ↔ P = 0 := by
  rw [← up_zero, up_inj.eq_iff]

theorem up_some {a x y : l.F} (h : (W a).Nonsingular x y) : ∃ h', up (.some x y h : (W a).Point) = .some (l.φ x) (l.φ y) h' :=
  (exists_pointMap l.φ a).choose_spec.2 x y h

theorem up_order {a : l.F} (P : (W a).Point) : addOrderOf (up P) = addOrderOf P := by
  rw [addOrderOf_eq_addOrderOf_iff]
  intro n
  rw [← up_nsmul, up_eq_zero]

theorem rep_up {a : l.F} {q : Pt l.F} {P : (W a).Point} (h : Rep q P) : Rep (q.map l.φ) (up P) :=
  rep_pointMap (exists_pointMap l.φ a).choose_spec.2 h

/-- Points killed by `p + 1` come from below. -/
theorem exists_up {a : l.F} (ha : RightOrder l a) {P : (W (l.φ a)).Point} (h : (l.p + 1) • P = 0) :
    ∃ Q : (W a).Point, up Q = P := by
  have hs := (rightOrder_iff l).1 ha
  cases P with
  | zero => exact ⟨0, up_zero⟩
  | some x y hn =>
    obtain ⟨x', y', rfl, rfl⟩ := hs.rational l.setting.frob (hn := hn) h
    have hn' : (W a).Nonsingular x' y' := W_nonsingular l.two ha.1 (by
      have := (W_equation _ _ _).1 hn.1
      apply l.φ.injective
      simpa using this)
    obtain ⟨h', e⟩ := up_some hn'
    exact ⟨_, e⟩

/-- The degrees that occur -/
def Deg (l : Level) (ℓ e : ℕ) : Prop := (ℓ = 2 ∧ e = l.iso.e2) ∨ (ℓ = 3 ∧ e = l.iso.e3)

theorem Deg.two_or {ℓ e : ℕ} (h : Deg l ℓ e) : ℓ = 2 ∨ ℓ = 3 := by rcases h with ⟨h, _⟩ | ⟨h, _⟩ <;> simp [h]
theorem Deg.prime {ℓ e : ℕ} (h : Deg l ℓ e) : ℓ.Prime := prime_of h.two_or
theorem Deg.pos {ℓ e : ℕ} (h : Deg l ℓ e) : 0 < e := by
  rcases h with ⟨_, rfl⟩ | ⟨_, rfl⟩ <;> cases l <;> decide
theorem Deg.dvd {ℓ e : ℕ} (h : Deg l ℓ e) : ℓ ^ e ∣ l.p + 1 := by
  rw [l.p_succ]
  rcases h with ⟨rfl, rfl⟩ | ⟨rfl, rfl⟩
  · exact dvd_mul_right _ _
  · exact dvd_mul_left _ _
theorem Deg.dvd1 {ℓ e : ℕ} (h : Deg l ℓ e) : ℓ ∣ l.p + 1 := (dvd_pow_self ℓ h.pos.ne').trans h.dvd

theorem kill_of_dvd {G : Type} [AddCommGroup G] {P : G} {m n : ℕ} (h : m ∣ n) (hP : m • P = 0) : n • P = 0 := by
  obtain ⟨k, rfl⟩ := h
  rw [mul_comm, mul_nsmul', hP, nsmul_zero]

/-! ### The library -/

/-- The isogeny of the library, in the terms of `Isog`. -/
theorem isog_of {d : ℕ} {a a' : l.F} {P : (W a).Point} {f : (W a).Point → (W a').Point} (h : IsIsogeny d P f) (hd : 0 < d)
    (ho : addOrderOf P = d) (ha : a ^ 2 ≠ 4) (ha' : a' ^ 2 ≠ 4) :
    ∃ g ψ, Isog d (l.φ a) (l.φ a') g ψ ∧ DefOver l.φ d g ∧ ψ.ker = AddSubgroup.zmultiples (up P) ∧
      ∀ R, up (f R) = ψ (up R) := by
  obtain ⟨ψ, N, D, hs, hk, hN, hD, hx, hf⟩ := h
  have hdef : DefOver l.φ d (fun q => ⟨N.eval₂ l.φ ![q.X, q.Z], D.eval₂ l.φ ![q.X, q.Z]⟩) :=
    ⟨N, D, hN, hD, fun _ => rfl⟩
  refine ⟨_, ψ, ⟨sq_ne_four_map _ ha, sq_ne_four_map _ ha', hs, fun R r hr => isX_iff.1 (hx r R (isX_iff.2 hr)), hdef.toId, ?_, hd⟩,
    hdef, hk, hf⟩
  rw [hk, Nat.card_zmultiples, up_order, ho]

/-- Kernel points have their coordinates in `GF(p²)`. -/
theorem lift_of {lib : Lib l} (hlib : lib.OK) {ℓ e : ℕ} (hd : Deg l ℓ e) {a : l.F} (ha : RightOrder l a) {x : l.F}
    {P : (W (l.φ a)).Point} (hP : Rep ((unpackPoint x).map l.φ) P) (ho : ℓ ^ e • P = 0) :
    ∃ K, lib.lift a x = some K ∧ (up K = P ∨ up K = -P) := by
  obtain ⟨Q, rfl⟩ := exists_up ha (kill_of_dvd hd.dvd ho)
  cases hl : lib.lift a x with
  | some K =>
    refine ⟨K, rfl, ?_⟩
    obtain ⟨y, hn, rfl⟩ := hlib.lift_some a x K ha hl
    exact Rep.eq_or_neg (rep_up (q := unpackPoint x) ((rep_some_iff hn _).2 ⟨one_ne_zero, by simp [unpackPoint]⟩)) hP
  | none =>
    exfalso
    cases Q with
    | zero =>
      have e : up (.zero : (W a).Point) = 0 := up_zero
      rw [e, rep_zero_iff] at hP
      simp [Pt.map, unpackPoint] at hP
    | some x' y hn =>
      obtain ⟨h', e⟩ := up_some hn
      rw [e, rep_some_iff] at hP
      have hx : x = x' := by
        apply l.φ.injective
        simpa [Pt.map, unpackPoint] using hP.2
      subst hx
      exact hlib.lift_none a x ha hl y hn

theorem rep_lift {lib : Lib l} (hlib : lib.OK) {a : l.F} (ha : RightOrder l a) {x : l.F} {K : (W a).Point}
    (h : lib.lift a x = some K) : Rep ((unpackPoint x).map l.φ) (up K) := by
  obtain ⟨y, hn, rfl⟩ := hlib.lift_some a x K ha h
  exact rep_up (q := unpackPoint x) ((rep_some_iff hn _).2 ⟨one_ne_zero, by simp [unpackPoint]⟩)

theorem curve_ok {lib : Lib l} (hlib : lib.OK) {a : l.F} (ha : RightOrder l a) : curve lib a = .ok () := by
  unfold curve
  rw [if_neg ha.1, if_pos (hlib.order a ha)]

/-- The test of the order (`verify.sage:83`) -/
theorem order_test {ℓ e : ℕ} (hd : Deg l ℓ e) {G : Type} [AddCommGroup G] (K : G) :
    (ℓ ^ e • K ≠ 0 ∨ (ℓ ^ e / ℓ) • K = 0) ↔ addOrderOf K ≠ ℓ ^ e := by
  have h : ℓ ^ e / ℓ = ℓ ^ (e - 1) := by
    obtain ⟨m, rfl⟩ : ∃ m, e = m + 1 := ⟨e - 1, by have := hd.pos; omega⟩
    rw [pow_succ, Nat.mul_div_cancel _ hd.prime.pos, Nat.add_sub_cancel]
  have := addOrderOf_two_pow_iff (P := K) hd.pos hd.prime
  rw [h]
  tauto

/-- The least coefficient is the canonical one. -/
theorem canonical_of_least {E : Crv l.F} (hs : Super l.φ l.σ l.p (E.A / E.C)) {a : l.F} (ha : Least l a)
    (hj : SameJ (E.A / E.C) a) : (canonicalModel l.env E).B = a := by
  have hS := l.setting
  obtain ⟨_, hm⟩ := canonicalModelM_ok hS hs
  obtain ⟨i, hi, rfl⟩ := allModels_complete hS.sqrt hS.two hs.1 (hs.full4 hS.frob hS.two) hj
  have h1 := canonicalModel_le (env := l.env) E i hi
  have h2 := ha.2 _ hm.tgt ((jOf_eq_iff hS.two hm.tgt ha.1).2 (hm.sameJ.symm.trans hs.1 hj))
  rw [Prod.Lex.toLex_le_toLex] at h1
  simp only at h1
  change (canonicalModel l.env E).B.re.val < i.B.re.val ∨ (canonicalModel l.env E).B.re.val = i.B.re.val ∧
    (canonicalModel l.env E).B.im.val ≤ i.B.im.val at h1
  apply env_inj l
  · change (canonicalModel l.env E).B.re.val = i.B.re.val
    omega
  · change (canonicalModel l.env E).B.im.val = i.B.im.val
    omega

/-! ### The C loops -/

/-- The loop of `Unpack_Chain_A` or `Unpack_Chain_B` -/
def cloop (l : Level) (ℓ : ℕ) (xs : List l.F) (E : Crv l.F) (back : Pt l.F) : M l.F (Option (Crv l.F × Pt l.F)) :=
  if ℓ = 2 then unpackChainALoop l.env xs E back else unpackChainBLoop l.env xs E back

theorem rejA {E : Crv l.F} {a : l.F} (hE : On E a) (ha : Super l.φ l.σ l.p a) {k : Pt l.F}
    {P : (W (l.φ a)).Point} (hk : Rep (k.map l.φ) P) (ho : addOrderOf P ≠ 2 ^ l.iso.e2) (q : Option (Pt l.F)) :
    isogenyA l.env E k q = .ok none := by
  have hS := l.setting
  obtain ⟨hC, rfl⟩ := hE
  exact (isogenyA_ok l.φ hS.two hS.sqrt hS.good hC ha.1 (ha.full4 hS.frob hS.two) k q hk).1 ho

theorem rejB {E : Crv l.F} {a : l.F} (hE : On E a) (ha : Super l.φ l.σ l.p a) (wb : Bool) {k : Pt l.F}
    {P : (W (l.φ a)).Point} (hk : Rep (k.map l.φ) P) (ho : addOrderOf P ≠ 3 ^ l.iso.e3) (q : Option (Pt l.F)) :
    isogenyB l.env wb E k q = pure none := by
  have hS := l.setting
  obtain ⟨hC, rfl⟩ := hE
  exact (isogenyB_ok l.φ hS.two hS.good hC ha.1 wb k q hk).1 ho

theorem cloop_cons {ℓ e : ℕ} (hd : Deg l ℓ e) {E : Crv l.F} (hs : Super l.φ l.σ l.p (E.A / E.C)) (x : l.F) (xs : List l.F)
    (back : Pt l.F) {a : l.F} (ha : (canonicalModel l.env E).B = a) {P : (W (l.φ a)).Point}
    (hP : Rep ((unpackPoint x).map l.φ) P) :
    (addOrderOf P ≠ ℓ ^ e → cloop l ℓ (x :: xs) E back = pure none) ∧
    (addOrderOf P = ℓ ^ e → ∃ E' back' gF gK b, cloop l ℓ (x :: xs) E back = cloop l ℓ xs E' back' ∧ E'.C ≠ 0 ∧
      PEq (gF (evalIso (canonicalModel l.env E) back)) back' ∧ FIsog l.φ ℓ e a (E'.A / E'.C) gF gK P b) := by
  have hS := l.setting
  obtain ⟨hcm, hmod⟩ := canonicalModelM_ok hS hs
  have hsa : Super l.φ l.σ l.p a := ha ▸ hs.model hS.frob hS.two hmod hS.neg
  have hon : On (⟨(canonicalModel l.env E).B, 1⟩ : Crv l.F) a := ha ▸ on_one _
  rcases hd with ⟨rfl, rfl⟩ | ⟨rfl, rfl⟩
  · constructor
    · intro ho
      simp only [cloop, if_true]
      unfold unpackChainALoop
      rw [hcm, lift_ok_bind]
      simp only
      rw [rejA hon hsa hP ho, lift_ok_bind]
    · intro ho
      obtain ⟨E', q', gF, gK, hrun, hC, hq, kg⟩ := runA hS hon hsa hP ho (some (evalIso (canonicalModel l.env E) back))
      cases q' with
      | none => simp [OptPEq] at hq
      | some back' =>
        refine ⟨E', back', gF, gK, _, ?_, hC, hq, kg⟩
        simp only [cloop, if_true]
        conv_lhs => unfold unpackChainALoop
        rw [hcm, lift_ok_bind]
        simp only
        rw [hrun, lift_ok_bind]
  · have h32 : ¬ (3 : ℕ) = 2 := by norm_num
    constructor
    · intro ho
      simp only [cloop, h32, if_false]
      unfold unpackChainBLoop
      rw [hcm, lift_ok_bind]
      simp only
      rw [rejB hon hsa false hP ho]
      rfl
    · intro ho
      obtain ⟨E', q', gF, gK, b, hC, hq, kg, _, hrun, _⟩ := runB hS hon hsa false hP ho
        (some (evalIso (canonicalModel l.env E) back))
      cases q' with
      | none => simp [OptPEq] at hq
      | some back' =>
        refine ⟨E', back', gF, gK, _, ?_, hC, hq, kg⟩
        simp only [cloop, h32, if_false]
        conv_lhs => unfold unpackChainBLoop
        rw [hcm, lift_ok_bind]
        simp only
        rw [hrun rfl]
        rfl

theorem cloop_nil {ℓ : ℕ} (E : Crv l.F) (back : Pt l.F) : cloop l ℓ [] E back = pure (some (E, back)) := by
  unfold cloop
  split <;> rfl

/-- The image of `back` under the next step -/
theorem back_next {ℓ e : ℕ} {a : l.F} {E E' : Crv l.F} {back back' : Pt l.F}
    {gF : Pt l.F → Pt l.F} {gK : Pt l.K → Pt l.K} {P : (W (l.φ a)).Point} {b : Pt l.K}
    (hq : PEq (gF (evalIso (canonicalModel l.env E) back)) back') (kg : FIsog l.φ ℓ e a (E'.A / E'.C) gF gK P b) :
    PEq (gK (isoK l.φ (canonicalModel l.env E) (back.map l.φ))) (back'.map l.φ) := by
  have : gK (isoK l.φ (canonicalModel l.env E) (back.map l.φ)) = (gF (evalIso (canonicalModel l.env E) back)).map l.φ := by
    rw [← kg.lift, map_evalIso]; rfl
  rw [this]
  exact PEq.map l.φ hq

/-- Backtracking is never undone. -/
theorem cloop_stuck {ℓ e : ℕ} (hd : Deg l ℓ e) : ∀ (xs : List l.F) (E : Crv l.F) (back : Pt l.F),
    Super l.φ l.σ l.p (E.A / E.C) → Nz back → back.Z = 0 →
    cloop l ℓ xs E back = pure none ∨ ∃ E' back', cloop l ℓ xs E back = pure (some (E', back')) ∧ back'.Z = 0
  | [], E, back, _, _, hz => Or.inr ⟨E, back, cloop_nil E back, hz⟩
  | x :: xs, E, back, hs, hnz, hz => by
    have hS := l.setting
    obtain ⟨_, hmod⟩ := canonicalModelM_ok hS hs
    have hsB := hs.model hS.frob hS.two hmod hS.neg
    obtain ⟨P, hP⟩ := exists_rep_unpack hS hsB.1 x
    obtain ⟨hrej, hacc⟩ := cloop_cons hd hs x xs back rfl hP
    by_cases ho : addOrderOf P = ℓ ^ e
    · obtain ⟨E', back', gF, gK, b, hc, hC, hq, kg⟩ := hacc ho
      rw [hc]
      have hix := hmod.isoX l.φ hs.1
      have hbn := back_next hq kg
      have hnz1 : Nz (isoK l.φ (canonicalModel l.env E) (back.map l.φ)) := hix.hom.nz _ ((nz_map l.φ).2 hnz)
      have hz1 : (isoK l.φ (canonicalModel l.env E) (back.map l.φ)).Z = 0 := by
        rw [hix.inj]; simp [Pt.map, hz]
      have hz2 := XHom.inf (two_map l.φ l.two) kg.cyc.hom hnz1 hz1
      refine cloop_stuck hd xs E' back' (kg.super hS hsB) ((nz_map l.φ).1 (hbn.nz (kg.cyc.hom.nz _ hnz1))) ?_
      rw [← hbn.Z_iff] at hz2
      simpa [Pt.map] using hz2
    · exact Or.inl (hrej ho)

/-! ### The two loops side by side -/

/-- The C loop is at `E` with direction back `back`, the Sage loop at `a` with the images `P`, `Q` of the basis. -/
structure Inv (E : Crv l.F) (back : Pt l.F) (a : l.F) (P Q : (W a).Point) : Prop where
  C : E.C ≠ 0
  sup : Super l.φ l.σ l.p (E.A / E.C)
  can : (canonicalModel l.env E).B = a
  sync : ∃ η : Iso l.K, η.B = l.φ a ∧ ModelOK (l.φ (E.A / E.C)) η ∧ ∃ T : (W (l.φ a)).Point,
    Rep (evalIso η (back.map l.φ)) T ∧ T ≠ 0 ∧ AddSubgroup.closure {up P, up Q} = AddSubgroup.zmultiples T

theorem Inv.supa {E : Crv l.F} {back : Pt l.F} {a : l.F} {P Q : (W a).Point} (h : Inv E back a P Q) : Super l.φ l.σ l.p a := by
  have hS := l.setting
  obtain ⟨_, hmod⟩ := canonicalModelM_ok hS h.sup
  exact h.can ▸ h.sup.model hS.frob hS.two hmod hS.neg

theorem Inv.sameJ {E : Crv l.F} {back : Pt l.F} {a : l.F} {P Q : (W a).Point} (h : Inv E back a P Q) : SameJ (E.A / E.C) a := by
  obtain ⟨_, hmod⟩ := canonicalModelM_ok l.setting h.sup
  exact h.can ▸ hmod.sameJ

theorem Inv.back_ne {E : Crv l.F} {back : Pt l.F} {a : l.F} {P Q : (W a).Point} (h : Inv E back a P Q) : back.Z ≠ 0 := by
  obtain ⟨η, h1, h2, T, hT, h0, _⟩ := h.sync
  intro hz
  have hx := h2.isoX' (sq_ne_four_map l.φ h.sup.1)
  apply h0
  rw [← hT.Z_iff, hx.inj]
  simp [Pt.map, hz]

theorem generic_map {a : l.F} (h : Generic a) : (l.φ a) ^ 2 ≠ 3 ∧ (l.φ a) * (2 * (l.φ a) ^ 2 - 9) ≠ 0 := by
  constructor
  · intro e; apply h.1; apply l.φ.injective; simpa [map_ofNat] using e
  · intro e; apply h.2; apply l.φ.injective; simpa [map_ofNat] using e

/-- The codomain of the library's isogeny and the curve that the C code computes -/
theorem common {lib : Lib l} (hlib : lib.OK) {ℓ e : ℕ} (hd : Deg l ℓ e) {a : l.F} (ha : RightOrder l a) {K : (W a).Point}
    (ho : addOrderOf K = ℓ ^ e) {P : (W (l.φ a)).Point} (hP : up K = P ∨ up K = -P) {a₂ : l.F}
    {gF : Pt l.F → Pt l.F} {gK : Pt l.K → Pt l.K} {b : Pt l.K} (kg : FIsog l.φ ℓ e a a₂ gF gK P b) :
    ∃ (g : Pt l.K → Pt l.K) (ψ : (W (l.φ a)).Point →+ (W (l.φ (lib.isog a K).1)).Point) (η : Iso l.K),
      (∀ R r, Rep r R → Rep (g r) (ψ R)) ∧ (∀ R, up ((lib.isog a K).2 R) = ψ (up R)) ∧
      ψ.ker = AddSubgroup.zmultiples P ∧ Least l (lib.isog a K).1 ∧
      η.B = l.φ (lib.isog a K).1 ∧ ModelOK (l.φ a₂) η ∧ (∀ p, Nz p → PEq (evalIso η (gK p)) (g p)) ∧
      SameJ a₂ (lib.isog a K).1 := by
  have h2 := two_map l.φ l.two
  obtain ⟨hleast, hisog⟩ := hlib.isog a K ℓ e ha hd ho
  obtain ⟨g, ψ, i1, _, i3, i4⟩ := isog_of hisog (pow_pos hd.prime.pos _) ho ha.1 hleast.1
  obtain ⟨ψ', j1, j2⟩ := kg.isog h2 hd.prime
  have hk : ψ.ker = AddSubgroup.zmultiples P := by
    rw [i3]
    rcases hP with h | h
    · rw [h]
    · rw [h, AddSubgroup.zmultiples_neg]
  obtain ⟨η, k1, k2, k3⟩ := j1.unique h2 i1 (by rw [j2, hk])
  exact ⟨g, ψ, η, i1.rep, i4, hk, hleast, k1, k2, k3, sameJ_of_map (φ := l.φ) (k1 ▸ k2.sameJ)⟩

theorem closure_pair_bot {G : Type} [AddCommGroup G] {x y T : G} (h : AddSubgroup.closure {x, y} = AddSubgroup.zmultiples T) :
    (x = 0 ∧ y = 0) ↔ T = 0 := by
  constructor
  · rintro ⟨rfl, rfl⟩
    have : T ∈ AddSubgroup.closure ({0, 0} : Set G) := by rw [h]; exact AddSubgroup.mem_zmultiples T
    simpa [← AddSubgroup.zmultiples_eq_closure] using this
  · rintro rfl
    rw [AddSubgroup.zmultiples_zero_eq_bot, AddSubgroup.closure_eq_bot_iff] at h
    exact ⟨h (by simp), h (by simp)⟩

/-- One more step from a curve that is not exceptional -/
theorem Inv.step {lib : Lib l} (hlib : lib.OK) {ℓ e : ℕ} (hd : Deg l ℓ e) {E E' : Crv l.F} {back back' : Pt l.F} {a : l.F}
    {P Q : (W a).Point} (h : Inv E back a P Q) (hgen : Generic (E.A / E.C)) {K : (W a).Point} (ho : addOrderOf K = ℓ ^ e)
    {R : (W (l.φ a)).Point} (hR : up K = R ∨ up K = -R) (hC : E'.C ≠ 0)
    {gF : Pt l.F → Pt l.F} {gK : Pt l.K → Pt l.K} {b : Pt l.K}
    (hq : PEq (gF (evalIso (canonicalModel l.env E) back)) back') (kg : FIsog l.φ ℓ e a (E'.A / E'.C) gF gK R b) :
    RightOrder l (lib.isog a K).1 ∧
    (((lib.isog a K).2 P = 0 ∧ (lib.isog a K).2 Q = 0) ∧ Super l.φ l.σ l.p (E'.A / E'.C) ∧ Nz back' ∧ back'.Z = 0 ∨
     ¬((lib.isog a K).2 P = 0 ∧ (lib.isog a K).2 Q = 0) ∧
      Inv E' back' (lib.isog a K).1 ((lib.isog a K).2 P) ((lib.isog a K).2 Q)) := by
  have hS := l.setting
  have hsa := h.supa
  have hra := (rightOrder_iff l).2 hsa
  obtain ⟨g, ψ, η, hrep, hup, hker, hleast, hηB, hη, hηg, hj⟩ := common hlib hd hra ho hR kg
  have hs' := kg.super hS hsa
  have hcan := canonical_of_least hs' hleast hj
  obtain ⟨_, hmod'⟩ := canonicalModelM_ok hS hs'
  have hsa' : Super l.φ l.σ l.p (lib.isog a K).1 := hcan ▸ hs'.model hS.frob hS.two hmod' hS.neg
  refine ⟨(rightOrder_iff l).2 hsa', ?_⟩
  obtain ⟨η₀, e1, e2, T, hT, hT0, hcl⟩ := h.sync
  obtain ⟨_, hmod⟩ := canonicalModelM_ok hS h.sup
  have hgm := generic_map hgen
  have heq : (canonicalModel l.env E).mapK l.φ = η₀ := ModelOK.rigid (three_K l) hgm.1 hgm.2 hmod.mapK e2 (by
    rw [e1]; change l.φ (canonicalModel l.env E).B = _; rw [h.can])
  have hq0 : Rep (isoK l.φ (canonicalModel l.env E) (back.map l.φ)) T := by rw [isoK_eq, heq]; exact hT
  have hbn := back_next hq kg
  have hη' := hη.isoX' kg.cyc.tgt
  have hT' : Rep (evalIso η (back'.map l.φ)) (ψ T) :=
    ((hrep _ _ hq0).peq (hηg _ hq0.nz).symm).peq (hη'.hom.congr _ _ hbn)
  have hcl' : AddSubgroup.closure {up ((lib.isog a K).2 P), up ((lib.isog a K).2 Q)} = AddSubgroup.zmultiples (ψ T) := by
    rw [hup, hup, ← AddMonoidHom.map_zmultiples, ← hcl, AddMonoidHom.map_closure, Set.image_pair]
  have hzero := closure_pair_bot hcl'
  rw [up_eq_zero, up_eq_zero] at hzero
  by_cases h0 : (lib.isog a K).2 P = 0 ∧ (lib.isog a K).2 Q = 0
  · refine Or.inl ⟨h0, hs', (nz_map l.φ).1 (hbn.nz (kg.cyc.hom.nz _ hq0.nz)), ?_⟩
    have hz := hT'.Z_iff.2 (hzero.1 h0)
    rw [hη'.inj] at hz
    simpa [Pt.map] using hz
  · exact Or.inr ⟨h0, hC, hs', hcan, η, hηB, hη, ψ T, hT', fun e => h0 (hzero.2 e), hcl'⟩

/-- After the first step -/
theorem Inv.first {lib : Lib l} (hlib : lib.OK) {ℓ e : ℕ} (hd : Deg l ℓ e) {E' : Crv l.F} {back : Pt l.F} {a : l.F}
    (ha : RightOrder l a) {K : (W a).Point} (ho : addOrderOf K = ℓ ^ e)
    {R : (W (l.φ a)).Point} (hR : up K = R ∨ up K = -R) (hC : E'.C ≠ 0)
    {gF : Pt l.F → Pt l.F} {gK : Pt l.K → Pt l.K} {b : Pt l.K} (hb : PEq b (back.map l.φ))
    (kg : FIsog l.φ ℓ e a (E'.A / E'.C) gF gK R b) :
    RightOrder l (lib.isog a K).1 ∧ ¬((lib.isog a K).2 (lib.basis ℓ a).1 = 0 ∧ (lib.isog a K).2 (lib.basis ℓ a).2 = 0) ∧
    Inv E' back (lib.isog a K).1 ((lib.isog a K).2 (lib.basis ℓ a).1) ((lib.isog a K).2 (lib.basis ℓ a).2) := by
  have hS := l.setting
  have hsa := (rightOrder_iff l).1 ha
  obtain ⟨g, ψ, η, hrep, hup, hker, hleast, hηB, hη, hηg, hj⟩ := common hlib hd ha ho hR kg
  have hs' := kg.super hS hsa
  have hcan := canonical_of_least hs' hleast hj
  obtain ⟨_, hmod'⟩ := canonicalModelM_ok hS hs'
  have hsa' : Super l.φ l.σ l.p (lib.isog a K).1 := hcan ▸ hs'.model hS.frob hS.two hmod' hS.neg
  refine ⟨(rightOrder_iff l).2 hsa', ?_⟩
  obtain ⟨b1, b2, b3, b4⟩ := hlib.basis a ℓ ha hd.two_or
  set P := (lib.basis ℓ a).1
  set Q := (lib.basis ℓ a).2
  have hη' := hη.isoX' kg.cyc.tgt
  have ho' : addOrderOf R = ℓ ^ e := kg.order hd.prime
  -- an image outside the kernel
  have key : ∀ T : (W a).Point, ℓ • T = 0 → up T ∉ AddSubgroup.zmultiples R →
      Rep (evalIso η (back.map l.φ)) (ψ (up T)) ∧ ψ (up T) ≠ 0 := by
    intro T hT hn
    have h1 := kg.cyc.back (up T) (by rw [← up_nsmul, hT, up_zero]) hn
    refine ⟨((hrep _ _ (rep_xr (up T))).peq (hηg _ (xr_nz _)).symm).peq (hη'.hom.congr _ _ (h1.trans hb)), fun h0 => hn ?_⟩
    rw [← hker]; exact h0
  have out : up P ∉ AddSubgroup.zmultiples R ∨ up Q ∉ AddSubgroup.zmultiples R := by
    by_contra hcon
    push Not at hcon
    obtain ⟨m, hm⟩ : ∃ m, e = m + 1 := ⟨e - 1, by have := hd.pos; omega⟩
    rw [hm] at ho'
    have hP := mem_zmultiples_torsion hd.prime.pos ho' (by rw [← up_nsmul, b1, up_zero]) hcon.1
    have hQ := mem_zmultiples_torsion hd.prime.pos ho' (by rw [← up_nsmul, b2, up_zero]) hcon.2
    have hS0 : ℓ • (ℓ ^ m • R) = 0 := by
      rw [← mul_nsmul, ← pow_succ, ← ho']; exact addOrderOf_nsmul_eq_zero R
    have hP' := mem_zmultiples_small hd.two_or hS0 hP
    have hQ' := mem_zmultiples_small hd.two_or hS0 hQ
    rcases hP' with h | h
    · exact b3 (up_eq_zero.1 h)
    · apply b4
      have : up Q = 0 ∨ up Q = up P ∨ up Q = -up P := by
        rcases hQ' with h' | h' | h' <;> rcases h with h | h <;> simp [h, h']
      have hneg : -up P = up (-P) := by
        have := up_zsmul (-1) P
        simpa using this.symm
      rcases this with h' | h' | h'
      · rw [up_eq_zero.1 h']; exact AddSubgroup.zero_mem _
      · rw [up_inj h']; exact AddSubgroup.mem_zmultiples P
      · rw [hneg] at h'
        rw [up_inj h']; exact AddSubgroup.neg_mem _ (AddSubgroup.mem_zmultiples P)
  -- all images are multiples of one of them
  have mem : ∀ T S : (W a).Point, ℓ • T = 0 → ℓ • S = 0 → up T ∉ AddSubgroup.zmultiples R →
      ψ (up S) ∈ AddSubgroup.zmultiples (ψ (up T)) := by
    intro T S hT hS' hn
    by_cases hm : up S ∈ AddSubgroup.zmultiples R
    · have : ψ (up S) = 0 := by rw [← hker] at hm; exact hm
      rw [this]; exact AddSubgroup.zero_mem _
    · rcases (key S hS' hm).1.eq_or_neg (key T hT hn).1 with h | h
      · rw [h]; exact AddSubgroup.mem_zmultiples _
      · rw [h]; exact AddSubgroup.neg_mem _ (AddSubgroup.mem_zmultiples _)
  have fin : ∃ T : (W (l.φ (lib.isog a K).1)).Point, Rep (evalIso η (back.map l.φ)) T ∧ T ≠ 0 ∧
      AddSubgroup.closure {ψ (up P), ψ (up Q)} = AddSubgroup.zmultiples T := by
    rcases out with hn | hn
    · refine ⟨_, (key P b1 hn).1, (key P b1 hn).2, le_antisymm ?_ ?_⟩
      · rw [AddSubgroup.closure_le]
        rintro z (rfl | rfl)
        · exact AddSubgroup.mem_zmultiples _
        · exact mem P Q b1 b2 hn
      · rw [AddSubgroup.zmultiples_le]; exact AddSubgroup.subset_closure (by simp)
    · refine ⟨_, (key Q b2 hn).1, (key Q b2 hn).2, le_antisymm ?_ ?_⟩
      · rw [AddSubgroup.closure_le]
        rintro z (rfl | rfl)
        · exact mem Q P b2 b1 hn
        · exact AddSubgroup.mem_zmultiples _
      · rw [AddSubgroup.zmultiples_le]; exact AddSubgroup.subset_closure (by simp)
  obtain ⟨T, hT, hT0, hcl⟩ := fin
  rw [← hup, ← hup] at hcl
  have hzero := closure_pair_bot hcl
  rw [up_eq_zero, up_eq_zero] at hzero
  exact ⟨fun h => hT0 (hzero.1 h), hC, hs', hcan, η, hηB, hη, T, hT, hT0, hcl⟩

open Classical in
/-- The curves from which the steps of a chain start, as far as it can be followed; `d` is the degree of the steps. -/
noncomputable def stops (lib : Lib l) (d : ℕ) : List l.F → l.F → List l.F
  | [], _ => []
  | x :: xs, a => a :: match lib.lift a x with
    | none => []
    | some K => if addOrderOf K = d then stops lib d xs (lib.isog a K).1 else []

/-- Without automorphisms other than the sign -/
def Ordinary (c : l.F) : Prop := jOf c ≠ 0 ∧ jOf c ≠ 1728

theorem generic_of_sameJ {a b : l.F} (ha : a ^ 2 ≠ 4) (hb : b ^ 2 ≠ 4) (h : SameJ a b) (hb' : Ordinary b) : Generic a := by
  have e := (jOf_eq_iff l.two ha hb).2 h
  exact Secuer.ProtocolProps.generic_of (l := l) (e ▸ hb'.1) (e ▸ hb'.2)

/-- What the C loop comes to when the Sage loop comes to `r`. -/
def LoopMatch (m : M l.F (Option (Crv l.F × Pt l.F))) : Res l.F → Prop
  | .ok b => ∃ E' back', m = pure (some (E', back')) ∧ back'.Z ≠ 0 ∧ E'.C ≠ 0 ∧ Super l.φ l.σ l.p (E'.A / E'.C) ∧
      (canonicalModel l.env E').B = b
  | .running => False
  | _ => m = pure none ∨ ∃ E' back', m = pure (some (E', back')) ∧ back'.Z = 0

theorem loop_agree {lib : Lib l} (hlib : lib.OK) {ℓ e : ℕ} (hd : Deg l ℓ e) : ∀ (xs : List l.F) (E : Crv l.F) (back : Pt l.F)
    (a : l.F) (P Q : (W a).Point), Inv E back a P Q → (∀ c ∈ stops lib (ℓ ^ e) xs a, Ordinary c) →
    LoopMatch (cloop l ℓ xs E back) (chainLoop lib ℓ (ℓ ^ e) xs a P Q)
  | [], E, back, a, P, Q, h, _ => ⟨E, back, cloop_nil E back, h.back_ne, h.C, h.sup, h.can⟩
  | x :: xs, E, back, a, P, Q, h, hg => by
    have hS := l.setting
    have hsa := h.supa
    have hra := (rightOrder_iff l).2 hsa
    obtain ⟨R, hR⟩ := exists_rep_unpack hS hsa.1 x
    obtain ⟨hrej, hacc⟩ := cloop_cons hd h.sup x xs back h.can hR
    have hgen : Generic (E.A / E.C) := generic_of_sameJ h.sup.1 hsa.1 h.sameJ (hg a (by simp [stops]))
    unfold chainLoop
    cases hl : lib.lift a x with
    | none =>
      refine Or.inl (hrej fun ho => ?_)
      obtain ⟨K, hK, _⟩ := lift_of hlib hd hra hR (by rw [← ho]; exact addOrderOf_nsmul_eq_zero R)
      rw [hl] at hK
      cases hK
    | some K =>
      have hKR := Rep.eq_or_neg (rep_lift hlib hra hl) hR
      have hoK : addOrderOf K = addOrderOf R := by
        rw [← up_order]
        rcases hKR with h' | h' <;> rw [h']
        exact addOrderOf_neg R
      simp only
      by_cases ho : addOrderOf K = ℓ ^ e
      · rw [if_neg (by rw [order_test hd]; exact not_not.2 ho)]
        obtain ⟨E', back', gF, gK, b, hcl, hC, hq, kg⟩ := hacc (hoK ▸ ho)
        obtain ⟨hra', hcase⟩ := h.step hlib hd hgen ho hKR hC hq kg
        rw [curve_ok hlib hra', hcl]
        simp only [Res.bind]
        rcases hcase with ⟨h0, hs', hnz, hz⟩ | ⟨h0, hinv⟩
        · rw [if_pos h0]
          exact cloop_stuck hd xs E' back' hs' hnz hz
        · rw [if_neg h0]
          refine loop_agree hlib hd xs E' back' _ _ _ hinv fun c hc => hg c ?_
          simp only [stops, hl, List.mem_cons, if_pos ho]
          exact Or.inr hc
      · rw [if_pos ((order_test hd K).2 ho)]
        exact Or.inl (hrej (hoK ▸ ho))

/-- What unpacking a chain comes to when the Sage code comes to `r`. -/
def ChainMatch (m : Option (Crv l.F)) : Res l.F → Prop
  | .ok b => RightOrder l b ∧ Reaches l.φ l.σ l.p b m
  | .running => False
  | _ => m = none

theorem end_ret {F : Type} [Field F] [DecidableEq F] {m : M F (Option (Crv F × Pt F))} {Q : Option (Crv F) → Prop}
    (h : (m = pure none ∧ Q none) ∨ ∃ E back, m = pure (some (E, back)) ∧ (back.Z = 0 → Q none) ∧ (back.Z ≠ 0 → Q (some E))) :
    Ret (do
      match ← m with
      | none => pure none
      | some (E, back) => if back.Z = 0 then pure none else pure (some E) : M F (Option (Crv F))) Q := by
  rcases h with ⟨rfl, h⟩ | ⟨E, back, rfl, h0, h1⟩
  · exact Ret.pure (a := (none : Option (Crv F))) h
  · change Ret (if back.Z = 0 then pure none else pure (some E) : M F (Option (Crv F))) _
    by_cases hz : back.Z = 0
    · rw [if_pos hz]; exact Ret.pure (h0 hz)
    · rw [if_neg hz]; exact Ret.pure (h1 hz)

theorem end_agree {m : M l.F (Option (Crv l.F × Pt l.F))} {r : Res l.F} (h : LoopMatch m r) :
    (m = pure none ∧ ChainMatch none r) ∨ ∃ E back, m = pure (some (E, back)) ∧ (back.Z = 0 → ChainMatch none r) ∧
      (back.Z ≠ 0 → ChainMatch (some E) r) := by
  have bad : (m = pure none ∨ ∃ E' back', m = pure (some (E', back')) ∧ back'.Z = 0) → ChainMatch none r →
      (m = pure none ∧ ChainMatch none r) ∨ ∃ E back, m = pure (some (E, back)) ∧ (back.Z = 0 → ChainMatch none r) ∧
      (back.Z ≠ 0 → ChainMatch (some E) r) := by
    rintro (h | ⟨E', back', h, hz⟩) hr
    · exact Or.inl ⟨h, hr⟩
    · exact Or.inr ⟨E', back', h, fun _ => hr, fun h => absurd hz h⟩
  cases r with
  | ok b =>
    obtain ⟨E', back', hm, hz, hC, hs, hb⟩ := h
    obtain ⟨_, hmod⟩ := canonicalModelM_ok l.setting hs
    refine Or.inr ⟨E', back', hm, fun h => absurd h hz, fun _ =>
      ⟨(rightOrder_iff l).2 (hb ▸ hs.model l.setting.frob l.two hmod l.setting.neg), E', rfl, hC, hs, ?_⟩⟩
    exact (hb ▸ hmod.sameJ).symm
  | invalid => exact bad h rfl
  | crash => exact bad h rfl
  | running => exact h.elim

/-- The first step of `unpack_chain` -/
theorem first_agree {lib : Lib l} (hlib : lib.OK) {ℓ e : ℕ} (hd : Deg l ℓ e) {a : l.F} (ha : RightOrder l a) {x : l.F}
    (xs : List l.F) (hg : ∀ c ∈ (stops lib (ℓ ^ e) (x :: xs) a).tail, Ordinary c) {R : (W (l.φ a)).Point}
    (hR : Rep ((unpackPoint x).map l.φ) R) :
    (addOrderOf R ≠ ℓ ^ e → unpackChain lib a (x :: xs) ℓ (ℓ ^ e) = .invalid ∨ unpackChain lib a (x :: xs) ℓ (ℓ ^ e) = .crash) ∧
    (addOrderOf R = ℓ ^ e → ∀ (E' : Crv l.F) (back : Pt l.F) gF gK b, E'.C ≠ 0 → PEq b (back.map l.φ) →
      FIsog l.φ ℓ e a (E'.A / E'.C) gF gK R b →
      LoopMatch (cloop l ℓ xs E' back) (unpackChain lib a (x :: xs) ℓ (ℓ ^ e))) := by
  unfold unpackChain
  rw [curve_ok hlib ha]
  simp only [Res.bind]
  unfold chainLoop
  cases hl : lib.lift a x with
  | none =>
    refine ⟨fun _ => Or.inr rfl, fun ho => ?_⟩
    obtain ⟨K, hK, _⟩ := lift_of hlib hd ha hR (by rw [← ho]; exact addOrderOf_nsmul_eq_zero R)
    rw [hl] at hK
    cases hK
  | some K =>
    have hKR := Rep.eq_or_neg (rep_lift hlib ha hl) hR
    have hoK : addOrderOf K = addOrderOf R := by
      rw [← up_order]
      rcases hKR with h' | h' <;> rw [h']
      exact addOrderOf_neg R
    simp only
    constructor
    · intro ho
      rw [if_pos ((order_test hd K).2 (hoK ▸ ho))]
      exact Or.inl rfl
    · intro ho E' back gF gK b hC hb kg
      rw [if_neg (by rw [order_test hd]; exact not_not.2 (hoK ▸ ho))]
      obtain ⟨hra', h0, hinv⟩ := Inv.first hlib hd ha (hoK ▸ ho) hKR hC hb kg
      rw [curve_ok hlib hra']
      simp only [Res.bind]
      rw [if_neg h0]
      refine loop_agree hlib hd xs E' back _ _ _ hinv fun c hc => hg c ?_
      simp only [stops, hl, List.tail_cons, if_pos (hoK.trans ho)]
      exact hc

theorem match_bad {r : Res l.F} (h : r = .invalid ∨ r = .crash) : ChainMatch none r := by
  rcases h with rfl | rfl <;> rfl

/-- `unpack_chain` and `Unpack_Chain_A` -/
theorem chainA_agree {lib : Lib l} (hlib : lib.OK) (po : ProvesOrder) (junk : ℕ → Pt l.F × Pt l.F) {a : l.F} (ha : RightOrder l a)
    {xs : List l.F} (hne : xs ≠ []) (hg : ∀ c ∈ (stops lib (2 ^ l.iso.e2) xs a).tail, Ordinary c) :
    Ret (unpackChainA l.env po junk a xs) (ChainMatch · (unpackChain lib a xs 2 (2 ^ l.iso.e2))) := by
  have hS := l.setting
  have hs := (rightOrder_iff l).1 ha
  have hd : Deg l 2 l.iso.e2 := Or.inl ⟨rfl, rfl⟩
  cases xs with
  | nil => exact absurd rfl hne
  | cons x xs =>
  obtain ⟨P, hP⟩ := exists_rep_unpack hS hs.1 x
  obtain ⟨hrej, hacc⟩ := first_agree hlib hd ha xs hg hP
  unfold unpackChainA
  simp only
  refine Ret.bind (Q := fun _ => True) (fun _ _ _ _ => trivial) fun _ _ => ?_
  by_cases ho : addOrderOf P = 2 ^ l.iso.e2
  · obtain ⟨E', q', gF, gK, hrun, hC, _, kg⟩ := runA hS (on_one a) hs hP ho none
    rw [hrun]
    simp only [lift_ok_bind]
    have h := hacc ho E' ⟨0, 1⟩ gF gK _ hC (by rw [map_zero_one]; exact PEq.refl _) kg
    simp only [cloop, if_true] at h
    exact end_ret (end_agree h)
  · rw [rejA (on_one a) hs hP ho]
    exact Ret.pure (match_bad (hrej ho))

/-- `unpack_chain` and `Unpack_Chain_B` -/
theorem chainB_agree {lib : Lib l} (hlib : lib.OK) (po : ProvesOrder) (junk : ℕ → Pt l.F × Pt l.F) {a : l.F} (ha : RightOrder l a)
    {xs : List l.F} (hne : xs ≠ []) (hg : ∀ c ∈ (stops lib (3 ^ l.iso.e3) xs a).tail, Ordinary c) :
    Ret (unpackChainB l.env po junk a xs) (ChainMatch · (unpackChain lib a xs 3 (3 ^ l.iso.e3))) := by
  have hS := l.setting
  have hs := (rightOrder_iff l).1 ha
  have hd : Deg l 3 l.iso.e3 := Or.inr ⟨rfl, rfl⟩
  cases xs with
  | nil => exact absurd rfl hne
  | cons x xs =>
  obtain ⟨P, hP⟩ := exists_rep_unpack hS hs.1 x
  obtain ⟨hrej, hacc⟩ := first_agree hlib hd ha xs hg hP
  unfold unpackChainB
  simp only
  refine Ret.bind (Q := fun _ => True) (fun _ _ _ _ => trivial) fun _ _ => ?_
  by_cases ho : addOrderOf P = 3 ^ l.iso.e3
  · obtain ⟨E', q', gF, gK, b, hC, _, kg, _, _, hrun⟩ := runB hS (on_one a) hs true hP ho none
    refine Ret.bind (hrun rfl) ?_
    rintro _ ⟨b', rfl, hb, _⟩
    have h := hacc ho E' b' gF gK _ hC (PEq.map l.φ hb) kg
    simp only [cloop, show ¬ (3 : ℕ) = 2 by norm_num, if_false] at h
    exact end_ret (end_agree h)
  · rw [rejB (on_one a) hs true hP ho]
    exact Ret.pure (match_bad (hrej ho))

end Secuer.Sage
