import Verif.Curve.Walk
import Verif.Curve.Can
import Verif.Curve.RandSpec
import Verif.Util.Scalar

/-!
# Random chains and packed chains are walks
-/

namespace Secuer.Curve

open Secuer.Mont

variable {F K : Type} [Field F] [DecidableEq F] [Field K] [DecidableEq K] [IsAlgClosed K]
variable {φ : F →+* K} {σ : K →+* K} {p : ℕ} {env : Env F}

/-! ### Other generators of the kernels -/

theorem addOrderOf_zmultiples {G : Type} [AddCommGroup G] {P Q : G}
    (h : AddSubgroup.zmultiples P = AddSubgroup.zmultiples Q) : addOrderOf P = addOrderOf Q := by
  rw [← Nat.card_zmultiples, ← Nat.card_zmultiples, h]

theorem FIsog.regen {ℓ n : ℕ} (hℓ : ℓ.Prime) {a a' : F} {gF : Pt F → Pt F} {gK : Pt K → Pt K}
    {P P' : (W (φ a)).Point} {b : Pt K} (h : FIsog φ ℓ n a a' gF gK P b)
    (hP : AddSubgroup.zmultiples P = AddSubgroup.zmultiples P') : FIsog φ ℓ n a a' gF gK P' b := by
  have ho : addOrderOf P' = ℓ ^ n := by rw [← addOrderOf_zmultiples hP]; exact h.order hℓ
  refine ⟨⟨h.cyc.hom, h.cyc.src, h.cyc.tgt, ?_, h.cyc.pos, ?_, ?_, h.cyc.surj, ?_⟩, h.lift, h.defd, h.congr, h.sq, ?_⟩
  · rw [← hP]; exact h.cyc.ker
  · rw [← ho]; exact addOrderOf_nsmul_eq_zero _
  · intro h0
    have := addOrderOf_dvd_of_nsmul_eq_zero h0
    rw [ho] at this
    have := Nat.pow_dvd_pow_iff_le_right hℓ.one_lt |>.1 this
    have := h.cyc.pos
    omega
  · rw [← hP]; exact h.cyc.back
  · refine ⟨fun h2 => ⟨(h.norm.1 h2).1, ?_⟩, h.norm.2⟩
    have := (h.norm.1 h2).2
    unfold Norm2 at *
    rwa [← hP]

theorem zmultiples_nsmul_coprime {G : Type} [AddCommGroup G] {P : G} {m : ℕ} (h : m.Coprime (addOrderOf P)) :
    AddSubgroup.zmultiples (m • P) = AddSubgroup.zmultiples P := by
  apply le_antisymm
  · rw [AddSubgroup.zmultiples_le]
    exact AddSubgroup.nsmul_mem _ (AddSubgroup.mem_zmultiples P) m
  · rw [AddSubgroup.zmultiples_le]
    obtain ⟨u, hu⟩ := exists_nsmul_eq_self_of_coprime h
    exact ⟨(u : ℤ), by simpa using hu⟩

/-! ### The ladder over the closure -/

theorem map_ladderLoop (PX PZ A24 : F) : ∀ (bits : List Bool) (prev : Bool) (R0 R1 : Pt F),
    (ladderLoop PX PZ A24 bits prev R0 R1).map φ =
      ladderLoop (φ PX) (φ PZ) (φ A24) bits prev (R0.map φ) (R1.map φ)
  | [], prev, R0, R1 => by cases prev <;> simp [ladderLoop]
  | b :: bits, prev, R0, R1 => by
    unfold ladderLoop
    have hx : ∀ S0 S1 : Pt F, (xDBLADD (S0.map φ) (S1.map φ) (φ PX) (φ PZ) (φ A24)) =
        ((xDBLADD S0 S1 PX PZ A24).1.map φ, (xDBLADD S0 S1 PX PZ A24).2.map φ) := by
      intro S0 S1; simp [xDBLADD, Pt.map]
    cases h : (b != prev)
    · simp only [Bool.false_eq_true, if_false, hx]
      exact map_ladderLoop PX PZ A24 bits b _ _
    · simp only [if_true, hx]
      exact map_ladderLoop PX PZ A24 bits b _ _

theorem map_ladder (P : Pt F) (m : ℕ) (A : F) (n : ℕ) :
    (ladder P m A n).map φ = ladder (P.map φ) m (φ A) n := by
  simp only [ladder]
  rw [map_ladderLoop]
  simp [Pt.map, map_ofNat]

/-- The randomised kernel point of `Pack_Chain_A` generates the same kernel. -/
theorem ladder_regen (hS : Setting φ σ p env) {a : F} {k : Pt F} {P : (W (φ a)).Point} (hk : Rep (k.map φ) P)
    (ho : addOrderOf P = 2 ^ env.e2) {m : ℕ} (hm : m % 2 = 1) (hlt : m < 2 ^ env.e2) :
    Rep ((ladder k m a env.e2).map φ) (m • P) ∧ AddSubgroup.zmultiples P = AddSubgroup.zmultiples (m • P) := by
  have h2 := two_map φ hS.two
  have he : 2 ≤ env.e2 := by have := hS.good.halfA; have := hS.good.maxA_pos; omega
  have hZ := Rep.order_ne hk Nat.prime_two (by omega) ho
  have hX : (k.map φ).X ≠ 0 := by
    intro hx
    have h0 : 2 • P = 0 := by
      have hd := xDBL_rep h2 (is24_std (φ a)) hk
      rw [← hd.Z_iff]
      simp only [xDBL, hx]
      ring
    have := addOrderOf_dvd_of_nsmul_eq_zero h0
    rw [ho] at this
    have h4 : 2 ^ 2 ∣ 2 := dvd_trans (pow_dvd_pow 2 he) this
    norm_num at h4
  refine ⟨?_, ?_⟩
  · rw [map_ladder]
    have := ladder_rep h2 hk hX hZ m env.e2
    rwa [Nat.mod_eq_of_lt hlt] at this
  · refine (zmultiples_nsmul_coprime ?_).symm
    rw [ho]
    exact Nat.Coprime.pow_right _ (Nat.coprime_two_right.2 (Nat.odd_iff.2 hm))

theorem randomOdd_ret : NoUB (randomOdd env) ∧ Ret (randomOdd env) (fun m => m % 2 = 1 ∧ (0 < env.e2 → m < 2 ^ env.e2)) := by
  constructor
  · intro t h
    simp only [randomOdd] at h
    split at h <;> cases h
  · intro t m t' h
    simp only [randomOdd] at h
    split at h
    · cases h
    · obtain ⟨rfl, _⟩ := Prod.mk.inj (Out.ok.inj h)
      rw [Secuer.Scalar.or_one]
      refine ⟨by omega, fun he => ?_⟩
      rename_i m' _ _ _
      obtain ⟨e, he'⟩ : ∃ e, env.e2 = e + 1 := ⟨env.e2 - 1, by omega⟩
      have := Nat.mod_lt m' (show 0 < 2 ^ env.e2 by positivity)
      rw [he', pow_succ] at *
      omega

theorem packPoint_ok (hS : Setting φ σ p env) {E : Crv F} {a : F} (hE : On E a) (ha : Super φ σ p a) (k : Pt F) :
    packPoint env E k = .ok (packCell env (E, k)) := by
  unfold packPoint
  rw [(hE.model hS ha).1]
  rfl

theorem Walk.super (hS : Setting φ σ p env) {ℓ e : ℕ} {bo : Option (Pt K)} {a a'' : F} {cells : List (Crv F × Pt F)}
    {G : Pt K → Pt K} (hw : Walk φ ℓ e bo a cells a'' G) (ha : Super φ σ p a) : Super φ σ p a'' := by
  induction hw with
  | nil => exact ha
  | cons _ _ hF _ _ ih => exact ih (hF.super hS ha)

/-- What packing yields: the walk again, with other generators of the same kernels. -/
def PackOK (φ : F →+* K) (env : Env F) (ℓ e : ℕ) (bo : Option (Pt K)) (a : F) (Es : List (Crv F)) (Ps : List (Pt F)) (a'' : F)
    (G : Pt K → Pt K) (xs : List F) : Prop :=
  ∃ cells : List (Crv F × Pt F), Walk φ ℓ e bo a cells a'' G ∧ xs = cells.map (packCell env) ∧
    cells.map Prod.fst = (Es.zip Ps).map Prod.fst

theorem packChainA_walk (hS : Setting φ σ p env) : ∀ (Es : List (Crv F)) (Ps : List (Pt F)) {bo : Option (Pt K)} {a a'' : F}
    {G : Pt K → Pt K}, Walk φ 2 env.e2 bo a (Es.zip Ps) a'' G → Super φ σ p a →
    NoUB (packChainA env Es Ps) ∧ Ret (packChainA env Es Ps) (PackOK φ env 2 env.e2 bo a Es Ps a'' G)
  | [], Ps, bo, a, a'', G, hw, ha => by
    cases hw
    exact ⟨by unfold packChainA; exact NoUB.pure' _, by
      unfold packChainA; exact Ret.pure ⟨[], Walk.nil _ _, rfl, by simp⟩⟩
  | E :: Es, [], bo, a, a'', G, hw, ha => by
    cases hw
    exact ⟨by unfold packChainA; exact NoUB.pure' _, by
      unfold packChainA; exact Ret.pure ⟨[], Walk.nil _ _, rfl, by simp⟩⟩
  | E :: Es, k :: Ps, bo, a, a'', G, hw, ha => by
    rw [List.zip_cons_cons] at hw
    cases hw with
    | @cons _ _ a' _ _ _ _ P gF gK b G' hE hk kg hbz hr =>
    have he : 0 < env.e2 := kg.cyc.pos
    unfold packChainA
    refine bindBoth randomOdd_ret.1 randomOdd_ret.2 ?_
    rintro m ⟨hm, hlt⟩
    simp only [fp2div_eq, hE.2]
    rw [packPoint_ok hS hE ha, lift_ok_bind]
    obtain ⟨h1, h2⟩ := packChainA_walk hS Es Ps hr (kg.super hS ha)
    refine bindBoth h1 h2 ?_
    rintro xs ⟨cells, hw', rfl, hfst⟩
    refine ⟨NoUB.pure' _, Ret.pure ?_⟩
    obtain ⟨hk', hz⟩ := ladder_regen hS hk (kg.order Nat.prime_two) hm (hlt he)
    exact ⟨(E, ladder k m a env.e2) :: cells, Walk.cons hE hk' (kg.regen Nat.prime_two hz) hbz hw', rfl, by simp [hfst]⟩

theorem packChainB_walk (hS : Setting φ σ p env) : ∀ (Es : List (Crv F)) (Ps : List (Pt F)) {bo : Option (Pt K)} {a a'' : F}
    {G : Pt K → Pt K}, Walk φ 3 env.e3 bo a (Es.zip Ps) a'' G → Super φ σ p a →
    NoUB (packChainB env Es Ps) ∧ Ret (packChainB env Es Ps) (PackOK φ env 3 env.e3 bo a Es Ps a'' G)
  | [], Ps, bo, a, a'', G, hw, ha => by
    cases hw
    exact ⟨by unfold packChainB; exact NoUB.pure' _, by
      unfold packChainB; exact Ret.pure ⟨[], Walk.nil _ _, rfl, by simp⟩⟩
  | E :: Es, [], bo, a, a'', G, hw, ha => by
    cases hw
    exact ⟨by unfold packChainB; exact NoUB.pure' _, by
      unfold packChainB; exact Ret.pure ⟨[], Walk.nil _ _, rfl, by simp⟩⟩
  | E :: Es, k :: Ps, bo, a, a'', G, hw, ha => by
    rw [List.zip_cons_cons] at hw
    cases hw with
    | @cons _ _ a' _ _ _ _ P gF gK b G' hE hk kg hbz hr =>
    unfold packChainB
    rw [packPoint_ok hS hE ha, lift_ok_bind]
    obtain ⟨h1, h2⟩ := packChainB_walk hS Es Ps hr (kg.super hS ha)
    refine bindBoth h1 h2 ?_
    rintro xs ⟨cells, hw', rfl, hfst⟩
    exact ⟨NoUB.pure' _, Ret.pure ⟨(E, k) :: cells, Walk.cons hE hk kg hbz hw', rfl, by simp [hfst]⟩⟩

/-! ### Random chains -/

theorem rep_pointMap {A : F} {ι : (W A).Point →+ (W (φ A)).Point}
    (hι : ∀ x y h, ∃ h', ι (.some x y h) = .some (φ x) (φ y) h') {q : Pt F} {P : (W A).Point} (h : Rep q P) :
    Rep (q.map φ) (ι P) := by
  cases P with
  | zero =>
    have e : ι (.zero : (W A).Point) = 0 := map_zero ι
    rw [e, rep_zero_iff]
    obtain ⟨h1, h2⟩ := (rep_zero_iff q).1 h
    exact ⟨by simp [Pt.map, h1], by simpa [Pt.map] using h2⟩
  | some x y hn =>
    obtain ⟨h', e⟩ := hι x y hn
    rw [e]
    have := PEq.map φ h
    change PEq _ _
    simpa [xr, Pt.map] using this

theorem mem_zmultiples_small {G : Type} [AddCommGroup G] {ℓ : ℕ} (hℓ : ℓ = 2 ∨ ℓ = 3) {S T : G} (hS : ℓ • S = 0)
    (h : T ∈ AddSubgroup.zmultiples S) : T = 0 ∨ T = S ∨ T = -S := by
  obtain ⟨m, rfl⟩ := h
  simp only
  have hS' : (ℓ : ℤ) • S = 0 := by rw [natCast_zsmul]; exact hS
  have e : m • S = (m % ℓ) • S := by
    conv_lhs => rw [← Int.emod_add_mul_ediv m ℓ]
    rw [add_zsmul, mul_comm, mul_zsmul, hS', zsmul_zero, add_zero]
  rw [e]
  rcases hℓ with rfl | rfl
  · have : m % (2 : ℕ) = 0 ∨ m % (2 : ℕ) = 1 := by omega
    rcases this with h | h <;> rw [h]
    · exact Or.inl (zero_zsmul _)
    · exact Or.inr (Or.inl (one_zsmul _))
  · have : m % (3 : ℕ) = 0 ∨ m % (3 : ℕ) = 1 ∨ m % (3 : ℕ) = 2 := by omega
    rcases this with h | h | h <;> rw [h]
    · exact Or.inl (zero_zsmul _)
    · exact Or.inr (Or.inl (one_zsmul _))
    · right; right
      rw [eq_neg_iff_add_eq_zero]
      have : (2 : ℤ) • S + S = (3 : ℕ) • S := by
        rw [two_zsmul, show (3 : ℕ) = 2 + 1 from rfl, add_nsmul, two_nsmul, one_nsmul]
      rw [this, hS]

/-- A random kernel point, over the closure. -/
theorem randomPointAB_K (hS : Setting φ σ p env) {E : Crv F} {a : F} (hE : On E a) (ha : Super φ σ p a) {l : ℕ}
    (hl : l = 2 ∨ l = 3) (avoid : Option (Pt F)) :
    NoUB (randomPointAB env E l avoid) ∧ Ret (randomPointAB env E l avoid) (fun k => ∃ P : (W (φ a)).Point,
      Rep (k.map φ) P ∧ addOrderOf P = l ^ (if l = 2 then env.e2 else env.e3) ∧
      ∀ b ∈ avoid, ∀ T : (W (φ a)).Point, Rep (b.map φ) T → l • T = 0 → T ≠ 0 → T ∉ AddSubgroup.zmultiples P) := by
  refine ⟨randomPointAB_noUB _ _ _, ?_⟩
  obtain ⟨hC, rfl⟩ := hE
  obtain ⟨ι, hinj, hι⟩ := exists_pointMap φ (E.A / E.C)
  refine (randomPointAB_ret hS.two ha.1 (fun Y => ?_) hl avoid).mono ?_
  · rw [← hS.order]; exact ha.kill hS.frob Y
  · rintro k ⟨X, hX, ho, hav⟩
    refine ⟨ι X, rep_pointMap hι hX, by rw [addOrderOf_injective ι hinj]; exact ho, ?_⟩
    intro b hb T hT hlT hT0 hmem
    set e := (if l = 2 then env.e2 else env.e3) with he
    have hpos : 0 < e := by
      have h1 := hS.good.halfA; have h2 := hS.good.maxA_pos; have h3 := hS.good.maxB; have h4 := hS.good.maxB_pos
      rw [he]; split <;> omega
    obtain ⟨m, hm⟩ : ∃ m, e = m + 1 := ⟨e - 1, by omega⟩
    have hlp := prime_of hl
    have hoX : addOrderOf (ι X) = l ^ (m + 1) := by rw [addOrderOf_injective ι hinj, ho, hm]
    have h1 := mem_zmultiples_torsion hlp.pos hoX hlT hmem
    have hkill : l • l ^ m • ι X = 0 := by
      rw [← mul_nsmul, ← pow_succ, ← hoX]; exact addOrderOf_nsmul_eq_zero _
    have hS' : Rep (b.map φ) (l ^ m • ι X) := by
      rcases mem_zmultiples_small hl hkill h1 with h | h | h
      · exact absurd h hT0
      · rwa [← h]
      · have := hT.neg; rwa [h, neg_neg] at this
    have hQ := hav b hb (xr (l ^ (e - 1) • X)) (rep_xr _)
    have hQK := rep_pointMap hι (rep_xr (l ^ (e - 1) • X))
    rw [map_nsmul, hm, Nat.add_sub_cancel] at hQK
    rw [hm, Nat.add_sub_cancel] at hQ
    obtain ⟨c, hc, e1, e2⟩ := hQK.unique hS'
    simp only [pointEqual, projEqual, decide_eq_false_iff_not] at hQ
    apply hQ
    apply φ.injective
    simp only [Pt.map] at e1 e2
    rw [map_mul, map_mul, e1, e2]
    ring

/-- The point to be avoided is the direction back. -/
def AvOK (φ : F →+* K) (ℓ : ℕ) (a : F) (avoid : Option (Pt F)) (bo : Option (Pt K)) : Prop :=
  (avoid = none ∧ bo = none) ∨ ∃ av b, avoid = some av ∧ bo = some b ∧ PEq b (av.map φ) ∧ Tors ℓ (A := φ a) b

/-- Avoiding the direction back. -/
theorem AvOK.back {ℓ e : ℕ} {a a' : F} {avoid : Option (Pt F)} {bo : Option (Pt K)} (h : AvOK φ ℓ a avoid bo)
    {gF : Pt F → Pt F} {gK : Pt K → Pt K} {P : (W (φ a)).Point} {b : Pt K} (kg : FIsog φ ℓ e a a' gF gK P b)
    (hav : ∀ b ∈ avoid, ∀ T : (W (φ a)).Point, Rep (b.map φ) T → ℓ • T = 0 → T ≠ 0 → T ∉ AddSubgroup.zmultiples P) :
    ∀ b₀ ∈ bo, (gK b₀).Z ≠ 0 := by
  rcases h with ⟨_, rfl⟩ | ⟨av, b, rfl, rfl, hpe, T, hT, h0, hne⟩
  · simp
  · rintro _ ⟨rfl⟩ hz
    refine hav av rfl T (hT.peq hpe) h0 hne ?_
    rw [← kg.cyc.ker]
    exact ((kg.cyc.hom.congr _ _ hT).Z_iff).1 hz

/-- What the loops generating random chains yield. -/
def LoopOK (φ : F →+* K) (ℓ e : ℕ) (bo : Option (Pt K)) (a : F) (E : Crv F) (n : ℕ) (r : List (Pt F) × List (Crv F)) : Prop :=
  r.1.length = n ∧ r.2.length = n ∧ ∃ a'' G, Walk φ ℓ e bo a ((E :: r.2).zip r.1) a'' G ∧
    ∃ E', (E :: r.2).getLast? = some E' ∧ On E' a''

theorem chainALoop_walk (hS : Setting φ σ p env) (h3 : (3 : K) ≠ 0) : ∀ (n : ℕ) (E : Crv F) (avoid : Option (Pt F))
    (bo : Option (Pt K)) (a : F), On E a → Super φ σ p a → AvOK φ 2 a avoid bo →
    NoUB (chainALoop env E avoid n) ∧ Ret (chainALoop env E avoid n) (LoopOK φ 2 env.e2 bo a E n)
  | 0, E, avoid, bo, a, hE, ha, hav => by
    unfold chainALoop
    exact ⟨NoUB.pure' _, Ret.pure ⟨rfl, rfl, a, id, Walk.nil _ _, E, rfl, hE⟩⟩
  | n + 1, E, avoid, bo, a, hE, ha, hav => by
    unfold chainALoop
    obtain ⟨r1, r2⟩ := randomPointAB_K hS hE ha (l := 2) (Or.inl rfl) avoid
    refine bindBoth r1 r2 ?_
    rintro k ⟨P, hk, ho, hP⟩
    rw [if_pos rfl] at ho
    obtain ⟨E', q', gF, gK, hrun, hC, _, kg⟩ := runA hS hE ha hk ho none
    rw [hrun, lift_ok_bind]
    simp only
    have htors := kg.back_tors (two_map φ hS.two) h3 (Or.inl rfl)
    obtain ⟨i1, i2⟩ := chainALoop_walk hS h3 n E' (some ⟨0, 1⟩) (some ⟨0, 1⟩) _ ⟨hC, rfl⟩ (kg.super hS ha)
      (Or.inr ⟨⟨0, 1⟩, ⟨0, 1⟩, rfl, rfl, by rw [map_zero_one]; exact PEq.refl _, htors⟩)
    refine bindBoth i1 i2 ?_
    rintro ⟨Ps, Es⟩ ⟨l1, l2, a'', G, hw, E'', hlast, hon⟩
    refine ⟨NoUB.pure' _, Ret.pure ⟨by simp [l1], by simp [l2], a'', G ∘ gK, ?_, E'', ?_, hon⟩⟩
    · exact Walk.cons hE hk kg (hav.back kg hP) hw
    · simpa using hlast

theorem chainBLoop_walk (hS : Setting φ σ p env) (h3 : (3 : K) ≠ 0) : ∀ (n : ℕ) (E : Crv F) (avoid : Option (Pt F))
    (bo : Option (Pt K)) (a : F), On E a → Super φ σ p a → AvOK φ 3 a avoid bo →
    NoUB (chainBLoop env E avoid n) ∧ Ret (chainBLoop env E avoid n) (LoopOK φ 3 env.e3 bo a E n)
  | 0, E, avoid, bo, a, hE, ha, hav => by
    unfold chainBLoop
    exact ⟨NoUB.pure' _, Ret.pure ⟨rfl, rfl, a, id, Walk.nil _ _, E, rfl, hE⟩⟩
  | n + 1, E, avoid, bo, a, hE, ha, hav => by
    unfold chainBLoop
    obtain ⟨r1, r2⟩ := randomPointAB_K hS hE ha (l := 3) (Or.inr rfl) avoid
    refine bindBoth r1 r2 ?_
    rintro k ⟨P, hk, ho, hP⟩
    rw [if_neg (by norm_num)] at ho
    obtain ⟨E', q', gF, gK, b, hC, _, kg, hub, _, hret⟩ := runB hS hE ha true hk ho none
    refine bindBoth hub (hret rfl) ?_
    rintro _ ⟨b', rfl, hb, hbnz⟩
    simp only
    have htors := kg.back_tors (two_map φ hS.two) h3 (Or.inr rfl)
    obtain ⟨i1, i2⟩ := chainBLoop_walk hS h3 n E' (some b') (some (b.map φ)) _ ⟨hC, rfl⟩ (kg.super hS ha)
      (Or.inr ⟨b', _, rfl, rfl, PEq.map φ hb, htors⟩)
    refine bindBoth i1 i2 ?_
    rintro ⟨Ps, Es⟩ ⟨l1, l2, a'', G, hw, E'', hlast, hon⟩
    refine ⟨NoUB.pure' _, Ret.pure ⟨by simp [l1], by simp [l2], a'', G ∘ gK, ?_, E'', ?_, hon⟩⟩
    · exact Walk.cons hE hk kg (hav.back kg hP) hw
    · simpa using hlast

/-- What `Random_Isogeny_Chain_A` and `Random_Isogeny_Chain_B` yield. -/
def ChainOK (φ : F →+* K) (ℓ e : ℕ) (a : F) (E : Crv F) (n : ℕ) (c : Chain F) : Prop :=
  c.P.length = n ∧ c.E.length = n + 1 ∧ c.E.head? = some E ∧ ∃ a'' G, Walk φ ℓ e none a (c.E.zip c.P) a'' G ∧
    ∃ E', c.E.getLast? = some E' ∧ On E' a''

theorem randomChainA_walk (hS : Setting φ σ p env) (h3 : (3 : K) ≠ 0) (n : ℕ) {E : Crv F} {a : F} (hE : On E a)
    (ha : Super φ σ p a) :
    NoUB (randomChainA env n E) ∧ Ret (randomChainA env n E) (ChainOK φ 2 env.e2 a E n) := by
  unfold randomChainA
  obtain ⟨h1, h2⟩ := chainALoop_walk hS h3 n E none none a hE ha (Or.inl ⟨rfl, rfl⟩)
  refine bindBoth h1 h2 ?_
  rintro ⟨Ps, Es⟩ ⟨l1, l2, a'', G, hw, hlast⟩
  exact ⟨NoUB.pure' _, Ret.pure ⟨l1, by simpa using l2, rfl, a'', G, hw, hlast⟩⟩

theorem randomChainB_walk (hS : Setting φ σ p env) (h3 : (3 : K) ≠ 0) (n : ℕ) {E : Crv F} {a : F} (hE : On E a)
    (ha : Super φ σ p a) :
    NoUB (randomChainB env n E) ∧ Ret (randomChainB env n E) (ChainOK φ 3 env.e3 a E n) := by
  unfold randomChainB
  obtain ⟨h1, h2⟩ := chainBLoop_walk hS h3 n E none none a hE ha (Or.inl ⟨rfl, rfl⟩)
  refine bindBoth h1 h2 ?_
  rintro ⟨Ps, Es⟩ ⟨l1, l2, a'', G, hw, hlast⟩
  exact ⟨NoUB.pure' _, Ret.pure ⟨l1, by simpa using l2, rfl, a'', G, hw, hlast⟩⟩

end Secuer.Curve
