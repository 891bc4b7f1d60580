import Verif.Curve.Square
import Verif.Curve.ChainSpec

/-!
# Walks

`Walk φ ℓ e bo a cells a' G`: starting from the coefficient `a`, the curves and kernel points in `cells` describe
successive isogenies of degree `ℓ^e` leading to the coefficient `a'`, without backtracking; `bo` is the direction
leading back from `a`, if there were earlier steps.  Packing a walk and unpacking the result leads to a curve
isomorphic to its end.
-/

namespace Secuer.Curve

open Secuer.Mont

variable {F K : Type} [Field F] [DecidableEq F] [Field K] [DecidableEq K] [IsAlgClosed K]
variable {φ : F →+* K} {σ : K →+* K} {p : ℕ} {env : Env F}

/-- `E` is a projective form of the coefficient `a`. -/
def On (E : Crv F) (a : F) : Prop := E.C ≠ 0 ∧ E.A / E.C = a

/-- `b` is the x-coordinate of a point of order `ℓ`. -/
def Tors (ℓ : ℕ) {A : K} (b : Pt K) : Prop := ∃ T : (W A).Point, Rep b T ∧ ℓ • T = 0 ∧ T ≠ 0

/-- The coefficients whose j-invariant is neither 0 nor 1728. -/
def Generic (a : F) : Prop := a ^ 2 ≠ 3 ∧ a * (2 * a ^ 2 - 9) ≠ 0

variable (φ) in
/-- See the introduction; `G` is the composition of the isogenies. -/
inductive Walk (ℓ e : ℕ) : Option (Pt K) → F → List (Crv F × Pt F) → F → (Pt K → Pt K) → Prop
  | nil (bo : Option (Pt K)) (a : F) : Walk ℓ e bo a [] a id
  | cons {bo : Option (Pt K)} {a a' a'' : F} {E : Crv F} {k : Pt F} {rest : List (Crv F × Pt F)}
      {P : (W (φ a)).Point} {gF : Pt F → Pt F} {gK : Pt K → Pt K} {b : Pt K} {G : Pt K → Pt K} (hE : On E a)
      (hk : Rep (k.map φ) P) (hF : FIsog φ ℓ e a a' gF gK P b) (hb : ∀ b₀ ∈ bo, (gK b₀).Z ≠ 0)
      (hr : Walk ℓ e (some b) a' rest a'' G) :
      Walk ℓ e bo a ((E, k) :: rest) a'' (G ∘ gK)

theorem prime_of {ℓ : ℕ} (hℓ : ℓ = 2 ∨ ℓ = 3) : ℓ.Prime := by rcases hℓ with rfl | rfl <;> decide

theorem FIsog.back_tors (h2 : (2 : K) ≠ 0) (h3 : (3 : K) ≠ 0) {ℓ n : ℕ} (hℓ : ℓ = 2 ∨ ℓ = 3) {a a' : F}
    {gF : Pt F → Pt F} {gK : Pt K → Pt K} {P : (W (φ a)).Point} {b : Pt K} (h : FIsog φ ℓ n a a' gF gK P b) :
    Tors ℓ (A := φ a') b := by
  obtain ⟨T, hT, hTP⟩ := exists_outside h2 h3 h.cyc.src hℓ h.cyc.pos (h.order (prime_of hℓ))
  obtain ⟨ψ, hi, hk⟩ := h.isog h2 (prime_of hℓ)
  refine ⟨ψ T, (hi.rep _ _ (rep_xr T)).peq (h.cyc.back T hT hTP), by rw [← map_nsmul, hT, map_zero], fun h0 => hTP ?_⟩
  rw [← hk]; exact h0

/-- The direction back is the image of every point of order `ℓ` outside the kernel. -/
theorem FIsog.image_tors {ℓ n : ℕ} {a a' : F}
    {gF : Pt F → Pt F} {gK : Pt K → Pt K} {P : (W (φ a)).Point} {b b₀ : Pt K} (h : FIsog φ ℓ n a a' gF gK P b)
    (hb : Tors ℓ (A := φ a) b₀) (hz : (gK b₀).Z ≠ 0) : PEq (gK b₀) b := by
  obtain ⟨T, hT, h0, -⟩ := hb
  refine (h.cyc.hom.congr _ _ hT).symm.trans (h.cyc.back T h0 fun hm => hz ?_)
  exact (h.cyc.hom.congr _ _ hT).Z_iff.2 ((h.cyc.ker T).2 hm)

/-! ### Composition of model changes -/

omit [DecidableEq F] in
theorem ModelOK.comp {A : F} {i j : Iso F} (hi : ModelOK A i) (hj : ModelOK i.B j) :
    ModelOK A ⟨j.B, i.r + i.u2 * j.r, i.u2 * j.u2⟩ := by
  obtain ⟨i1, i2, i3, i4, i5⟩ := hi
  obtain ⟨j1, j2, j3, j4, j5⟩ := hj
  refine ⟨mul_ne_zero i1 j1, ?_, ?_, ?_, j5⟩
  · simp only
    linear_combination i2 + i.u2 ^ 3 * j2 - i.u2 ^ 2 * j.r ^ 2 * i4 - i.u2 * j.r * i3
  · simp only
    linear_combination i.u2 ^ 2 * j3 + i3 + 2 * i.u2 * j.r * i4
  · simp only
    linear_combination i.u2 * j4 + i4

omit [DecidableEq F] in
theorem evalIso_comp (i j : Iso F) (q : Pt F) :
    evalIso ⟨j.B, i.r + i.u2 * j.r, i.u2 * j.u2⟩ q = evalIso j (evalIso i q) := by
  simp only [evalIso]
  congr 1 <;> ring

variable (φ) in
/-- A model change, over `K`. -/
def Iso.mapK (i : Iso F) : Iso K := ⟨φ i.B, φ i.r, φ i.u2⟩

omit [DecidableEq F] [DecidableEq K] [IsAlgClosed K] in
theorem ModelOK.mapK {A : F} {i : Iso F} (h : ModelOK A i) : ModelOK (φ A) (i.mapK φ) := by
  refine ⟨by simpa [Iso.mapK] using h.u0, ?_, ?_, ?_, ?_⟩
  · have := congrArg φ h.root; simpa [Iso.mapK] using this
  · have := congrArg φ h.usq; simpa [Iso.mapK, map_ofNat] using this
  · have := congrArg φ h.B; simpa [Iso.mapK, map_ofNat] using this
  · intro h4
    apply h.tgt
    apply φ.injective
    rw [map_pow, map_ofNat]; exact h4

omit [DecidableEq F] [DecidableEq K] [IsAlgClosed K] in
theorem isoK_eq (i : Iso F) (q : Pt K) : isoK φ i q = evalIso (i.mapK φ) q := rfl

omit [DecidableEq F] [DecidableEq K] [IsAlgClosed K] in
theorem sameJ_of_map {a b : F} (h : SameJ (φ a) (φ b)) : SameJ a b := by
  unfold SameJ at *
  apply φ.injective
  simpa [map_ofNat] using h

/-! ### One step of an unpacked chain follows the walk -/

/-- Two isogenies whose kernels correspond under a model change. -/
theorem FIsog.sync (h2 : (2 : K) ≠ 0) {ℓ e : ℕ} (hℓ : ℓ.Prime) {a a' c : F} {gF hF : Pt F → Pt F}
    {gK hK : Pt K → Pt K} {b d : Pt K} {i : Iso F} (hi : ModelOK a i) {P : (W (φ a)).Point} {Q : (W (φ i.B)).Point}
    (kg : FIsog φ ℓ e a a' gF gK P b) (kh : FIsog φ ℓ e i.B c hF hK Q d) (hPQ : Rep (isoK φ i (xr P)) Q) :
    ∃ η : Iso K, η.B = φ c ∧ ModelOK (φ a') η ∧ ∀ q, Nz q → PEq (evalIso η (gK q)) (hK (isoK φ i q)) := by
  obtain ⟨ψ, i1, e1⟩ := kg.isog h2 hℓ
  obtain ⟨ψ', i2, e2⟩ := kh.isog h2 hℓ
  obtain ⟨θ, i3, e3⟩ : ∃ θ : (W (φ a)).Point →+ (W (φ i.B)).Point, Isog 1 (φ a) (φ i.B) (isoK φ i) θ ∧ θ.ker = ⊥ :=
    (hi.mapK (φ := φ)).isog h2 kg.cyc.src
  have i4 := Isog.comp i2 i3
  rw [one_mul] at i4
  refine i1.unique h2 i4 ?_
  rw [e1, ker_comp_zmultiples θ ψ' e2 ((i3.rep _ _ (rep_xr P)).eq_or_neg hPQ), e3, sup_bot_eq]

/-- The first step. -/
theorem FIsog.sync_first (h2 : (2 : K) ≠ 0) (h3 : (3 : K) ≠ 0) {ℓ e : ℕ} (hℓ : ℓ = 2 ∨ ℓ = 3) {a a' c : F}
    {gF hF : Pt F → Pt F} {gK hK : Pt K → Pt K} {b d : Pt K} {i : Iso F} (hi : ModelOK a i) {P : (W (φ a)).Point}
    {Q : (W (φ i.B)).Point} (kg : FIsog φ ℓ e a a' gF gK P b) (kh : FIsog φ ℓ e i.B c hF hK Q d)
    (hPQ : Rep (isoK φ i (xr P)) Q) :
    ∃ η : Iso K, η.B = φ c ∧ ModelOK (φ a') η ∧ PEq (evalIso η b) d := by
  obtain ⟨η, h1, hη, hq⟩ := kg.sync h2 (prime_of hℓ) hi kh hPQ
  refine ⟨η, h1, hη, ?_⟩
  obtain ⟨T, hT, hTP⟩ := exists_outside h2 h3 kg.cyc.src hℓ kg.cyc.pos (kg.order (prime_of hℓ))
  have hη' := hη.isoX' kg.cyc.tgt
  have hgT := kg.cyc.back T hT hTP
  have hi' : IsoX (φ a) (φ i.B) (isoK φ i) := (hi.mapK (φ := φ)).isoX' kg.cyc.src
  obtain ⟨T', hT'⟩ := exists_rep (A := φ i.B) h2 kh.cyc.src (hi'.hom.nz _ (xr_nz T))
  have e1 : PEq (evalIso η (gK (xr T))) (hK (isoK φ i (xr T))) := hq _ (xr_nz T)
  have hz : (hK (isoK φ i (xr T))).Z ≠ 0 := by
    intro h0
    have := e1.Z_iff.1 h0
    rw [hη'.inj, kg.cyc.ker] at this
    exact hTP this
  have hT0 : ℓ • T' = 0 := by
    have := hi'.hom.nsmul h2 (rep_xr T) hT' ℓ (rep_xr _)
    rw [hT] at this
    exact this.Z_iff.1 (hi'.hom.infty h2)
  have e2 : PEq (hK (isoK φ i (xr T))) d := by
    refine (kh.cyc.hom.congr _ _ hT').symm.trans (kh.cyc.back T' hT0 fun hm => hz ?_)
    exact (kh.cyc.hom.congr _ _ hT').Z_iff.2 ((kh.cyc.ker T').2 hm)
  exact (hη'.hom.congr _ _ hgT.symm).trans (e1.trans e2)

/-- A later step: the unpacked curve `c₀` is known to be isomorphic to `a` by `η`, compatibly with the directions
back. -/
theorem FIsog.sync_next (h2 : (2 : K) ≠ 0) (h3 : (3 : K) ≠ 0) {ℓ e : ℕ} (hℓ : ℓ = 2 ∨ ℓ = 3) {a a' c₀ c : F}
    (hgen : Generic a) {gF hF : Pt F → Pt F} {gK hK : Pt K → Pt K} {b d b₀ d₀ : Pt K} {i j : Iso F} (hi : ModelOK a i)
    (hj : ModelOK c₀ j) (hij : i.B = j.B) {P : (W (φ a)).Point}
    {Q : (W (φ i.B)).Point} (kg : FIsog φ ℓ e a a' gF gK P b) (kh : FIsog φ ℓ e i.B c hF hK Q d)
    (hPQ : Rep (isoK φ i (xr P)) Q) {η₀ : Iso K} (h0 : η₀.B = φ c₀) (hη₀ : ModelOK (φ a) η₀)
    (hb₀ : Tors ℓ (A := φ a) b₀) (hd₀ : PEq (evalIso η₀ b₀) d₀) (hbz : (gK b₀).Z ≠ 0) :
    ∃ η : Iso K, η.B = φ c ∧ ModelOK (φ a') η ∧ PEq (evalIso η b) (hK (isoK φ j d₀)) := by
  obtain ⟨η, h1, hη, hq⟩ := kg.sync h2 (prime_of hℓ) hi kh hPQ
  refine ⟨η, h1, hη, ?_⟩
  have hη' := hη.isoX' kg.cyc.tgt
  have hbnz : Nz b₀ := by obtain ⟨T, hT, _⟩ := hb₀; exact hT.nz
  have hj' : ModelOK η₀.B (j.mapK φ) := by rw [h0]; exact hj.mapK
  have hi' := hi.mapK (φ := φ)
  have heq := ModelOK.rigid h3 (A := φ a) (by
      intro h; apply hgen.1; apply φ.injective; simpa [map_ofNat] using h) (by
      intro h; apply hgen.2; apply φ.injective; simpa [map_ofNat] using h) hi' (hη₀.comp hj')
    (by change φ i.B = φ j.B; rw [hij])
  have hjx := hj'.isoX' hη₀.tgt
  have e1 : PEq (isoK φ j d₀) (isoK φ i b₀) := by
    have : isoK φ i b₀ = evalIso (j.mapK φ) (evalIso η₀ b₀) := by
      rw [isoK_eq, heq, evalIso_comp]
    rw [this]
    exact (hjx.hom.congr _ _ hd₀).symm
  have e2 := kg.image_tors hb₀ hbz
  exact (hη'.hom.congr _ _ e2.symm).trans ((hq _ hbnz).trans (kh.cyc.hom.congr _ _ e1.symm))

/-! ### Unpacking a packed walk -/

variable (φ σ p) in
/-- The unpacked chain is at the curve `E`, with direction back `back`; the walk is at `a` with direction back `b₀`. -/
structure Sync (a : F) (b₀ : Pt K) (E : Crv F) (back : Pt F) : Prop where
  C : E.C ≠ 0
  sup : Super φ σ p (E.A / E.C)
  iso : ∃ η : Iso K, η.B = φ (E.A / E.C) ∧ ModelOK (φ a) η ∧ PEq (evalIso η b₀) (back.map φ)

theorem On.super {E : Crv F} {a : F} (h : On E a) (hs : Super φ σ p a) : Super φ σ p (E.A / E.C) := by rw [h.2]; exact hs

theorem On.model (hS : Setting φ σ p env) {E : Crv F} {a : F} (h : On E a) (hs : Super φ σ p a) :
    canonicalModelM env E = .ok (canonicalModel env E) ∧ ModelOK a (canonicalModel env E) := by
  have := canonicalModelM_ok hS (h.super hs)
  rwa [h.2] at this

theorem nz_aff {q : Pt F} (hz : q.Z ≠ 0) : PEq q ⟨q.X / q.Z, 1⟩ :=
  peq_of_cross (Or.inr hz) (Or.inr one_ne_zero) (by simp only; field_simp)

theorem Rep.order_ne {A : K} {q : Pt K} {P : (W A).Point} (h : Rep q P) {ℓ e : ℕ} (hℓ : ℓ.Prime) (he : 0 < e)
    (ho : addOrderOf P = ℓ ^ e) : q.Z ≠ 0 := by
  intro hz
  have : P = 0 := h.Z_iff.1 hz
  rw [this, addOrderOf_zero] at ho
  exact absurd ho.symm (Nat.one_lt_pow he.ne' hℓ.one_lt).ne'

/-- The packed kernel point has the same order on the canonical model. -/
theorem FIsog.packed (hS : Setting φ σ p env) {ℓ e : ℕ} (hℓ : ℓ.Prime) {a a' : F} {gF : Pt F → Pt F} {gK : Pt K → Pt K}
    {P : (W (φ a)).Point} {b : Pt K} {k : Pt F} {i : Iso F} (hi : ModelOK a i)
    (kg : FIsog φ ℓ e a a' gF gK P b) (hk : Rep (k.map φ) P) :
    ∃ Q : (W (φ i.B)).Point, Rep ((unpackPoint (fp2div (evalIso i k).X (evalIso i k).Z)).map φ) Q ∧
      addOrderOf Q = ℓ ^ e ∧ Rep (isoK φ i (xr P)) Q := by
  have h2 := two_map φ hS.two
  have hix : IsoX (φ a) (φ i.B) (isoK φ i) := (hi.mapK (φ := φ)).isoX' kg.cyc.src
  obtain ⟨Q, hQ⟩ := exists_rep (A := φ i.B) h2 hix.tgt (hix.hom.nz _ (xr_nz P))
  have ho : addOrderOf Q = ℓ ^ e := by
    rw [← kg.order hℓ, addOrderOf_eq_addOrderOf_iff]
    intro n
    rw [← (hix.hom.nsmul h2 (rep_xr P) hQ n (rep_xr _)).Z_iff, hix.inj, (rep_xr (n • P)).Z_iff]
  have hQk : Rep ((evalIso i k).map φ) Q := by
    have : (evalIso i k).map φ = isoK φ i (k.map φ) := by rw [map_evalIso]; rfl
    rw [this]
    exact hQ.peq (hix.hom.congr _ _ hk)
  have hz : (evalIso i k).Z ≠ 0 := by
    have := Rep.order_ne hQk hℓ kg.cyc.pos ho
    intro h0; apply this; simp [Pt.map, h0]
  refine ⟨Q, ?_, ho, hQ⟩
  rw [fp2div_eq]
  exact hQk.peq (PEq.map φ (nz_aff hz))

theorem Sync.first (hS : Setting φ σ p env) (h3 : (3 : K) ≠ 0) {ℓ e : ℕ} (hℓ : ℓ = 2 ∨ ℓ = 3) {a a' : F}
    (ha : Super φ σ p a) {gF hF : Pt F → Pt F} {gK hK : Pt K → Pt K} {P : (W (φ a)).Point} {b d : Pt K}
    {i : Iso F} (hi : ModelOK a i) {Q : (W (φ i.B)).Point} (hPQ : Rep (isoK φ i (xr P)) Q) {E' : Crv F} {back : Pt F}
    (kg : FIsog φ ℓ e a a' gF gK P b) (hC : E'.C ≠ 0) (kh : FIsog φ ℓ e i.B (E'.A / E'.C) hF hK Q d)
    (hd : PEq d (back.map φ)) : Sync φ σ p a' b E' back := by
  obtain ⟨η, h1, h2', h3'⟩ := kg.sync_first (two_map φ hS.two) h3 hℓ hi kh hPQ
  exact ⟨hC, kh.super hS (ha.model hS.frob hS.two hi hS.neg), η, h1, h2', h3'.trans hd⟩

theorem Sync.step (hS : Setting φ σ p env) (h3 : (3 : K) ≠ 0)
    {ℓ e : ℕ} (hℓ : ℓ = 2 ∨ ℓ = 3) {a a' : F}
    (ha : Super φ σ p a) (hgen : Generic a) {gF hF : Pt F → Pt F} {gK hK : Pt K → Pt K} {P : (W (φ a)).Point}
    {b₀ b d : Pt K} {E E' : Crv F} {back back' : Pt F} (h : Sync φ σ p a b₀ E back) (hb : Tors ℓ (A := φ a) b₀)
    {i j : Iso F} (hi : ModelOK a i) (hj : ModelOK (E.A / E.C) j) (hij : i.B = j.B)
    {Q : (W (φ i.B)).Point} (hPQ : Rep (isoK φ i (xr P)) Q)
    (kg : FIsog φ ℓ e a a' gF gK P b) (hbz : (gK b₀).Z ≠ 0) (hC : E'.C ≠ 0)
    (kh : FIsog φ ℓ e i.B (E'.A / E'.C) hF hK Q d)
    (hd : PEq (hF (evalIso j back)) back') : Sync φ σ p a' b E' back' := by
  obtain ⟨η₀, g1, g2, g3⟩ := h.iso
  obtain ⟨η, h1, h2', h3'⟩ := kg.sync_next (two_map φ hS.two) h3 hℓ hgen hi hj hij kh hPQ g1 g2 hb g3 hbz
  refine ⟨hC, kh.super hS (ha.model hS.frob hS.two hi hS.neg), η, h1, h2', h3'.trans ?_⟩
  have : hK (isoK φ j (back.map φ)) = (hF (evalIso j back)).map φ := by
    rw [← kh.lift, map_evalIso]; rfl
  rw [this]
  exact PEq.map φ hd

variable (env) in
/-- The field element by which `Pack_Chain_A` and `Pack_Chain_B` represent a kernel point. -/
def packCell (c : Crv F × Pt F) : F :=
  fp2div (evalIso (canonicalModel env c.1) c.2).X (evalIso (canonicalModel env c.1) c.2).Z

/-- The canonical models of the walk and of the unpacked chain agree. -/
theorem Sync.model (hS : Setting φ σ p env) (hinj : ∀ a b : F, env.re a = env.re b → env.im a = env.im b → a = b)
    {a : F} (ha : Super φ σ p a) {b₀ : Pt K} {E E₀ : Crv F} {back : Pt F} (h : Sync φ σ p a b₀ E back) (h0 : On E₀ a) :
    (canonicalModel env E₀).B = (canonicalModel env E).B := by
  obtain ⟨η, h1, h2', _⟩ := h.iso
  have hj : SameJ a (E.A / E.C) := sameJ_of_map (φ := φ) (h1 ▸ h2'.sameJ)
  have hs0 := h0.super ha
  refine canonicalModel_congr hS.sqrt hS.two hinj hs0.1 (hs0.full4 hS.frob hS.two) h.sup.1
    (h.sup.full4 hS.frob hS.two) ?_
  rw [h0.2]; exact hj

theorem Sync.end {a : F} {ℓ : ℕ} (ha : a ^ 2 ≠ 4) {b₀ : Pt K} {E : Crv F} {back : Pt F} (h : Sync φ σ p a b₀ E back)
    (hb : Tors ℓ (A := φ a) b₀) : back.Z ≠ 0 ∧ SameJ a (E.A / E.C) := by
  obtain ⟨η, h1, h2', h3'⟩ := h.iso
  refine ⟨fun hz => ?_, sameJ_of_map (φ := φ) (h1 ▸ h2'.sameJ)⟩
  have hx := h2'.isoX' (sq_ne_four_map φ ha)
  obtain ⟨T, hT, _, hT0⟩ := hb
  apply hT0
  rw [← hT.Z_iff, ← hx.inj, ← h3'.Z_iff]
  simp [Pt.map, hz]

theorem FIsog.castTo {ℓ n : ℕ} {a a' B : F} {gF : Pt F → Pt F} {gK : Pt K → Pt K}
    {P : (W (φ a)).Point} {b : Pt K} (hB : a = B) {P' : (W (φ B)).Point} (hP : xr P = xr P')
    (h : FIsog φ ℓ n a a' gF gK P b) : ∃ P'' : (W (φ B)).Point, (P'' = P' ∨ P'' = -P') ∧ FIsog φ ℓ n B a' gF gK P'' b := by
  subst hB
  exact ⟨P, (rep_xr P).eq_or_neg (hP ▸ rep_xr P'), h⟩

/-- `isogenyA` on a curve with coefficient `a`. -/
theorem runA (hS : Setting φ σ p env) {E : Crv F} {a : F} (hE : On E a) (ha : Super φ σ p a) {k : Pt F}
    {P : (W (φ a)).Point} (hk : Rep (k.map φ) P) (ho : addOrderOf P = 2 ^ env.e2) (q : Option (Pt F)) :
    ∃ E' q' gF gK, isogenyA env E k q = .ok (some (E', q', ⟨0, 1⟩)) ∧ E'.C ≠ 0 ∧ OptPEq (q.map gF) q' ∧
      FIsog φ 2 env.e2 a (E'.A / E'.C) gF gK P ⟨0, 1⟩ := by
  obtain ⟨hC, rfl⟩ := hE
  exact (isogenyA_ok φ hS.two hS.sqrt hS.good hC ha.1 (ha.full4 hS.frob hS.two) k q hk).2 ho

theorem runB (hS : Setting φ σ p env) {E : Crv F} {a : F} (hE : On E a) (ha : Super φ σ p a) (wb : Bool) {k : Pt F}
    {P : (W (φ a)).Point} (hk : Rep (k.map φ) P) (ho : addOrderOf P = 3 ^ env.e3) (q : Option (Pt F)) :
    ∃ E' q' gF gK b, E'.C ≠ 0 ∧ OptPEq (q.map gF) q' ∧
      FIsog φ 3 env.e3 a (E'.A / E'.C) gF gK P (Pt.map φ b) ∧ NoUB (isogenyB env wb E k q) ∧
      (wb = false → isogenyB env wb E k q = pure (some (E', q', none))) ∧
      (wb = true → Ret (isogenyB env wb E k q) (fun r => ∃ b', r = some (E', q', some b') ∧ PEq b b' ∧ Nz b')) := by
  obtain ⟨hC, rfl⟩ := hE
  exact (isogenyB_ok φ hS.two hS.good hC ha.1 wb k q hk).2 ho

theorem on_one (a : F) : On ⟨a, 1⟩ a := ⟨one_ne_zero, by simp⟩

theorem unpackLoopA_walk (hS : Setting φ σ p env)
    (hinj : ∀ a b : F, env.re a = env.re b → env.im a = env.im b → a = b) (h3 : (3 : K) ≠ 0) {bo : Option (Pt K)}
    {a a'' : F} {cells : List (Crv F × Pt F)} {G : Pt K → Pt K} (hw : Walk φ 2 env.e2 bo a cells a'' G) :
    ∀ (b₀ : Pt K) (E : Crv F) (back : Pt F), bo = some b₀ → Super φ σ p a → Sync φ σ p a b₀ E back →
      Tors 2 (A := φ a) b₀ → (∀ c ∈ cells, Generic (c.1.A / c.1.C)) →
      ∃ E' back', unpackChainALoop env (cells.map (packCell env)) E back = pure (some (E', back')) ∧ E'.C ≠ 0 ∧
        Super φ σ p (E'.A / E'.C) ∧ back'.Z ≠ 0 ∧ SameJ a'' (E'.A / E'.C) := by
  have h2 := two_map φ hS.two
  induction hw with
  | nil bo a =>
    intro b₀ E back _ ha hs hb _
    obtain ⟨e1, e2⟩ := hs.end ha.1 hb
    exact ⟨E, back, rfl, hs.C, hs.sup, e1, e2⟩
  | @cons bo a a' a'' Ec k rest P gF gK b G hE hk kg hbz hr ih =>
    intro b₀ E back hbo ha hs hb hgen
    obtain ⟨hcm, hmod⟩ := canonicalModelM_ok hS hs.sup
    obtain ⟨_, hi⟩ := hE.model hS ha
    have hB := hs.model hS hinj ha hE
    obtain ⟨Q, hQx, hQo, hPQ⟩ := kg.packed hS Nat.prime_two hi hk
    have hsB : Super φ σ p (canonicalModel env Ec).B := ha.model hS.frob hS.two hi hS.neg
    obtain ⟨E', q', hF, hK, hrun, hC, hq', kh⟩ := runA hS
      (E := ⟨(canonicalModel env E).B, 1⟩) (hB ▸ on_one _) hsB hQx hQo (some (evalIso (canonicalModel env E) back))
    simp only [List.map_cons]
    unfold unpackChainALoop
    rw [hcm, lift_ok_bind]
    simp only
    unfold packCell
    rw [hrun, lift_ok_bind]
    cases q' with
    | none => simp [OptPEq] at hq'
    | some back' =>
      simp only
      have hg := hgen (Ec, k) (by simp)
      simp only [hE.2] at hg
      have hs' := hs.step hS h3 (Or.inl rfl) ha hg hb hi hmod hB hPQ kg (hbz b₀ (by simp [hbo])) hC kh hq'
      exact ih b E' back' rfl (kg.super hS ha) hs' (kg.back_tors h2 h3 (Or.inl rfl))
        (fun c hc => hgen c (by simp [hc]))

theorem unpackLoopB_walk (hS : Setting φ σ p env)
    (hinj : ∀ a b : F, env.re a = env.re b → env.im a = env.im b → a = b) (h3 : (3 : K) ≠ 0) {bo : Option (Pt K)}
    {a a'' : F} {cells : List (Crv F × Pt F)} {G : Pt K → Pt K} (hw : Walk φ 3 env.e3 bo a cells a'' G) :
    ∀ (b₀ : Pt K) (E : Crv F) (back : Pt F), bo = some b₀ → Super φ σ p a → Sync φ σ p a b₀ E back →
      Tors 3 (A := φ a) b₀ → (∀ c ∈ cells, Generic (c.1.A / c.1.C)) →
      ∃ E' back', unpackChainBLoop env (cells.map (packCell env)) E back = pure (some (E', back')) ∧ E'.C ≠ 0 ∧
        Super φ σ p (E'.A / E'.C) ∧ back'.Z ≠ 0 ∧ SameJ a'' (E'.A / E'.C) := by
  have h2 := two_map φ hS.two
  induction hw with
  | nil bo a =>
    intro b₀ E back _ ha hs hb _
    obtain ⟨e1, e2⟩ := hs.end ha.1 hb
    exact ⟨E, back, rfl, hs.C, hs.sup, e1, e2⟩
  | @cons bo a a' a'' Ec k rest P gF gK b G hE hk kg hbz hr ih =>
    intro b₀ E back hbo ha hs hb hgen
    obtain ⟨hcm, hmod⟩ := canonicalModelM_ok hS hs.sup
    obtain ⟨_, hi⟩ := hE.model hS ha
    have hB := hs.model hS hinj ha hE
    obtain ⟨Q, hQx, hQo, hPQ⟩ := kg.packed hS Nat.prime_three hi hk
    have hsB : Super φ σ p (canonicalModel env Ec).B := ha.model hS.frob hS.two hi hS.neg
    obtain ⟨E', q', hF, hK, b', hC, hq', kh, _, hrun, _⟩ := runB hS
      (E := ⟨(canonicalModel env E).B, 1⟩) (hB ▸ on_one _) hsB false hQx hQo (some (evalIso (canonicalModel env E) back))
    simp only [List.map_cons]
    unfold unpackChainBLoop
    rw [hcm, lift_ok_bind]
    simp only
    unfold packCell
    rw [hrun rfl]
    cases q' with
    | none => simp [OptPEq] at hq'
    | some back' =>
      have hg := hgen (Ec, k) (by simp)
      simp only [hE.2] at hg
      have hs' := hs.step hS h3 (Or.inr rfl) ha hg hb hi hmod hB hPQ kg (hbz b₀ (by simp [hbo])) hC kh hq'
      exact ih b E' back' rfl (kg.super hS ha) hs' (kg.back_tors h2 h3 (Or.inr rfl))
        (fun c hc => hgen c (by simp [hc]))

/-- The curve reached by unpacking is isomorphic to the end of the walk. -/
def Reaches (φ : F →+* K) (σ : K →+* K) (p : ℕ) (a'' : F) (r : Option (Crv F)) : Prop :=
  ∃ E' : Crv F, r = some E' ∧ E'.C ≠ 0 ∧ Super φ σ p (E'.A / E'.C) ∧ SameJ a'' (E'.A / E'.C)

theorem unpackChainA_walk (hS : Setting φ σ p env)
    (hinj : ∀ a b : F, env.re a = env.re b → env.im a = env.im b → a = b) (h3 : (3 : K) ≠ 0)
    (po : ProvesOrder) (junk : ℕ → Pt F × Pt F)
    {a a'' : F} (ha : Super φ σ p a) {c : Crv F × Pt F} {cells : List (Crv F × Pt F)}
    {G : Pt K → Pt K} (hw : Walk φ 2 env.e2 none a (c :: cells) a'' G) (hgen : ∀ d ∈ cells, Generic (d.1.A / d.1.C)) :
    NoUB (unpackChainA env po junk (canonicalModel env c.1).B ((c :: cells).map (packCell env))) ∧
    Ret (unpackChainA env po junk (canonicalModel env c.1).B ((c :: cells).map (packCell env)))
      (Reaches φ σ p a'') := by
  have h2 := two_map φ hS.two
  cases hw with
  | @cons _ _ a' _ Ec k _ P gF gK b G' hE hk kg hbz hr =>
  obtain ⟨_, hi⟩ := hE.model hS ha
  obtain ⟨Q, hQx, hQo, hPQ⟩ := kg.packed hS Nat.prime_two hi hk
  have hsB : Super φ σ p (canonicalModel env Ec).B := ha.model hS.frob hS.two hi hS.neg
  obtain ⟨E', q', hF, hK, hrun, hC, _, kh⟩ := runA hS (on_one _) hsB hQx hQo none
  unfold unpackChainA
  simp only [List.map_cons]
  refine bindCheck po junk _ ?_
  unfold packCell
  rw [hrun, lift_ok_bind]
  simp only
  have hs := Sync.first hS h3 (Or.inl rfl) ha hi hPQ kg hC kh (back := ⟨0, 1⟩) (by rw [map_zero_one]; exact PEq.refl _)
  obtain ⟨E'', back'', e1, e2, e3, e4, e5⟩ := unpackLoopA_walk hS hinj h3 hr b E' ⟨0, 1⟩ rfl (kg.super hS ha) hs
    (kg.back_tors h2 h3 (Or.inl rfl)) hgen
  unfold packCell at e1
  rw [e1]
  change NoUB (if back''.Z = 0 then pure none else pure (some E'')) ∧
    Ret (if back''.Z = 0 then pure none else pure (some E'')) _
  simp only [e4, if_false]
  exact ⟨NoUB.pure' _, Ret.pure ⟨E'', rfl, e2, e3, e5⟩⟩

theorem unpackChainB_walk (hS : Setting φ σ p env)
    (hinj : ∀ a b : F, env.re a = env.re b → env.im a = env.im b → a = b) (h3 : (3 : K) ≠ 0)
    (po : ProvesOrder) (junk : ℕ → Pt F × Pt F)
    {a a'' : F} (ha : Super φ σ p a) {c : Crv F × Pt F} {cells : List (Crv F × Pt F)}
    {G : Pt K → Pt K} (hw : Walk φ 3 env.e3 none a (c :: cells) a'' G) (hgen : ∀ d ∈ cells, Generic (d.1.A / d.1.C)) :
    NoUB (unpackChainB env po junk (canonicalModel env c.1).B ((c :: cells).map (packCell env))) ∧
    Ret (unpackChainB env po junk (canonicalModel env c.1).B ((c :: cells).map (packCell env)))
      (Reaches φ σ p a'') := by
  have h2 := two_map φ hS.two
  cases hw with
  | @cons _ _ a' _ Ec k _ P gF gK b G' hE hk kg hbz hr =>
  obtain ⟨_, hi⟩ := hE.model hS ha
  obtain ⟨Q, hQx, hQo, hPQ⟩ := kg.packed hS Nat.prime_three hi hk
  have hsB : Super φ σ p (canonicalModel env Ec).B := ha.model hS.frob hS.two hi hS.neg
  obtain ⟨E', q', hF, hK, b', hC, _, kh, hub, _, hret⟩ := runB hS (on_one _) hsB true hQx hQo none
  unfold unpackChainB
  simp only [List.map_cons]
  refine bindCheck po junk _ ?_
  refine bindBoth hub (hret rfl) ?_
  rintro _ ⟨bk, rfl, hbk, hbnz⟩
  simp only
  have hs := Sync.first hS h3 (Or.inr rfl) ha hi hPQ kg hC kh (PEq.map φ hbk)
  obtain ⟨E'', back'', e1, e2, e3, e4, e5⟩ := unpackLoopB_walk hS hinj h3 hr b E' bk rfl (kg.super hS ha) hs
    (kg.back_tors h2 h3 (Or.inr rfl)) hgen
  rw [e1]
  change NoUB (if back''.Z = 0 then pure none else pure (some E'')) ∧
    Ret (if back''.Z = 0 then pure none else pure (some E'')) _
  simp only [e4, if_false]
  exact ⟨NoUB.pure' _, Ret.pure ⟨E'', rfl, e2, e3, e5⟩⟩

end Secuer.Curve
