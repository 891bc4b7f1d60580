import Verif.Curve.Frob

/-!
# From maps of x-coordinates to group homomorphisms

A map `f` between abelian groups that is only known to be additive up to signs, in the way a map of
x-coordinates is, agrees up to sign with a group homomorphism, provided its image is large enough.
-/

namespace Secuer.Curve

open Secuer.Mont

section abstractLift

variable {G H : Type} [AddCommGroup G] [AddCommGroup H]

/-- Equal up to sign. -/
def Pm (a b : H) : Prop := a = b ∨ a = -b

omit [AddCommGroup G] in
theorem Pm.refl (a : H) : Pm a a := Or.inl rfl

theorem Pm.symm {a b : H} (h : Pm a b) : Pm b a := by
  rcases h with rfl | rfl
  · exact Or.inl rfl
  · exact Or.inr (neg_neg _).symm

theorem Pm.trans {a b c : H} (h : Pm a b) (h' : Pm b c) : Pm a c := by
  rcases h with rfl | rfl
  · exact h'
  · rcases h' with rfl | rfl
    · exact Or.inr rfl
    · exact Or.inl (neg_neg _)

theorem Pm.neg {a b : H} (h : Pm a b) : Pm (-a) b := by
  rcases h with rfl | rfl
  · exact Or.inr rfl
  · exact Or.inl (neg_neg _)

/-- Additive up to signs. -/
structure SignHom (f : G → H) : Prop where
  add : ∀ P Q, (Pm (f (P + Q)) (f P + f Q) ∧ Pm (f (P - Q)) (f P - f Q)) ∨
    (Pm (f (P + Q)) (f P - f Q) ∧ Pm (f (P - Q)) (f P + f Q))
  big : ∀ T : Finset H, ∃ S, (2 : ℕ) • f S ∉ T

variable {f : G → H}

/-- With representatives of the signs. -/
theorem SignHom.add' (hf : SignHom f) {P Q : G} {a b : H} (ha : Pm (f P) a) (hb : Pm (f Q) b) :
    Pm (f (P + Q)) (a + b) ∨ Pm (f (P + Q)) (a - b) := by
  have h : Pm (f (P + Q)) (f P + f Q) ∨ Pm (f (P + Q)) (f P - f Q) := by
    rcases hf.add P Q with h | h
    · exact Or.inl h.1
    · exact Or.inr h.1
  rcases ha with ha | ha <;> rcases hb with hb | hb <;> rw [ha, hb] at h
  · exact h
  · rw [sub_neg_eq_add, ← sub_eq_add_neg] at h; exact h.symm
  · rcases h with h | h
    · exact Or.inr (by have := h.symm.neg.symm; rwa [show -(-a + b) = a - b by abel] at this)
    · exact Or.inl (by have := h.symm.neg.symm; rwa [show -(-a - b) = a + b by abel] at this)
  · rcases h with h | h
    · exact Or.inl (by have := h.symm.neg.symm; rwa [show -(-a + -b) = a + b by abel] at this)
    · exact Or.inr (by have := h.symm.neg.symm; rwa [show -(-a - -b) = a - b by abel] at this)

theorem SignHom.sub' (hf : SignHom f) {P Q : G} {a b : H} (ha : Pm (f P) a) (hb : Pm (f Q) b) :
    Pm (f (P - Q)) (a + b) ∨ Pm (f (P - Q)) (a - b) := by
  have h : Pm (f (P - Q)) (f P + f Q) ∨ Pm (f (P - Q)) (f P - f Q) := by
    rcases hf.add P Q with h | h
    · exact Or.inr h.2
    · exact Or.inl h.2
  rcases ha with ha | ha <;> rcases hb with hb | hb <;> rw [ha, hb] at h
  · exact h
  · rw [sub_neg_eq_add, ← sub_eq_add_neg] at h; exact h.symm
  · rcases h with h | h
    · exact Or.inr (by have := h.symm.neg.symm; rwa [show -(-a + b) = a - b by abel] at this)
    · exact Or.inl (by have := h.symm.neg.symm; rwa [show -(-a - b) = a + b by abel] at this)
  · rcases h with h | h
    · exact Or.inl (by have := h.symm.neg.symm; rwa [show -(-a + -b) = a + b by abel] at this)
    · exact Or.inr (by have := h.symm.neg.symm; rwa [show -(-a - -b) = a - b by abel] at this)

/-- A choice of signs relative to a fixed point `P₁`. -/
theorem SignHom.exists_sign (hf : SignHom f) (P₁ : G) : ∃ ψ : G → H,
    ∀ P, Pm (f P) (ψ P) ∧ Pm (f (P + P₁)) (ψ P + f P₁) := by
  have : ∀ P, ∃ a, Pm (f P) a ∧ Pm (f (P + P₁)) (a + f P₁) := by
    intro P
    rcases hf.add' (Pm.refl (f P)) (Pm.refl (f P₁)) with h | h
    · exact ⟨f P, Pm.refl _, h⟩
    · exact ⟨-f P, (Pm.refl _).symm.neg.symm, by
        have := h.symm.neg.symm; rwa [show -(f P - f P₁) = -f P + f P₁ by abel] at this⟩
  choose ψ hψ using this
  exact ⟨ψ, hψ⟩

/-- The values excluded in the generic case. -/
def Gen (q a b : H) : Prop :=
  (2 : ℕ) • q ≠ 0 ∧ (2 : ℕ) • (a + q) ≠ 0 ∧ (2 : ℕ) • (b + q) ≠ 0 ∧
    (2 : ℕ) • (a + b + q) ≠ 0 ∧ (2 : ℕ) • (a - b) ≠ 0

theorem gen_add (hf : SignHom f) {P₁ : G} {ψ : G → H}
    (hψ : ∀ P, Pm (f P) (ψ P) ∧ Pm (f (P + P₁)) (ψ P + f P₁)) {P Q : G} (hg : Gen (f P₁) (ψ P) (ψ Q)) :
    ψ (P + Q) = ψ P + ψ Q := by
  obtain ⟨g1, g2, g3, g5, g7⟩ := hg
  obtain ⟨hP, hP1⟩ := hψ P
  obtain ⟨hQ, hQ1⟩ := hψ Q
  obtain ⟨hc, hc1⟩ := hψ (P + Q)
  set a := ψ P
  set b := ψ Q
  set c := ψ (P + Q)
  set q := f P₁
  have hcc : Pm c (a + b) ∨ Pm c (a - b) := by
    rcases hf.add' hP hQ with h | h
    · exact Or.inl (hc.symm.trans h)
    · exact Or.inr (hc.symm.trans h)
  have e1 : P + P₁ + Q = P + Q + P₁ := by abel
  have e2 : Q + P₁ + P = P + Q + P₁ := by abel
  have v1 := hf.add' hP1 hQ
  have v2 := hf.add' hQ1 hP
  rw [e1] at v1
  rw [e2] at v2
  have main : Pm (c + q) (a + b + q) ∨ (Pm (c + q) (a - b + q) ∧ Pm (c + q) (b - a + q)) := by
    rcases v1 with h | h
    · left; have := hc1.symm.trans h; rwa [show a + q + b = a + b + q by abel] at this
    · rcases v2 with h' | h'
      · left; have := hc1.symm.trans h'; rwa [show b + q + a = a + b + q by abel] at this
      · right
        have t1 := hc1.symm.trans h
        have t2 := hc1.symm.trans h'
        rw [show a + q - b = a - b + q by abel] at t1
        rw [show b + q - a = b - a + q by abel] at t2
        exact ⟨t1, t2⟩
  rcases main with h | ⟨h, h'⟩
  · rcases h with h | h
    · exact add_right_cancel h
    · exfalso
      have hc' : c = -(a + b + q) - q := by rw [← h]; abel
      rcases hcc with (h1 | h1) | (h1 | h1)
      · apply g5; rw [h1] at hc'
        have : (2 : ℕ) • (a + b + q) = a + b - (-(a + b + q) - q) := by rw [two_nsmul]; abel
        rw [this, ← hc', sub_self]
      · apply g1; rw [h1] at hc'
        have : (2 : ℕ) • q = -(a + b) - (-(a + b + q) - q) := by rw [two_nsmul]; abel
        rw [this, ← hc', sub_self]
      · apply g2; rw [h1] at hc'
        have : (2 : ℕ) • (a + q) = a - b - (-(a + b + q) - q) := by rw [two_nsmul]; abel
        rw [this, ← hc', sub_self]
      · apply g3; rw [h1] at hc'
        have : (2 : ℕ) • (b + q) = -(a - b) - (-(a + b + q) - q) := by rw [two_nsmul]; abel
        rw [this, ← hc', sub_self]
  · exfalso
    rcases h.symm.trans h' with h | h
    · apply g7
      have : (2 : ℕ) • (a - b) = a - b + q - (b - a + q) := by rw [two_nsmul]; abel
      rw [this, h, sub_self]
    · apply g1
      have : (2 : ℕ) • q = a - b + q - -(b - a + q) := by rw [two_nsmul]; abel
      rw [this, h, sub_self]

/-- A statement about `S` that holds unless `2 f(S)` lies in some finite set. -/
def Ev (f : G → H) (p : G → Prop) : Prop := ∃ T : Finset H, ∀ S, (2 : ℕ) • f S ∉ T → p S

theorem Ev.and {p q : G → Prop} (h : Ev f p) (h' : Ev f q) : Ev f (fun S => p S ∧ q S) := by
  classical
  obtain ⟨T, hT⟩ := h
  obtain ⟨T', hT'⟩ := h'
  exact ⟨T ∪ T', fun S hS => ⟨hT S fun h => hS (Finset.mem_union_left _ h),
    hT' S fun h => hS (Finset.mem_union_right _ h)⟩⟩

theorem Ev.mono {p q : G → Prop} (h : Ev f p) (hpq : ∀ S, p S → q S) : Ev f q := by
  obtain ⟨T, hT⟩ := h
  exact ⟨T, fun S hS => hpq S (hT S hS)⟩

theorem Ev.exists {p : G → Prop} (hf : SignHom f) (h : Ev f p) : ∃ S, p S := by
  obtain ⟨T, hT⟩ := h
  obtain ⟨S, hS⟩ := hf.big T
  exact ⟨S, hT S hS⟩

/-- `2 f(S)` differs from any given value, up to sign. -/
theorem Ev.ne {ψ : G → H} (hψ : ∀ P, Pm (f P) (ψ P)) (t : H) : Ev f (fun S => (2 : ℕ) • ψ S ≠ t) := by
  classical
  refine ⟨{t, -t}, fun S hS h => hS ?_⟩
  rw [Finset.mem_insert, Finset.mem_singleton]
  rcases hψ S with h' | h'
  · left; rw [h', h]
  · right; rw [h', smul_neg, h]

theorem Ev.translate (hf : SignHom f) {p : G → Prop} (h : Ev f p) (Q : G) : Ev f (fun S => p (Q + S)) := by
  classical
  obtain ⟨T, hT⟩ := h
  let c := (2 : ℕ) • f Q
  refine ⟨T.image (fun t => t - c) ∪ T.image (fun t => -t - c) ∪ T.image (fun t => c - t) ∪
    T.image (fun t => c + t), fun S hS => hT _ fun hm => hS ?_⟩
  simp only [Finset.mem_union, Finset.mem_image]
  have key : f S + f S = (2 : ℕ) • f S := (two_nsmul _).symm
  rcases hf.add' (Pm.refl (f Q)) (Pm.refl (f S)) with (h | h) | (h | h)
  · left; left; left
    exact ⟨_, hm, by simp only [c, h, two_nsmul]; abel⟩
  · left; left; right
    exact ⟨_, hm, by simp only [c, h, two_nsmul]; abel⟩
  · left; right
    exact ⟨_, hm, by simp only [c, h, two_nsmul]; abel⟩
  · right
    exact ⟨_, hm, by simp only [c, h, two_nsmul]; abel⟩

/-- A map that is additive up to signs is a group homomorphism up to signs. -/
theorem SignHom.lift (hf : SignHom f) : ∃ Ψ : G →+ H, ∀ P, Pm (f P) (Ψ P) := by
  obtain ⟨P₁, hP₁⟩ := hf.big {0}
  have hq : (2 : ℕ) • f P₁ ≠ 0 := fun h => hP₁ (by rw [h]; exact Finset.mem_singleton_self _)
  obtain ⟨ψ, hψ⟩ := hf.exists_sign P₁
  have hψ0 : ∀ P, Pm (f P) (ψ P) := fun P => (hψ P).1
  have gen : ∀ X, (2 : ℕ) • (ψ X + f P₁) ≠ 0 → Ev f (fun S => ψ (X + S) = ψ X + ψ S) := by
    intro X hX
    refine (((Ev.ne hψ0 (-((2 : ℕ) • f P₁))).and (Ev.ne hψ0 (-((2 : ℕ) • (ψ X + f P₁))))).and
      (Ev.ne hψ0 ((2 : ℕ) • ψ X))).mono ?_
    rintro S ⟨⟨h1, h2⟩, h3⟩
    refine gen_add hf hψ ⟨hq, hX, fun h => h1 ?_, fun h => h2 ?_, fun h => h3 ?_⟩
    · rw [smul_add] at h; exact eq_neg_of_add_eq_zero_left h
    · rw [show ψ X + ψ S + f P₁ = ψ S + (ψ X + f P₁) by abel, smul_add] at h
      exact eq_neg_of_add_eq_zero_left h
    · rw [smul_sub] at h; exact (sub_eq_zero.1 h).symm
  have good : Ev f (fun S => (2 : ℕ) • (ψ S + f P₁) ≠ 0) :=
    (Ev.ne hψ0 (-((2 : ℕ) • f P₁))).mono fun S h h' => h (by
      rw [smul_add] at h'; exact eq_neg_of_add_eq_zero_left h')
  have val : ∀ P, ∃ v, Ev f (fun S => ψ (P + S) - ψ S = v) := by
    intro P
    obtain ⟨S₀, h0, h0'⟩ := Ev.exists hf (good.and (good.translate hf P))
    refine ⟨ψ (P + S₀) - ψ S₀, (((gen S₀ h0).translate hf P).and (gen (P + S₀) h0')).mono ?_⟩
    rintro S ⟨h1, h2⟩
    rw [show S₀ + (P + S) = P + S₀ + S by abel, h2] at h1
    rw [sub_eq_sub_iff_add_eq_add, add_comm (ψ (P + S)), ← h1]
  choose Ψ hΨ using val
  refine ⟨AddMonoidHom.mk' Ψ fun P Q => ?_, fun P => ?_⟩
  · obtain ⟨S, ⟨h1, h2⟩, h3⟩ := Ev.exists hf (((hΨ (P + Q)).and (hΨ Q)).and ((hΨ P).translate hf Q))
    rw [← h1, ← h2, ← h3, show P + (Q + S) = P + Q + S by abel]
    abel
  · obtain ⟨S, ⟨h1, h2⟩, h3⟩ := Ev.exists hf (((hΨ P).and (Ev.ne hψ0 (f P - Ψ P))).and
      (Ev.ne hψ0 (-f P - Ψ P)))
    have := hf.sub' (hψ0 (P + S)) (hψ0 S)
    rw [add_sub_cancel_right] at this
    rw [AddMonoidHom.mk'_apply]
    rcases this with h | h
    · exfalso
      have e : ψ (P + S) + ψ S = Ψ P + (2 : ℕ) • ψ S := by rw [← h1, two_nsmul]; abel
      rw [e] at h
      rcases h with h | h
      · exact h2 (by rw [h]; abel)
      · exact h3 (by rw [h]; abel)
    · rwa [h1] at h

end abstractLift

section curves

variable {K : Type} [Field K] [DecidableEq K] [IsAlgClosed K] {A A' : K}

open Polynomial in
/-- Twice a point avoids any given finite set of points, for suitable points. -/
theorem exists_double_not_mem (h2 : (2 : K) ≠ 0) (hA : A ^ 2 ≠ 4) (T : Finset (W A).Point) :
    ∃ S : (W A).Point, (2 : ℕ) • S ∉ T := by
  classical
  haveI : Infinite K := IsAlgClosed.instInfinite
  have fin : ∀ t : (W A).Point, {x : K | ∃ y h, (2 : ℕ) • (WeierstrassCurve.Affine.Point.some x y h :
      (W A).Point) = t}.Finite := by
    intro t
    let u := xr t
    let q : K[X] := C u.Z * (X ^ 2 - 1) ^ 2 - C (4 * u.X) * (X * (X ^ 2 + C A * X + 1))
    have h4 := four_ne_zero_of h2
    have hq : q ≠ 0 := by
      intro h0
      have e0 : q.eval 0 = u.Z := by simp [q]
      have e1 : q.eval 1 = -(4 * u.X * (A + 2)) := by
        simp only [q, eval_sub, eval_mul, eval_C, eval_pow, eval_X, eval_one, eval_add]; ring
      rw [h0, eval_zero] at e0 e1
      rcases xr_nz t with hn | hn
      · have : 4 * u.X * (A + 2) = 0 := by linear_combination e1
        have hA2 : A + 2 ≠ 0 := fun h => hA (by
          have : A = -2 := by linear_combination h
          rw [this]; norm_num)
        exact (mul_ne_zero (mul_ne_zero h4 hn) hA2) this
      · exact hn e0.symm
    refine (q.roots.toFinset.finite_toSet).subset ?_
    rintro x ⟨y, h, e⟩
    have hr := double_rep h2 h
    rw [e] at hr
    obtain ⟨k, hk, k1, k2⟩ := hr
    simp only [Finset.mem_coe, Multiset.mem_toFinset]
    rw [mem_roots hq, IsRoot]
    simp only [q, eval_sub, eval_mul, eval_C, eval_pow, eval_X, eval_one, eval_add]
    simp only at k1 k2
    linear_combination (u.Z) * k1 - u.X * k2
  have hfin : (⋃ t ∈ T, {x : K | ∃ y h, (2 : ℕ) • (WeierstrassCurve.Affine.Point.some x y h :
      (W A).Point) = t}).Finite := T.finite_toSet.biUnion fun t _ => fin t
  obtain ⟨x, hx⟩ := hfin.exists_notMem
  obtain ⟨P, hP⟩ := exists_rep (A := A) h2 hA (p := ⟨x, 1⟩) (Or.inr one_ne_zero)
  refine ⟨P, fun hm => hx ?_⟩
  rcases P with _ | ⟨x', y, h⟩
  · exact absurd ((rep_zero_iff _).1 hP).1 one_ne_zero
  · obtain ⟨-, e⟩ := (rep_some_iff _ _).1 hP
    have e : x = x' := by simpa using e
    subst e
    exact Set.mem_biUnion hm ⟨y, h, rfl⟩

/-- A surjective map of x-coordinates compatible with differential addition is induced by a group
homomorphism. -/
theorem XHom.exists_hom (h2 : (2 : K) ≠ 0) (hA : A ^ 2 ≠ 4) (hA' : A' ^ 2 ≠ 4) {g : Pt K → Pt K}
    (hg : XHom A A' g) (hs : Surj g) :
    ∃ ψ : (W A).Point →+ (W A').Point, Function.Surjective ψ ∧ ∀ P p, Rep p P → Rep (g p) (ψ P) := by
  have : ∀ P : (W A).Point, ∃ P' : (W A').Point, Rep (g (xr P)) P' := fun P =>
    exists_rep h2 hA' (hg.nz _ (xr_nz P))
  choose f hf using this
  have pm : ∀ {p : Pt K} {P Q : (W A').Point}, Rep p P → Rep p Q → Pm P Q := fun h h' => h.eq_or_neg h'
  have sur : ∀ T : (W A').Point, ∃ P, Pm (f P) T := by
    intro T
    obtain ⟨p, hp, e⟩ := hs (xr T) (xr_nz T)
    obtain ⟨P, hP⟩ := exists_rep (A := A) h2 hA hp
    exact ⟨P, pm ((hf P).peq ((hg.congr _ _ hP).trans e)) (rep_xr T)⟩
  have sh : SignHom f := by
    refine ⟨fun P Q => ?_, fun T => ?_⟩
    · rcases hg.add_sub h2 (rep_xr P) (rep_xr Q) (rep_xr (P + Q)) (rep_xr (P - Q)) (hf P) (hf Q) with h | h
      · exact Or.inl ⟨pm (hf _) h.1, pm (hf _) h.2⟩
      · exact Or.inr ⟨pm (hf _) h.1, pm (hf _) h.2⟩
    · classical
      obtain ⟨S, hS⟩ := exists_double_not_mem h2 hA' (T ∪ T.image (fun t => -t))
      rw [Finset.mem_union, not_or] at hS
      obtain ⟨P, hP⟩ := sur S
      refine ⟨P, fun hm => ?_⟩
      rcases hP with e | e
      · rw [e] at hm; exact hS.1 hm
      · rw [e, smul_neg] at hm
        exact hS.2 (Finset.mem_image.2 ⟨_, hm, neg_neg _⟩)
  obtain ⟨ψ, hψ⟩ := sh.lift
  have hrep : ∀ P p, Rep p P → Rep (g p) (ψ P) := by
    intro P p hp
    have h := (hf P).peq (hg.congr _ _ hp)
    rcases hψ P with e | e
    · rwa [← e]
    · rw [e] at h; have := h.neg; rwa [neg_neg] at this
  refine ⟨ψ, fun T => ?_, hrep⟩
  obtain ⟨P, hP⟩ := sur T
  rcases hP.symm.trans (hψ P) with e | e
  · exact ⟨P, e.symm⟩
  · exact ⟨-P, by rw [map_neg, ← e]⟩

/-- A cyclic isogeny given on x-coordinates is a surjective group homomorphism with cyclic kernel. -/
theorem Cyc.exists_hom {ℓ n : ℕ} {g : Pt K → Pt K} {P : (W A).Point} {b : Pt K} (h2 : (2 : K) ≠ 0)
    (c : Cyc ℓ n A A' g P b) : ∃ ψ : (W A).Point →+ (W A').Point, Function.Surjective ψ ∧
      (∀ R r, Rep r R → Rep (g r) (ψ R)) ∧ ψ.ker = AddSubgroup.zmultiples P := by
  obtain ⟨ψ, hs, hr⟩ := XHom.exists_hom h2 c.src c.tgt c.hom c.surj
  refine ⟨ψ, hs, hr, ?_⟩
  ext R
  rw [AddMonoidHom.mem_ker, ← c.ker R, (hr R _ (rep_xr R)).Z_iff]

end curves

end Secuer.Curve
