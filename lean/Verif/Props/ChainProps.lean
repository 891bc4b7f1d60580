import Verif.Field.Level
import Verif.Curve.Torsion
import Verif.Curve.Can
import Verif.Props.CurveProps
import Verif.Util.Scalar

/-!
# Properties C27-C29, C40, C41, C59-C61: the curve check and chains of isogenies

Stated for the four parameter sets: `l.F` is `GF(p²)`, `l.env` holds the tables, the square root and the
encoding, `l.po` is `proves_order`. The specification speaks of Mathlib's group of points of `y² = x³ + A x² + x`
over `GF(p²)` and over an algebraic closure `l.K`.
-/

namespace Secuer.ChainProps

open Secuer.Curve Secuer.Mont Secuer.Field Secuer.CurveProps

variable (l : Level)

/-- The curve is nonsingular and has `(p + 1)²` points over `GF(p²)`. -/
def RightOrder (A : l.F) : Prop := A ^ 2 ≠ 4 ∧ Nat.card (W A).Point = (l.p + 1) ^ 2

/-- The contents of uninitialised stack memory. -/
abbrev Junk := ℕ → Pt l.F × Pt l.F

theorem rightOrder_zero : RightOrder l 0 := ⟨zero_sq_ne_four, card_zero (by have := l.p_big; omega)⟩

theorem card_F : Fintype.card l.F = l.p ^ 2 := card_fp2

theorem rightOrder_iff {A : l.F} : RightOrder l A ↔ Super l.φ l.σ l.p A :=
  ⟨fun h => super_of_card l.two h.1 (card_F l) l.eight l.three h.2,
    fun h => ⟨h.1, h.card l.setting.frob l.two l.three_ne l.setting.order⟩⟩

/-! ### C27: soundness of the check -/

/-- **C27.** Whatever the random choices and the memory, a coefficient that `Check_Curve` accepts belongs to a
nonsingular curve with exactly `(p + 1)²` points over `GF(p²)`. -/
theorem c27_check_sound (junk : Junk l) (A : l.F) (t t' : Tape l.F)
    (h : checkCurve l.env l.po junk ⟨A, 1⟩ t = .ok (true, t')) : RightOrder l A :=
  checkCurve_sound l.po l.orderTest junk l.two l.three_ne (by cases l <;> decide) (card_F l) l.setting.order A
    t true t' h rfl

/-! ### C28: completeness of the check -/

/-- **C28.** If `p + 1` kills all points of a nonsingular curve, `Check_Curve` does not answer false. -/
theorem c28_check_complete (junk : Junk l) {A : l.F} (hA : A ^ 2 ≠ 4)
    (hk : ∀ X : (W A).Point, (l.p + 1) • X = 0) (t t' : Tape l.F) :
    checkCurve l.env l.po junk ⟨A, 1⟩ t ≠ .ok (false, t') := by
  intro h
  have := checkCurve_false l.po junk l.two hA (by rw [← l.setting.order]; exact hk) t false t' h
  cases this

/-- **C28**, for the curves of the right order. -/
theorem c28_right_order (junk : Junk l) {A : l.F} (h : RightOrder l A) (t t' : Tape l.F) :
    checkCurve l.env l.po junk ⟨A, 1⟩ t ≠ .ok (false, t') :=
  c28_check_complete l junk h.1 (fun X => ((rightOrder_iff l).1 h).kill l.setting.frob X) t t'

/-- **C27 and C28** together: the verdict, if one is reached, is the right one. -/
theorem c27_c28_verdict (junk : Junk l) (A : l.F) (t t' : Tape l.F) (b : Bool)
    (h : checkCurve l.env l.po junk ⟨A, 1⟩ t = .ok (b, t')) : b = true ↔ RightOrder l A := by
  cases b with
  | true => exact ⟨fun _ => c27_check_sound l junk A t t' h, fun _ => rfl⟩
  | false => exact ⟨(fun h => by cases h), fun ho => absurd h (c28_right_order l junk ho t t')⟩

/-- **C27 and C28.** `Check_Curve` can accept exactly the curves of the right order: for each of them there are random
values that make it answer true. -/
theorem c28_accepts_iff (junk : Junk l) (A : l.F) :
    (∃ t t', checkCurve l.env l.po junk ⟨A, 1⟩ t = .ok (true, t')) ↔ RightOrder l A := by
  refine ⟨fun ⟨t, t', h⟩ => c27_check_sound l junk A t t' h, fun h => ?_⟩
  obtain ⟨s, a, rfl, hs⟩ := checkCurve_can l.setting l.three_ne l.po junk (by cases l <;> decide) (by cases l <;> decide)
    (by cases l <;> decide +kernel) (by cases l <;> decide +kernel) ((rightOrder_iff l).1 h)
  exact ⟨_, s, hs s⟩

example : ∃ t t', checkCurve Level.l434.env Level.l434.po (fun _ => (⟨0, 0⟩, ⟨0, 0⟩)) ⟨0, 1⟩ t = .ok (true, t') :=
  (c28_accepts_iff .l434 _ 0).2 (rightOrder_zero _)

/-- The check has no undefined behaviour. -/
theorem c28_no_ub (junk : Junk l) (E : Crv l.F) (t : Tape l.F) : checkCurve l.env l.po junk E t ≠ .ub :=
  checkCurve_noUB l.po junk E t

example (X : (W (0 : Level.l434.F)).Point) : (Level.l434.p + 1) • X = 0 :=
  ((rightOrder_iff .l434).1 (rightOrder_zero .l434)).kill Level.l434.setting.frob X

/-! ### C29: uninitialised memory -/

/-- **C29.** `Check_Curve` compares an uninitialised point; the outcome does not depend on its content. -/
theorem c29_uninitialised (junk junk' : Junk l) (E : Crv l.F) (t : Tape l.F) :
    checkCurve l.env l.po junk E t = checkCurve l.env l.po junk' E t := by
  rw [checkCurve_junk l.po junk junk' E]

/-! ### C59: singular coefficients -/

/-- **C59.** A singular coefficient is never accepted. -/
theorem c59_singular (junk : Junk l) {A : l.F} (hA : A = 2 ∨ A = -2) (t t' : Tape l.F) :
    checkCurve l.env l.po junk ⟨A, 1⟩ t ≠ .ok (true, t') := by
  intro h
  refine (c27_check_sound l junk A t t' h).1 ?_
  rcases hA with rfl | rfl <;> norm_num

/-! ### C60: Hasse's bound and the Frobenius endomorphism -/

/-- **C60.** Hasse's bound for the curves of the protocol, which the test in `proves_order` relies on. -/
theorem c60_hasse {A : l.F} (hA : A ^ 2 ≠ 4) :
    (l.p - 1) ^ 2 ≤ Nat.card (W A).Point ∧ Nat.card (W A).Point ≤ (l.p + 1) ^ 2 :=
  Manin.hasse l.two hA (card_F l)

/-- **C60.** On a curve of the right order the `p²`-power Frobenius is multiplication by `-p`; in particular it
commutes with every homomorphism, and all subgroups are defined over `GF(p²)`. -/
theorem c60_frobenius {A : l.F} (h : RightOrder l A) (x y : l.K) (hn : (W (l.φ A)).Nonsingular x y) :
    ∃ h', (.some (x ^ l.p ^ 2) (y ^ l.p ^ 2) h' : (W (l.φ A)).Point) = -(l.p • .some x y hn) := by
  have := ((rightOrder_iff l).1 h).2 x y hn
  simp only [Level.σ, frobK_apply, card_F] at this
  exact this

/-! ### C61: the default starting curve -/

/-- **C61.** The curve `y² = x³ + x` that the tools start from by default has `(p + 1)²` points and is never
rejected. -/
theorem c61_start_curve (junk : Junk l) (t t' : Tape l.F) :
    RightOrder l 0 ∧ checkCurve l.env l.po junk ⟨0, 1⟩ t ≠ .ok (false, t') :=
  ⟨rightOrder_zero l, c28_right_order l junk (rightOrder_zero l) t t'⟩

/-! ### C40: accepted chains are cyclic -/

/-- There is an isogeny over `GF(p²)` from the curve `a` to the curve `a'` with cyclic kernel of order `d`:
a surjective homomorphism on the points over the algebraic closure, given on x-coordinates by two forms of degree `d`
with coefficients in `GF(p²)`. -/
def CyclicIsogeny (d : ℕ) (a a' : l.F) : Prop :=
  ∃ (ψ : (W (l.φ a)).Point →+ (W (l.φ a')).Point) (P : (W (l.φ a)).Point) (N D : MvPolynomial (Fin 2) l.F),
    Function.Surjective ψ ∧ ψ.ker = AddSubgroup.zmultiples P ∧ addOrderOf P = d ∧
    N.IsHomogeneous d ∧ D.IsHomogeneous d ∧
    ∀ q Q, IsX q Q → IsX ⟨N.eval₂ l.φ ![q.X, q.Z], D.eval₂ l.φ ![q.X, q.Z]⟩ (ψ Q)

theorem cyclicIsogeny_of {ℓ n : ℕ} (hℓ : ℓ.Prime) {a a' : l.F} {gK : Pt l.K → Pt l.K} {P : (W (l.φ a)).Point} {b : Pt l.K}
    (c : Cyc ℓ n (l.φ a) (l.φ a') gK P b) (hd : DefOver l.φ (ℓ ^ n) gK) : CyclicIsogeny l (ℓ ^ n) a a' := by
  obtain ⟨ψ, hs, hr, hk⟩ := c.exists_hom (two_map l.φ l.two)
  obtain ⟨N, D, hN, hD, hg⟩ := hd
  refine ⟨ψ, P, N, D, hs, hk, ?_, hN, hD, fun q Q hq => ?_⟩
  · haveI := Fact.mk hℓ
    have hn := c.pos
    obtain ⟨m, rfl⟩ : ∃ m, n = m + 1 := ⟨n - 1, by omega⟩
    exact addOrderOf_eq_prime_pow c.exact c.kill
  · rw [isX_iff] at hq ⊢
    rw [← hg]
    exact hr Q q hq

/-- What C40 says about the outcome of unpacking a chain. -/
def ChainOutcome (d : ℕ) (a : l.F) : Out (Option (Crv l.F) × Tape l.F) → Prop
  | .ok (some E, _) => E.C ≠ 0 ∧ RightOrder l (E.A / E.C) ∧ CyclicIsogeny l d a (E.A / E.C)
  | .ok (none, _) => True
  | .abort => True
  | .starved => True
  | .ub => False

theorem chainOutcome_of {ℓ n : ℕ} (hℓ : ℓ.Prime) {a : l.F} {m : M l.F (Option (Crv l.F))} (hu : NoUB m)
    (hr : Ret m (fun r => ∀ E', r = some E' → ChainTo l.φ l.σ l.p ℓ n a E')) (t : Tape l.F) :
    ChainOutcome l (ℓ ^ n) a (m t) := by
  rcases hv : m t with ⟨r, t'⟩ | _ | _ | _
  · cases r with
    | none => exact trivial
    | some E =>
      obtain ⟨hC, hs, gK, P, b, hc, hd⟩ := hr t _ t' hv E rfl
      exact ⟨hC, (rightOrder_iff l).2 hs, cyclicIsogeny_of l hℓ hc hd⟩
  · exact trivial
  · exact hu t hv
  · exact trivial

/-- **C40**, 2-power chains. From a curve of the right order, `Unpack_Chain_A` on any nonempty list of
x-coordinates either fails or ends at a curve of the right order that is connected with the first by an isogeny with
*cyclic* kernel of order `2^(e2 * length)`: no step undoes a part of the previous ones. -/
theorem c40_chain_A (junk : Junk l) {a : l.F} (ha : RightOrder l a) {xs : List l.F} (hx : xs ≠ []) (t : Tape l.F) :
    ChainOutcome l (2 ^ (l.iso.e2 * xs.length)) a (unpackChainA l.env l.po junk a xs t) := by
  obtain ⟨h1, h2⟩ := unpackChainA_spec l.setting l.po junk ((rightOrder_iff l).1 ha) hx
  exact chainOutcome_of l Nat.prime_two h1 h2 t

/-- **C40**, 3-power chains. -/
theorem c40_chain_B (junk : Junk l) {a : l.F} (ha : RightOrder l a) {xs : List l.F} (hx : xs ≠ []) (t : Tape l.F) :
    ChainOutcome l (3 ^ (l.iso.e3 * xs.length)) a (unpackChainB l.env l.po junk a xs t) := by
  obtain ⟨h1, h2⟩ := unpackChainB_spec l.setting l.po junk ((rightOrder_iff l).1 ha) hx
  exact chainOutcome_of l Nat.prime_three h1 h2 t

example (t : Tape Level.l434.F) : ChainOutcome .l434 (2 ^ (216 * 2)) 0
    (unpackChainA Level.l434.env Level.l434.po (fun _ => (⟨0, 0⟩, ⟨0, 0⟩)) 0 [1, 2] t) :=
  c40_chain_A .l434 _ (rightOrder_zero _) (by simp) t

/-! ### C41: random odd scalars -/

theorem exponent_e2 : Scalar.Exponent l.iso.e2 := by cases l <;> simp [Scalar.Exponent] <;> decide

/-- **C41.** The scalar is drawn as `SECRETKEY_A_BYTES` random bytes, of which the last is masked and the first made odd.
Its multiple of a kernel generator is again a generator, and every generator of the kernel arises from the same number
of byte strings. -/
theorem c41_uniform {G : Type} [AddCommGroup G] {P Q : G} (hP : addOrderOf P = 2 ^ l.iso.e2)
    (hQ : AddSubgroup.zmultiples Q = AddSubgroup.zmultiples P) :
    Nat.card {bs : List UInt8 // bs.length = (l.iso.e2 + 7) / 8 ∧
      Scalar.oddScalar (Scalar.maskAlice l.iso.e2) bs • P = Q} = 2 ^ (8 * ((l.iso.e2 + 7) / 8) - l.iso.e2 + 1) :=
  Scalar.card_generator (exponent_e2 l) hP hQ

theorem c41_generator {G : Type} [AddCommGroup G] {P : G} (hP : addOrderOf P = 2 ^ l.iso.e2) {bs : List UInt8}
    (hl : bs.length = (l.iso.e2 + 7) / 8) :
    AddSubgroup.zmultiples (Scalar.oddScalar (Scalar.maskAlice l.iso.e2) bs • P) = AddSubgroup.zmultiples P :=
  Scalar.oddScalar_generator (exponent_e2 l) hP hl

/-- What `Pack_Chain_A` draws and computes, if the random bytes are `bs`: the x-coordinate of that multiple. -/
theorem c41_code {bs : List UInt8} (hl : bs.length = (l.iso.e2 + 7) / 8) (pts : List l.F) (hide : List (List UInt8))
    (ms : List ℕ) {a : l.F} {p : Pt l.F} {P : (W a).Point} (hp : IsX p P)
    (hP : addOrderOf P = 2 ^ l.iso.e2) :
    ∃ s, randomOdd l.env ⟨pts, hide, Scalar.leNat bs :: ms⟩ = .ok (s, ⟨pts, hide, ms⟩) ∧
      IsX (ladder p s a l.iso.e2) (Scalar.oddScalar (Scalar.maskAlice l.iso.e2) bs • P) := by
  refine ⟨_, rfl, ?_⟩
  change IsX (ladder p (Scalar.leNat bs % 2 ^ l.iso.e2 ||| 1) a l.iso.e2) _
  rw [← Scalar.oddScalar_eq (exponent_e2 l) hl]
  obtain ⟨s, hs⟩ : ∃ s, s = Scalar.oddScalar (Scalar.maskAlice l.iso.e2) bs := ⟨_, rfl⟩
  have hlt : s < 2 ^ l.iso.e2 := by
    rw [hs, Scalar.oddScalar_eq (exponent_e2 l) hl, Scalar.or_one]
    have := Nat.mod_lt (Scalar.leNat bs) (show 0 < 2 ^ l.iso.e2 by positivity)
    have h1 : 1 ≤ l.iso.e2 := by cases l <;> decide
    have h2 : 2 ^ l.iso.e2 = 2 * 2 ^ (l.iso.e2 - 1) := by rw [← pow_succ']; congr 1; omega
    omega
  rw [← hs]
  rw [isX_iff] at hp ⊢
  have h4 : ¬ 2 ^ l.iso.e2 ∣ 2 := fun h => by
    have := Nat.le_of_dvd (by norm_num) h
    exact absurd this (not_le.2 (by cases l <;> decide +kernel))
  have hZ : p.Z ≠ 0 := by
    intro h
    rw [hp.Z_iff.1 h, addOrderOf_zero] at hP
    exact h4 (hP ▸ one_dvd 2)
  have hX : p.X ≠ 0 := by
    intro h
    apply h4
    rw [← hP]
    apply addOrderOf_dvd_of_nsmul_eq_zero
    cases P with
    | zero => exact absurd (hp.Z_iff.2 rfl) hZ
    | some x y hn =>
      obtain ⟨_, e⟩ := (rep_some_iff hn p).1 hp
      rw [h] at e
      obtain rfl : x = 0 := (mul_eq_zero.1 e.symm).resolve_right hZ
      have hy := (W_equation _ _ _).1 hn.1
      obtain rfl : y = 0 := by simpa using hy
      rw [two_nsmul, add_eq_zero_iff_eq_neg, WeierstrassCurve.Affine.Point.neg_some]
      simp
  have := ladder_rep l.two hp hX hZ s l.iso.e2
  rwa [Nat.mod_eq_of_lt hlt] at this

example : addOrderOf (1 : ZMod (2 ^ Level.l434.iso.e2)) = 2 ^ Level.l434.iso.e2 := ZMod.addOrderOf_one _

end Secuer.ChainProps
