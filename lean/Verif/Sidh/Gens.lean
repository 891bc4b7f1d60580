import Verif.Sidh.Agree
import Verif.Field.Level

/-!
# The generators of the four parameter sets

`A_gen` and `B_gen` are x-coordinates of bases of the `2^e2`- and the `3^e3`-torsion of the curve with coefficient 6, and of their
differences. The points are multiplied out in the kernel, on pairs of natural numbers modulo `p`.
-/

namespace Secuer.Sidh

open Secuer.Curve Secuer.Mont Secuer.Field Secuer.Word

/-! ### Arithmetic on pairs of natural numbers, evaluated eagerly -/

/-- `k n`, with `n` evaluated first. -/
def force (n : ℕ) (k : ℕ → Bool) : Bool := Nat.rec (k 0) (fun m _ => k (m + 1)) n

theorem force_eq (n : ℕ) (k : ℕ → Bool) : force n k = k n := by cases n <;> rfl

abbrev N2 := ℕ × ℕ

def add2 (p : ℕ) (a b : N2) : N2 := ((a.1 + b.1) % p, (a.2 + b.2) % p)
def sub2 (p : ℕ) (a b : N2) : N2 := ((a.1 + (p - 1) * b.1) % p, (a.2 + (p - 1) * b.2) % p)
def mul2 (p : ℕ) (a b : N2) : N2 := ((a.1 * b.1 + (p - 1) * (a.2 * b.2)) % p, (a.1 * b.2 + a.2 * b.1) % p)

def addK (p : ℕ) (a b : N2) (k : N2 → Bool) : Bool :=
  force ((a.1 + b.1) % p) fun x => force ((a.2 + b.2) % p) fun y => k (x, y)
def subK (p : ℕ) (a b : N2) (k : N2 → Bool) : Bool :=
  force ((a.1 + (p - 1) * b.1) % p) fun x => force ((a.2 + (p - 1) * b.2) % p) fun y => k (x, y)
def mulK (p : ℕ) (a b : N2) (k : N2 → Bool) : Bool :=
  force ((a.1 * b.1 + (p - 1) * (a.2 * b.2)) % p) fun x => force ((a.1 * b.2 + a.2 * b.1) % p) fun y => k (x, y)

theorem addK_eq (p : ℕ) (a b : N2) (k : N2 → Bool) : addK p a b k = k (add2 p a b) := by simp [addK, force_eq, add2]
theorem subK_eq (p : ℕ) (a b : N2) (k : N2 → Bool) : subK p a b k = k (sub2 p a b) := by simp [subK, force_eq, sub2]
theorem mulK_eq (p : ℕ) (a b : N2) (k : N2 → Bool) : mulK p a b k = k (mul2 p a b) := by simp [mulK, force_eq, mul2]

/-- `xDBL` on the curve with coefficient 6 -/
def dblK (p : ℕ) (X Z : N2) (k : N2 → N2 → Bool) : Bool :=
  subK p X Z fun t0 =>
  addK p X Z fun t1 =>
  mulK p t0 t0 fun t0 =>
  mulK p t1 t1 fun t1 =>
  mulK p t1 t0 fun QX =>
  subK p t1 t0 fun t1 =>
  addK p t1 t1 fun t2 =>
  addK p t0 t2 fun QZ =>
  mulK p QZ t1 fun QZ => k QX QZ

/-- `xTPL` on the curve with coefficient 6 -/
def tplK (p : ℕ) (X Z : N2) (k : N2 → N2 → Bool) : Bool :=
  subK p X Z fun t0 =>
  mulK p t0 t0 fun t2 =>
  addK p X Z fun t1 =>
  mulK p t1 t1 fun t3 =>
  addK p X X fun t4 =>
  addK p Z Z fun t0 =>
  mulK p t4 t4 fun t1 =>
  subK p t1 t3 fun t1 =>
  subK p t1 t2 fun t1 =>
  addK p t3 t3 fun t5 =>
  mulK p t3 t5 fun t3 =>
  mulK p t2 t2 fun t7 =>
  subK p t7 t3 fun t3 =>
  subK p t5 t2 fun t2 =>
  mulK p t1 t2 fun t1 =>
  addK p t3 t1 fun t2 =>
  mulK p t2 t2 fun t2 =>
  mulK p t4 t2 fun QX =>
  subK p t3 t1 fun t1 =>
  mulK p t1 t1 fun t1 =>
  mulK p t0 t1 fun QZ => k QX QZ

/-- The same without forcing -/
def dbl2 (p : ℕ) (X Z : N2) : N2 × N2 :=
  let t0 := sub2 p X Z
  let t1 := add2 p X Z
  let t0 := mul2 p t0 t0
  let t1 := mul2 p t1 t1
  let QX := mul2 p t1 t0
  let t1 := sub2 p t1 t0
  let t2 := add2 p t1 t1
  let QZ := add2 p t0 t2
  let QZ := mul2 p QZ t1
  (QX, QZ)

/-- The same without forcing -/
def tpl2 (p : ℕ) (X Z : N2) : N2 × N2 :=
  let t0 := sub2 p X Z
  let t2 := mul2 p t0 t0
  let t1 := add2 p X Z
  let t3 := mul2 p t1 t1
  let t4 := add2 p X X
  let t0 := add2 p Z Z
  let t1 := mul2 p t4 t4
  let t1 := sub2 p t1 t3
  let t1 := sub2 p t1 t2
  let t5 := add2 p t3 t3
  let t3 := mul2 p t3 t5
  let t7 := mul2 p t2 t2
  let t3 := sub2 p t7 t3
  let t2 := sub2 p t5 t2
  let t1 := mul2 p t1 t2
  let t2 := add2 p t3 t1
  let t2 := mul2 p t2 t2
  let QX := mul2 p t4 t2
  let t1 := sub2 p t3 t1
  let t1 := mul2 p t1 t1
  let QZ := mul2 p t0 t1
  (QX, QZ)

/-- `n` times `f` -/
def iterK (f : N2 → N2 → (N2 → N2 → Bool) → Bool) : ℕ → N2 → N2 → (N2 → N2 → Bool) → Bool
  | 0, X, Z, k => k X Z
  | n + 1, X, Z, k => f X Z fun X Z => iterK f n X Z k

def isZ (p : ℕ) (a : N2) : Bool := a.1 % p == 0 && a.2 % p == 0

/-- `R` is one of `P + Q`, `P - Q`, all with the same denominator. -/
def diffK (p : ℕ) (P Q R Z : N2) : Bool :=
  mulK p P Z fun pz =>
  mulK p Q Z fun qz =>
  mulK p P Q fun xx =>
  mulK p Z Z fun zz =>
  subK p xx zz fun b0 =>
  mulK p b0 b0 fun b0 =>
  addK p pz qz fun s =>
  addK p xx zz fun t =>
  mulK p s t fun s =>
  mulK p pz qz fun u =>
  mulK p (12, 0) u fun u =>
  addK p s u fun b1 =>
  addK p b1 b1 fun b1 =>
  subK p pz qz fun b2 =>
  mulK p b2 b2 fun b2 =>
  mulK p R R fun rr =>
  mulK p R Z fun rz =>
  mulK p b2 rr fun v0 =>
  mulK p b1 rz fun v1 =>
  mulK p b0 zz fun v2 =>
  subK p v0 v1 fun v =>
  addK p v v2 fun v => isZ p v

def checkA (p e : ℕ) (P Q R Z : N2) : Bool :=
  diffK p P Q R Z &&
  iterK (dblK p) (e - 1) P Z fun PX PZ =>
  iterK (dblK p) (e - 1) Q Z fun QX QZ =>
  dblK p PX PZ fun _ PZ' =>
  dblK p QX QZ fun _ QZ' =>
  !isZ p PX && !isZ p PZ && isZ p QX && !isZ p QZ && isZ p PZ' && isZ p QZ'

def checkB (p e : ℕ) (P Q R Z : N2) : Bool :=
  diffK p P Q R Z &&
  iterK (tplK p) (e - 1) P Z fun PX PZ =>
  iterK (tplK p) (e - 1) Q Z fun QX QZ =>
  tplK p PX PZ fun _ PZ' =>
  tplK p QX QZ fun _ QZ' =>
  mulK p PX QZ fun s =>
  mulK p QX PZ fun t =>
  subK p s t fun d =>
  !isZ p PZ && !isZ p QZ && !isZ p d && isZ p PZ' && isZ p QZ'

def force2 (a : N2) (k : N2 → Bool) : Bool := force a.1 fun x => force a.2 fun y => k (x, y)

/-- The check of a table -/
def checkTab (check : ℕ → ℕ → N2 → N2 → N2 → N2 → Bool) (p e r : ℕ) : List (List Digit) → Bool
  | [a, b, c, d, f, g] =>
    force p fun p =>
    force2 (val a % p, val b % p) fun P =>
    force2 (val c % p, val d % p) fun Q =>
    force2 (val f % p, val g % p) fun R =>
    force2 (r % p, 0) fun Z => check p e P Q R Z
  | _ => false

theorem checkA_ok (l : Level) : checkTab checkA l.p l.iso.e2 (2 ^ (64 * (tables l).n)) (aGen l) = true := by
  cases l <;> decide +kernel

theorem checkB_ok (l : Level) : checkTab checkB l.p l.iso.e3 (2 ^ (64 * (tables l).n)) (bGen l) = true := by
  cases l <;> decide +kernel

/-! ### Meaning of the computation -/

section sem

variable {p : ℕ} [hp : Prime3 p]

/-- The element of `GF(p²)` a pair stands for -/
def el (p : ℕ) (a : N2) : Fp2 p := ⟨(a.1 : ZMod p), (a.2 : ZMod p)⟩

theorem cast_mod' (v : ℕ) : ((v % p : ℕ) : ZMod p) = v := ZMod.natCast_mod v p

theorem cast_pred : ((p - 1 : ℕ) : ZMod p) = -1 := by
  rw [Nat.cast_sub hp.prime.one_le, ZMod.natCast_self]; simp

theorem el_add (a b : N2) : el p (add2 p a b) = el p a + el p b := by
  ext <;> simp [el, add2]

theorem el_sub (a b : N2) : el p (sub2 p a b) = el p a - el p b := by
  ext <;> simp [el, sub2, cast_pred, sub_eq_add_neg]

theorem el_mul (a b : N2) : el p (mul2 p a b) = el p a * el p b := by
  ext <;> simp [el, mul2, cast_pred]

theorem isZ_iff (a : N2) : isZ p a = true ↔ el p a = 0 := by
  rw [QuadraticAlgebra.ext_iff]
  simp [isZ, el, ZMod.natCast_eq_zero_iff, Nat.dvd_iff_mod_eq_zero]

theorem isZ_false (a : N2) : isZ p a = false ↔ el p a ≠ 0 := by
  rw [ne_eq, ← isZ_iff, Bool.not_eq_true]

theorem dblK_sem (X Z : N2) : ∃ X' Z', (∀ k, dblK p X Z k = k X' Z') ∧
    (⟨el p X', el p Z'⟩ : Pt (Fp2 p)) = xDBL ⟨el p X, el p Z⟩ 2 1 := by
  refine ⟨(dbl2 p X Z).1, (dbl2 p X Z).2, fun k => ?_, ?_⟩
  · simp only [dblK, dbl2, addK_eq, subK_eq, mulK_eq]
  · simp only [dbl2, el_add, el_sub, el_mul, xDBL, one_mul, two_mul]

theorem tplK_sem (X Z : N2) : ∃ X' Z', (∀ k, tplK p X Z k = k X' Z') ∧
    (⟨el p X', el p Z'⟩ : Pt (Fp2 p)) = xTPL ⟨el p X, el p Z⟩ 1 2 := by
  refine ⟨(tpl2 p X Z).1, (tpl2 p X Z).2, fun k => ?_, ?_⟩
  · simp only [tplK, tpl2, addK_eq, subK_eq, mulK_eq]
  · simp only [tpl2, el_add, el_sub, el_mul, xTPL, one_mul, two_mul]

theorem iter_dbl (n : ℕ) : ∀ X Z : N2, ∃ X' Z', (∀ k, iterK (dblK p) n X Z k = k X' Z') ∧
    (⟨el p X', el p Z'⟩ : Pt (Fp2 p)) = xDBLe ⟨el p X, el p Z⟩ 2 1 n := by
  induction n with
  | zero => intro X Z; exact ⟨X, Z, fun _ => rfl, rfl⟩
  | succ n ih =>
    intro X Z
    obtain ⟨X1, Z1, h1, e1⟩ := dblK_sem (p := p) X Z
    obtain ⟨X2, Z2, h2, e2⟩ := ih X1 Z1
    exact ⟨X2, Z2, fun k => by simp only [iterK, h1, h2], by rw [e2, e1]; rfl⟩

theorem iter_tpl (n : ℕ) : ∀ X Z : N2, ∃ X' Z', (∀ k, iterK (tplK p) n X Z k = k X' Z') ∧
    (⟨el p X', el p Z'⟩ : Pt (Fp2 p)) = xTPLe ⟨el p X, el p Z⟩ 1 2 n := by
  induction n with
  | zero => intro X Z; exact ⟨X, Z, fun _ => rfl, rfl⟩
  | succ n ih =>
    intro X Z
    obtain ⟨X1, Z1, h1, e1⟩ := tplK_sem (p := p) X Z
    obtain ⟨X2, Z2, h2, e2⟩ := ih X1 Z1
    exact ⟨X2, Z2, fun k => by simp only [iterK, h1, h2], by rw [e2, e1]; rfl⟩

theorem diffK_sem (P Q R Z : N2) : diffK p P Q R Z = true ↔
    b2 ⟨el p P, el p Z⟩ ⟨el p Q, el p Z⟩ * (el p R * el p R) - b1 6 ⟨el p P, el p Z⟩ ⟨el p Q, el p Z⟩ * (el p R * el p Z) +
      b0 ⟨el p P, el p Z⟩ ⟨el p Q, el p Z⟩ * (el p Z * el p Z) = 0 := by
  have h12 : el p (12, 0) = 12 := by
    ext
    · simp only [el, QuadraticAlgebra.re_ofNat]; norm_cast
    · simp only [el, QuadraticAlgebra.im_ofNat]; norm_cast
  simp only [diffK, addK_eq, subK_eq, mulK_eq, isZ_iff, el_add, el_sub, el_mul, h12, b0, b1, b2]
  constructor
  · intro h; rw [← h]; ring
  · intro h; rw [← h]; ring

end sem

/-! ### The generators -/

section gens

variable (l : Level)

theorem el_val (a b : List Digit) : el l.p (val a % l.p, val b % l.p) =
    f2Val (tables l) l.p ⟨a, b⟩ * el l.p (2 ^ (64 * (tables l).n) % l.p, 0) := by
  have hR := R_ne_zero (Word.good l)
  ext
  · simp only [el, f2Val, fpVal, QuadraticAlgebra.re_mul, cast_mod']
    push_cast
    field_simp
    simp
  · simp only [el, f2Val, fpVal, QuadraticAlgebra.im_mul, cast_mod']
    push_cast
    field_simp
    simp

theorem el_R : el l.p (2 ^ (64 * (tables l).n) % l.p, 0) ≠ 0 := by
  intro h
  have := congrArg QuadraticAlgebra.re h
  simp only [el, cast_mod', QuadraticAlgebra.re_zero] at this
  push_cast at this
  exact R_ne_zero (Word.good l) this

variable {l}

theorem rep_el {A : l.K} {x : l.F} {z : N2} (hz : el l.p z ≠ 0) {X : N2} (hX : el l.p X = x * el l.p z) {P : (W A).Point} :
    Rep (Pt.map l.φ ⟨el l.p X, el l.p z⟩) P ↔ Rep ⟨l.φ x, 1⟩ P := by
  have h : PEq ⟨l.φ x, 1⟩ (Pt.map l.φ ⟨el l.p X, el l.p z⟩) := by
    refine ⟨l.φ (el l.p z), (map_ne_zero _).2 hz, ?_, ?_⟩
    · simp only [Pt.map, hX, map_mul]; ring
    · simp [Pt.map]
  exact ⟨fun k => k.peq h.symm, fun k => k.peq h⟩

/-- A root of the quadratic polynomial is the x-coordinate of the sum or of the difference. -/
theorem diff_choice {K : Type} [Field K] [DecidableEq K] {A : K} (h2 : (2 : K) ≠ 0) {P Q : (W A).Point} {p q r : Pt K}
    (hp : Rep p P) (hq : Rep q Q) (hr : Nz r)
    (h : b2 p q * (r.X * r.X) - b1 A p q * (r.X * r.Z) + b0 p q * (r.Z * r.Z) = 0) : Rep r (P + Q) ∨ Rep r (P - Q) := by
  obtain ⟨c, hc, e0, e1, e2⟩ := hp.as h2 hq (rep_xr _) (rep_xr _)
  rw [e0, e1, e2] at h
  have h' : c * (((xr (P + Q)).X * r.Z - r.X * (xr (P + Q)).Z) * ((xr (P - Q)).X * r.Z - r.X * (xr (P - Q)).Z)) = 0 := by
    rw [← h]; ring
  rcases mul_eq_zero.1 ((mul_eq_zero.1 h').resolve_left hc) with h | h
  · exact Or.inl (peq_of_cross (xr_nz _) hr (by linear_combination h))
  · exact Or.inr (peq_of_cross (xr_nz _) hr (by linear_combination h))

theorem exists_three {P Q R Z : N2} (hz : el l.p Z ≠ 0) {t : Three l.F} (hP : el l.p P = t.P * el l.p Z)
    (hQ : el l.p Q = t.Q * el l.p Z) (hR : el l.p R = t.R * el l.p Z) (h : diffK l.p P Q R Z = true) :
    ∃ S T : (W (l.φ 6)).Point, Repr3 l.φ t S T := by
  have h2 := two_map l.φ l.two
  have h6 : (l.φ 6) ^ 2 ≠ 4 := sq_ne_four_map l.φ (six_ne l.two)
  obtain ⟨S, hS⟩ := exists_rep (A := l.φ 6) h2 h6 (p := ⟨l.φ t.P, 1⟩) (Or.inr one_ne_zero)
  obtain ⟨T, hT⟩ := exists_rep (A := l.φ 6) h2 h6 (p := ⟨l.φ t.Q, 1⟩) (Or.inr one_ne_zero)
  rw [diffK_sem] at h
  have h' := congrArg l.φ h
  have hr : Nz (Pt.map l.φ (⟨el l.p R, el l.p Z⟩ : Pt l.F)) := Or.inr ((map_ne_zero _).2 hz)
  rcases diff_choice h2 ((rep_el hz hP).2 hS) ((rep_el hz hQ).2 hT) hr (by
    rw [← map_zero l.φ, ← h']; simp [b0, b1, b2, Pt.map, map_ofNat]) with h | h
  · refine ⟨S, -T, hS, hT.neg, ?_⟩
    rw [sub_neg_eq_add]; exact (rep_el hz hR).1 h
  · exact ⟨S, T, hS, hT, (rep_el hz hR).1 h⟩

theorem is24_six : Is24 (6 : l.F) 2 1 := by
  have h4 := four_ne_zero_of l.two
  exact ⟨4⁻¹, inv_ne_zero h4, by field_simp; norm_num, by field_simp⟩

theorem isPM_six : IsPM (6 : l.F) 1 2 := by
  have h4 := four_ne_zero_of l.two
  exact ⟨4⁻¹, inv_ne_zero h4, by field_simp; norm_num, by field_simp; norm_num⟩

/-- Every table that passes the check holds a basis of the `2^e`-torsion. -/
theorem basis2_of_check {e : ℕ} (he : 1 < e) {t : List (List Digit)}
    (h : checkTab checkA l.p e (2 ^ (64 * (tables l).n)) t = true) :
    ∃ P Q : (W (l.φ 6)).Point, Repr3 l.φ (initBasis l t) P Q ∧ Basis2 e P Q := by
  have h2 := two_map l.φ l.two
  unfold checkTab at h
  split at h
  · rename_i a b c d f g
    simp only [force_eq, force2, checkA, Bool.and_eq_true] at h
    obtain ⟨hd, h⟩ := h
    have hz := el_R l
    obtain ⟨S, T, hr⟩ := exists_three (t := initBasis l [a, b, c, d, f, g]) hz (el_val l a b) (el_val l c d) (el_val l f g) hd
    refine ⟨S, T, hr, ?_⟩
    have hS := (rep_el hz (el_val l a b)).2 hr.xP
    have hT := (rep_el hz (el_val l c d)).2 hr.xQ
    generalize (val a % l.p, val b % l.p) = P at *
    generalize (val c % l.p, val d % l.p) = Q at *
    generalize (2 ^ (64 * (tables l).n) % l.p, 0) = Z at *
    obtain ⟨PX, PZ, k1, e1⟩ := iter_dbl (p := l.p) (e - 1) P Z
    obtain ⟨QX, QZ, k2, e2⟩ := iter_dbl (p := l.p) (e - 1) Q Z
    obtain ⟨PX', PZ', k3, e3⟩ := dblK_sem (p := l.p) PX PZ
    obtain ⟨QX', QZ', k4, e4⟩ := dblK_sem (p := l.p) QX QZ
    simp only [k1, k2, k3, k4, Bool.and_eq_true, Bool.not_eq_true', isZ_false, isZ_iff] at h
    obtain ⟨⟨⟨⟨⟨c1, c2⟩, c3⟩, c4⟩, c5⟩, c6⟩ := h
    have he' : e - 1 + 1 = e := by omega
    have rP := xDBLe_rep' l.φ l.two is24_six hS (e - 1)
    have rQ := xDBLe_rep' l.φ l.two is24_six hT (e - 1)
    rw [← e1] at rP
    rw [← e2] at rQ
    have rP' := xDBL_rep h2 (is24_map l.φ is24_six) rP
    have rQ' := xDBL_rep h2 (is24_map l.φ is24_six) rQ
    rw [← map_xDBL, ← e3, ← mul_nsmul, ← pow_succ, he'] at rP'
    rw [← map_xDBL, ← e4, ← mul_nsmul, ← pow_succ, he'] at rQ'
    refine ⟨he, rP'.Z_iff.1 ?_, rQ'.Z_iff.1 ?_, fun h0 => c2 ?_, fun h0 => c4 ?_, fun h0 => c1 ?_, rQ.X_iff.1 ?_⟩
    · simp [Pt.map, c5]
    · simp [Pt.map, c6]
    · simpa [Pt.map] using rP.Z_iff.2 h0
    · simpa [Pt.map] using rQ.Z_iff.2 h0
    · simpa [Pt.map] using rP.X_iff.2 h0
    · simp [Pt.map, c3]
  · cases h

/-- Every table that passes the check holds a basis of the `3^e`-torsion. -/
theorem basis3_of_check {e : ℕ} (he : 0 < e) {t : List (List Digit)}
    (h : checkTab checkB l.p e (2 ^ (64 * (tables l).n)) t = true) :
    ∃ P Q : (W (l.φ 6)).Point, Repr3 l.φ (initBasis l t) P Q ∧ Basis3 e P Q := by
  have h2 := two_map l.φ l.two
  unfold checkTab at h
  split at h
  · rename_i a b c d f g
    simp only [force_eq, force2, checkB, Bool.and_eq_true] at h
    obtain ⟨hd, h⟩ := h
    have hz := el_R l
    obtain ⟨S, T, hr⟩ := exists_three (t := initBasis l [a, b, c, d, f, g]) hz (el_val l a b) (el_val l c d) (el_val l f g) hd
    refine ⟨S, T, hr, ?_⟩
    have hS := (rep_el hz (el_val l a b)).2 hr.xP
    have hT := (rep_el hz (el_val l c d)).2 hr.xQ
    generalize (val a % l.p, val b % l.p) = P at *
    generalize (val c % l.p, val d % l.p) = Q at *
    generalize (2 ^ (64 * (tables l).n) % l.p, 0) = Z at *
    obtain ⟨PX, PZ, k1, e1⟩ := iter_tpl (p := l.p) (e - 1) P Z
    obtain ⟨QX, QZ, k2, e2⟩ := iter_tpl (p := l.p) (e - 1) Q Z
    obtain ⟨PX', PZ', k3, e3⟩ := tplK_sem (p := l.p) PX PZ
    obtain ⟨QX', QZ', k4, e4⟩ := tplK_sem (p := l.p) QX QZ
    simp only [k1, k2, k3, k4, mulK_eq, subK_eq, Bool.and_eq_true, Bool.not_eq_true', isZ_false, isZ_iff, el_sub, el_mul] at h
    obtain ⟨⟨⟨⟨c1, c2⟩, c3⟩, c4⟩, c5⟩ := h
    have he' : e - 1 + 1 = e := by omega
    have rP := xTPLe_rep' l.φ l.two isPM_six hS (e - 1)
    have rQ := xTPLe_rep' l.φ l.two isPM_six hT (e - 1)
    rw [← e1] at rP
    rw [← e2] at rQ
    have rP' := xTPL_rep h2 (isPM_map l.φ isPM_six) rP
    have rQ' := xTPL_rep h2 (isPM_map l.φ isPM_six) rQ
    rw [← map_xTPL, ← e3, ← mul_nsmul, ← pow_succ, he'] at rP'
    rw [← map_xTPL, ← e4, ← mul_nsmul, ← pow_succ, he'] at rQ'
    have hcross : ∀ {q : Pt l.K}, PEq (Pt.map l.φ ⟨el l.p PX, el l.p PZ⟩) q → q = Pt.map l.φ ⟨el l.p QX, el l.p QZ⟩ → False := by
      rintro _ h rfl
      have := h.cross
      simp only [Pt.map, ← map_mul] at this
      exact c3 (by linear_combination l.φ.injective this)
    refine ⟨he, rP'.Z_iff.1 ?_, rQ'.Z_iff.1 ?_, fun h0 => c1 ?_, fun h0 => c2 ?_, fun h0 => ?_, fun h0 => ?_⟩
    · simp [Pt.map, c4]
    · simp [Pt.map, c5]
    · simpa [Pt.map] using rP.Z_iff.2 h0
    · simpa [Pt.map] using rQ.Z_iff.2 h0
    · rw [h0] at rP
      exact hcross (rP.unique rQ) rfl
    · rw [h0] at rP
      exact hcross (rP.unique rQ.neg) rfl
  · cases h

/-- The shipped generators are torsion bases. -/
theorem gens_ok (l : Level) : ∃ PA QA PB QB, GensAre l.φ (cfg l) PA QA PB QB := by
  obtain ⟨PA, QA, h1, h2⟩ := basis2_of_check (l := l) (by cases l <;> decide) (checkA_ok l)
  obtain ⟨PB, QB, h3, h4⟩ := basis3_of_check (l := l) (by cases l <;> decide) (checkB_ok l)
  exact ⟨PA, QA, PB, QB, h1, h3, h2, h4⟩

end gens

end Secuer.Sidh
