import Mathlib.Tactic.Ring
import Mathlib.Tactic.Linarith
import Mathlib.Tactic.Positivity
import Mathlib.Algebra.BigOperators.Group.List.Basic
import Verif.X64.Sym

/-!
# The polynomials of the checker mean what they say
-/

namespace Secuer.X64.Poly

/-- The value of a monomial -/
def evalKey (ρ : ℕ → ℕ) (k : ℕ) : ℤ := ρ (k / 65536) * ρ (k % 65536)

/-- The value of a polynomial -/
def eval (ρ : ℕ → ℕ) : Poly → ℤ
  | [] => 0
  | t :: p => t.2 * evalKey ρ t.1 + eval ρ p

@[simp] theorem eval_nil (ρ : ℕ → ℕ) : eval ρ [] = 0 := rfl

theorem eval_cons (ρ : ℕ → ℕ) (t : ℕ × ℤ) (p : Poly) : eval ρ (t :: p) = t.2 * evalKey ρ t.1 + eval ρ p := rfl

theorem eval_append (ρ : ℕ → ℕ) (p q : Poly) : eval ρ (p ++ q) = eval ρ p + eval ρ q := by
  induction p with
  | nil => simp
  | cons t p ih => rw [List.cons_append, eval_cons, eval_cons, ih]; ring

theorem evalKey_zero {ρ : ℕ → ℕ} (h : ρ 0 = 1) : evalKey ρ 0 = 1 := by
  simp [evalKey, h]

theorem evalKey_lt {ρ : ℕ → ℕ} (h : ρ 0 = 1) {i : ℕ} (hi : i < 65536) : evalKey ρ i = ρ i := by
  unfold evalKey
  rw [Nat.div_eq_of_lt hi, Nat.mod_eq_of_lt hi, h]; simp

theorem evalKey_nonneg (ρ : ℕ → ℕ) (k : ℕ) : 0 ≤ evalKey ρ k := by
  unfold evalKey; positivity

theorem eval_const {ρ : ℕ → ℕ} (h : ρ 0 = 1) (c : ℤ) : eval ρ (const c) = c := by
  unfold const
  split
  · rename_i h0; simp [h0]
  · simp [eval_cons, evalKey_zero h]

theorem eval_var {ρ : ℕ → ℕ} (h : ρ 0 = 1) {i : ℕ} (hi : i < 65536) : eval ρ (var i) = ρ i := by
  simp [var, eval_cons, evalKey_lt h hi]

theorem eval_addF (ρ : ℕ → ℕ) : ∀ (f : ℕ) (p q : Poly), eval ρ (addF f p q) = eval ρ p + eval ρ q
  | 0, p, q => by rw [addF, eval_append]
  | f + 1, [], q => by simp [addF]
  | f + 1, t :: p, [] => by simp [addF]
  | f + 1, (k, c) :: p, (k', c') :: q => by
    rw [addF]
    by_cases h : Nat.blt k k' = true
    · rw [h, cond_true, eval_cons, eval_addF ρ f]
      simp only [eval_cons]; ring
    · rw [Bool.not_eq_true] at h
      rw [h, cond_false]
      by_cases h' : Nat.blt k' k = true
      · rw [h', cond_true, eval_cons, eval_addF ρ f]
        simp only [eval_cons]; ring
      · rw [Bool.not_eq_true] at h'
        rw [h', cond_false]
        have hk : k = k' := by
          have h1 : ¬ k < k' := fun hh => by simp [Nat.blt_eq.mpr hh] at h
          have h2 : ¬ k' < k := fun hh => by simp [Nat.blt_eq.mpr hh] at h'
          omega
        subst hk
        dsimp only
        by_cases hs : (c + c' == 0) = true
        · rw [hs, cond_true, eval_addF ρ f]
          have : c + c' = 0 := by simpa using hs
          simp only [eval_cons]
          have h3 : c' = -c := by omega
          rw [h3]; ring
        · rw [Bool.not_eq_true] at hs
          rw [hs, cond_false, eval_cons, eval_addF ρ f]
          simp only [eval_cons]; ring

theorem eval_add (ρ : ℕ → ℕ) (p q : Poly) : eval ρ (add p q) = eval ρ p + eval ρ q := eval_addF ρ _ p q

theorem eval_scale (ρ : ℕ → ℕ) (c : ℤ) (p : Poly) : eval ρ (scale c p) = c * eval ρ p := by
  induction p with
  | nil => simp [scale]
  | cons t p ih =>
    have : scale c (t :: p) = (t.1, c * t.2) :: scale c p := rfl
    rw [this, eval_cons, eval_cons, ih]; ring

theorem eval_sub (ρ : ℕ → ℕ) (p q : Poly) : eval ρ (sub p q) = eval ρ p - eval ρ q := by
  rw [sub, eval_add, eval_scale]; ring

theorem evalKey_mul {ρ : ℕ → ℕ} (h : ρ 0 = 1) {k k' r : ℕ} (hr : mulKey k k' = some r) :
    evalKey ρ r = evalKey ρ k * evalKey ρ k' := by
  unfold mulKey at hr
  by_cases h1 : k = 0
  · subst h1
    simp at hr
    rw [← hr, evalKey_zero h, one_mul]
  · by_cases h2 : k' = 0
    · subst h2
      have e1 : (k == 0) = false := by simpa using h1
      rw [e1, cond_false] at hr
      cases hr
      rw [evalKey_zero h, mul_one]
    · have e1 : (k == 0) = false := by simpa using h1
      have e2 : (k' == 0) = false := by simpa using h2
      rw [e1, cond_false, e2, cond_false] at hr
      by_cases h3 : k < 65536 ∧ k' < 65536
      · have e3 : (Nat.blt k 65536 && Nat.blt k' 65536) = true := by
          simp [Nat.blt_eq.mpr h3.1, Nat.blt_eq.mpr h3.2]
        rw [e3, cond_true] at hr
        rw [evalKey_lt h h3.1, evalKey_lt h h3.2]
        have hkey : ∀ a b : ℕ, b < 65536 → evalKey ρ (65536 * a + b) = ρ a * ρ b := by
          intro a b hb
          unfold evalKey
          rw [Nat.mul_add_div (by norm_num), Nat.div_eq_of_lt hb, Nat.mul_add_mod, Nat.mod_eq_of_lt hb, Nat.add_zero]
        have hr' := Option.some.inj hr
        rw [← hr']
        cases Nat.ble k k'
        · rw [cond_false, hkey _ _ h3.1, mul_comm]
        · rw [cond_true, hkey _ _ h3.2]
      · have e3 : (Nat.blt k 65536 && Nat.blt k' 65536) = false := by
          by_contra hc
          rw [Bool.not_eq_false, Bool.and_eq_true, Nat.blt_eq, Nat.blt_eq] at hc
          exact h3 hc
        rw [e3, cond_false] at hr
        cases hr

theorem eval_mulTerm {ρ : ℕ → ℕ} (h : ρ 0 = 1) (t : ℕ × ℤ) :
    ∀ (q r : Poly), mulTerm t q = some r → eval ρ r = t.2 * evalKey ρ t.1 * eval ρ q
  | [], r, hr => by cases hr; simp
  | u :: q, r, hr => by
    rw [mulTerm] at hr
    cases hk : mulKey t.1 u.1 with
    | none => rw [hk] at hr; cases hr
    | some k =>
      rw [hk] at hr
      dsimp only at hr
      cases hm : mulTerm t q with
      | none => rw [hm] at hr; cases hr
      | some r' =>
        rw [hm] at hr
        cases hr
        rw [eval_add, eval_mulTerm h t q r' hm, eval_cons, eval_cons, eval_nil, evalKey_mul h hk]
        ring

theorem eval_mul {ρ : ℕ → ℕ} (h : ρ 0 = 1) :
    ∀ (p q r : Poly), mul p q = some r → eval ρ r = eval ρ p * eval ρ q
  | [], q, r, hr => by cases hr; simp
  | t :: p, q, r, hr => by
    rw [mul] at hr
    cases ht : mulTerm t q with
    | none => rw [ht] at hr; cases hr
    | some r1 =>
      rw [ht] at hr
      dsimp only at hr
      cases hm : mul p q with
      | none => rw [hm] at hr; cases hr
      | some r2 =>
        rw [hm] at hr
        cases hr
        rw [eval_add, eval_mulTerm h t q r1 ht, eval_mul h p q r2 hm, eval_cons]
        ring

theorem eval_horner_cons (ρ : ℕ → ℕ) (p : Poly) (ps : List Poly) :
    eval ρ (horner (p :: ps)) = eval ρ p + 2 ^ 64 * eval ρ (horner ps) := by
  rw [horner, eval_add, eval_scale]

theorem eval_dropMod (ρ : ℕ → ℕ) (m : ℤ) (p : Poly) : ∃ k, eval ρ p = eval ρ (dropMod m p) + m * k := by
  induction p with
  | nil => exact ⟨0, by simp [dropMod]⟩
  | cons t p ih =>
    obtain ⟨k, hk⟩ := ih
    unfold dropMod at hk ⊢
    by_cases h : t.2 % m = 0
    · have hf : List.filter (fun t : ℕ × ℤ => t.2 % m != 0) (t :: p) = List.filter (fun t => t.2 % m != 0) p := by
        rw [List.filter_cons_of_neg]; simp [h]
      rw [hf]
      obtain ⟨c, hc⟩ := Int.dvd_of_emod_eq_zero h
      exact ⟨k + c * evalKey ρ t.1, by rw [eval_cons, hk, hc]; ring⟩
    · have hf : List.filter (fun t : ℕ × ℤ => t.2 % m != 0) (t :: p) = t :: List.filter (fun t => t.2 % m != 0) p := by
        rw [List.filter_cons_of_pos]; simp [h]
      rw [hf]
      exact ⟨k, by rw [eval_cons, eval_cons, hk]; ring⟩

/-! ## Bounds -/

/-- `ρ` respects the bounds -/
def Bnd (ρ : ℕ → ℕ) (next : ℕ) (ubs : List ℕ) : Prop := ∀ i u, ubVar next ubs i = some u → ρ i ≤ u

theorem ubKey_sound {ρ : ℕ → ℕ} {next : ℕ} {ubs : List ℕ} (hb : Bnd ρ next ubs) {k u : ℕ}
    (h : ubKey next ubs k = some u) : evalKey ρ k ≤ u := by
  unfold ubKey at h
  cases h1 : ubVar next ubs (k / 65536) with
  | none => rw [h1] at h; cases h
  | some x =>
    cases h2 : ubVar next ubs (k % 65536) with
    | none => rw [h1, h2] at h; cases h
    | some y =>
      rw [h1, h2] at h
      cases h
      unfold evalKey
      have a := hb _ _ h1
      have b := hb _ _ h2
      exact_mod_cast Nat.mul_le_mul a b

theorem ub_sound {ρ : ℕ → ℕ} (h0 : ρ 0 = 1) {next : ℕ} {ubs : List ℕ} (hb : Bnd ρ next ubs) :
    ∀ (p : Poly) (u : ℤ), ub next ubs p = some u → eval ρ p ≤ u
  | [], u, h => by cases h; simp
  | (k, c) :: p, u, h => by
    rw [ub] at h
    cases hr : ub next ubs p with
    | none => rw [hr] at h; cases h
    | some r =>
      rw [hr] at h
      dsimp only at h
      have ih := ub_sound h0 hb p r hr
      rw [eval_cons]
      dsimp only
      by_cases hk : k = 0
      · subst hk
        simp at h
        rw [evalKey_zero h0]; omega
      · have e : (k == 0) = false := by simpa using hk
        rw [e, cond_false] at h
        by_cases hc : c < 0
        · rw [decide_eq_true hc, cond_true] at h
          cases h
          have := mul_nonpos_of_nonpos_of_nonneg hc.le (evalKey_nonneg ρ k)
          omega
        · rw [decide_eq_false hc, cond_false] at h
          cases hu : ubKey next ubs k with
          | none => rw [hu] at h; cases h
          | some w =>
            rw [hu] at h
            cases h
            have := mul_le_mul_of_nonneg_left (ubKey_sound hb hu) (not_lt.mp hc)
            omega

theorem lb_sound {ρ : ℕ → ℕ} (h0 : ρ 0 = 1) {next : ℕ} {ubs : List ℕ} (hb : Bnd ρ next ubs) :
    ∀ (p : Poly) (u : ℤ), lb next ubs p = some u → u ≤ eval ρ p
  | [], u, h => by cases h; simp
  | (k, c) :: p, u, h => by
    rw [lb] at h
    cases hr : lb next ubs p with
    | none => rw [hr] at h; cases h
    | some r =>
      rw [hr] at h
      dsimp only at h
      have ih := lb_sound h0 hb p r hr
      rw [eval_cons]
      dsimp only
      by_cases hk : k = 0
      · subst hk
        simp at h
        rw [evalKey_zero h0]; omega
      · have e : (k == 0) = false := by simpa using hk
        rw [e, cond_false] at h
        by_cases hc : 0 < c
        · rw [decide_eq_true hc, cond_true] at h
          cases h
          have := mul_nonneg hc.le (evalKey_nonneg ρ k)
          omega
        · rw [decide_eq_false hc, cond_false] at h
          cases hu : ubKey next ubs k with
          | none => rw [hu] at h; cases h
          | some w =>
            rw [hu] at h
            cases h
            have := mul_le_mul_of_nonpos_left (ubKey_sound hb hu) (not_lt.mp hc)
            omega

/-! ## Dependence on variables -/

/-- The value depends only on the variables below `n` -/
def Dep (n : ℕ) (p : Poly) : Prop :=
  ∀ ρ ρ' : ℕ → ℕ, ρ 0 = 1 → ρ' 0 = 1 → (∀ i < n, ρ i = ρ' i) → eval ρ p = eval ρ' p

theorem Dep.mono {n m : ℕ} {p : Poly} (h : Dep n p) (hm : n ≤ m) : Dep m p :=
  fun ρ ρ' a b c => h ρ ρ' a b fun i hi => c i (by omega)

theorem Dep.nil (n : ℕ) : Dep n [] := fun _ _ _ _ _ => rfl

theorem Dep.const (n : ℕ) (c : ℤ) : Dep n (Poly.const c) := fun ρ ρ' a b _ => by
  rw [eval_const a, eval_const b]

theorem Dep.var {n i : ℕ} (hi : i < n) (h : i < 65536) : Dep n (Poly.var i) := fun ρ ρ' a b c => by
  rw [eval_var a h, eval_var b h, c i hi]

theorem Dep.add {n : ℕ} {p q : Poly} (hp : Dep n p) (hq : Dep n q) : Dep n (Poly.add p q) := fun ρ ρ' a b c => by
  rw [eval_add, eval_add, hp ρ ρ' a b c, hq ρ ρ' a b c]

theorem Dep.scale {n : ℕ} {p : Poly} (k : ℤ) (hp : Dep n p) : Dep n (Poly.scale k p) := fun ρ ρ' a b c => by
  rw [eval_scale, eval_scale, hp ρ ρ' a b c]

theorem Dep.sub {n : ℕ} {p q : Poly} (hp : Dep n p) (hq : Dep n q) : Dep n (Poly.sub p q) := fun ρ ρ' a b c => by
  rw [eval_sub, eval_sub, hp ρ ρ' a b c, hq ρ ρ' a b c]

theorem Dep.mul {n : ℕ} {p q r : Poly} (hp : Dep n p) (hq : Dep n q) (hr : Poly.mul p q = some r) : Dep n r :=
  fun ρ ρ' a b c => by
    rw [eval_mul a p q r hr, eval_mul b p q r hr, hp ρ ρ' a b c, hq ρ ρ' a b c]

theorem Dep.horner {n : ℕ} {ps : List Poly} (h : ∀ p ∈ ps, Dep n p) : Dep n (Poly.horner ps) := by
  induction ps with
  | nil => exact Dep.nil n
  | cons p ps ih =>
    exact (h p (by simp)).add ((ih fun q hq => h q (by simp [hq])).scale _)

theorem ubVar_lt {next : ℕ} {ubs : List ℕ} {i u : ℕ} (h : ubVar next ubs i = some u) : i < next := by
  unfold ubVar at h
  by_contra hc
  have : Nat.blt i next = false := by
    by_contra hb
    rw [Bool.not_eq_false, Nat.blt_eq] at hb
    exact hc hb
  rw [this, cond_false] at h
  cases h

theorem ubKey_lt {next : ℕ} {ubs : List ℕ} {k u : ℕ} (h : ubKey next ubs k = some u) :
    k / 65536 < next ∧ k % 65536 < next := by
  unfold ubKey at h
  cases h1 : ubVar next ubs (k / 65536) with
  | none => rw [h1] at h; cases h
  | some x =>
    cases h2 : ubVar next ubs (k % 65536) with
    | none => rw [h1, h2] at h; cases h
    | some y => exact ⟨ubVar_lt h1, ubVar_lt h2⟩

theorem evalKey_dep {n k : ℕ} (h : k / 65536 < n ∧ k % 65536 < n) {ρ ρ' : ℕ → ℕ} (c : ∀ i < n, ρ i = ρ' i) :
    evalKey ρ k = evalKey ρ' k := by
  unfold evalKey; rw [c _ h.1, c _ h.2]

/-- A polynomial that has both bounds depends only on the variables with bounds -/
theorem dep_of_bounds {next : ℕ} {ubs : List ℕ} :
    ∀ (p : Poly) (u l : ℤ), ub next ubs p = some u → lb next ubs p = some l → Dep next p
  | [], _, _, _, _ => Dep.nil _
  | (k, c) :: p, u, l, hu, hl => by
    rw [ub] at hu
    rw [lb] at hl
    cases hr : ub next ubs p with
    | none => rw [hr] at hu; cases hu
    | some r =>
      cases hs : lb next ubs p with
      | none => rw [hs] at hl; cases hl
      | some s =>
        have ih := dep_of_bounds p r s hr hs
        rw [hr] at hu
        rw [hs] at hl
        dsimp only at hu hl
        intro ρ ρ' a b d
        rw [eval_cons, eval_cons, ih ρ ρ' a b d]
        congr 2
        dsimp only
        by_cases hk : k = 0
        · subst hk; rw [evalKey_zero a, evalKey_zero b]
        · have e : (k == 0) = false := by simpa using hk
          rw [e, cond_false] at hu hl
          by_cases hc : c < 0
          · have hc' : ¬ 0 < c := by omega
            rw [decide_eq_false hc', cond_false] at hl
            cases hw : ubKey next ubs k with
            | none => rw [hw] at hl; cases hl
            | some w => exact evalKey_dep (ubKey_lt hw) d
          · rw [decide_eq_false hc, cond_false] at hu
            cases hw : ubKey next ubs k with
            | none => rw [hw] at hu; cases hu
            | some w => exact evalKey_dep (ubKey_lt hw) d

theorem Bnd.fresh {ρ : ℕ → ℕ} {next : ℕ} {ubs : List ℕ} (h : Bnd ρ next ubs) {x u : ℕ} (hx : x ≤ u) :
    Bnd (fun i => if i = next then x else ρ i) (next + 1) (u :: ubs) := by
  intro i w hw
  have hlt := ubVar_lt hw
  unfold ubVar at hw
  rw [Nat.blt_eq.mpr hlt, cond_true] at hw
  dsimp only
  by_cases hi : i = next
  · subst hi
    simp at hw
    rw [if_pos rfl, ← hw]; exact hx
  · rw [if_neg hi]
    have hlt' : i < next := by omega
    apply h i w
    unfold ubVar
    rw [Nat.blt_eq.mpr hlt', cond_true]
    have e : next + 1 - 1 - i = (next - 1 - i) + 1 := by omega
    rw [e, List.getElem?_cons_succ] at hw
    exact hw

end Secuer.X64.Poly
