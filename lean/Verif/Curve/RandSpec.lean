import Verif.Curve.IsogSpec

/-!
# Random points: what the loops return when they return
-/

namespace Secuer.Curve

open Secuer.Mont

variable {F : Type} [Field F] [DecidableEq F] {env : Env F}

/-- Undefined behaviour never happens, for any random values. -/
def NoUB {α : Type} (m : M F α) : Prop := ∀ t, m t ≠ .ub

theorem NoUB.pure {α : Type} (a : α) : NoUB (M.pure a : M F α) := fun _ h => by cases h
theorem NoUB.pure' {α : Type} (a : α) : NoUB (Pure.pure a : M F α) := fun _ h => by cases h
theorem NoUB.abort {α : Type} : NoUB (M.abort : M F α) := fun _ h => by cases h
theorem NoUB.starved {α : Type} : NoUB (M.starved : M F α) := fun _ h => by cases h

/-- Results of a computation. -/
def Ret {α : Type} (m : M F α) (Q : α → Prop) : Prop := ∀ t a t', m t = .ok (a, t') → Q a

theorem bind_ok {α β : Type} {m : M F α} {k : α → M F β} {t : Tape F} {r : β × Tape F}
    (h : (m >>= k) t = .ok r) : ∃ a t', m t = .ok (a, t') ∧ k a t' = .ok r := by
  change M.bind m k t = _ at h
  unfold M.bind at h
  cases hm : m t with
  | ok v => obtain ⟨a, t'⟩ := v; rw [hm] at h; exact ⟨a, t', rfl, h⟩
  | abort => rw [hm] at h; cases h
  | ub => rw [hm] at h; cases h
  | starved => rw [hm] at h; cases h

theorem bind_eq {α β : Type} {m : M F α} {k : α → M F β} {t t' : Tape F} {a : α}
    (h : m t = .ok (a, t')) : (m >>= k) t = k a t' := by
  change M.bind m k t = _
  unfold M.bind
  rw [h]

theorem NoUB.bind {α β : Type} {m : M F α} {k : α → M F β} (hm : NoUB m) (Q : α → Prop) (hQ : Ret m Q)
    (hk : ∀ a, Q a → NoUB (k a)) : NoUB (m >>= k) := by
  intro t h
  change M.bind m k t = _ at h
  unfold M.bind at h
  cases hmt : m t with
  | ok v =>
    obtain ⟨a, t'⟩ := v
    rw [hmt] at h
    exact hk a (hQ t a t' hmt) t' h
  | abort => rw [hmt] at h; cases h
  | ub => exact hm t hmt
  | starved => rw [hmt] at h; cases h

theorem Ret.bind {α β : Type} {m : M F α} {k : α → M F β} {Q : α → Prop} {R : β → Prop} (hQ : Ret m Q)
    (hk : ∀ a, Q a → Ret (k a) R) : Ret (m >>= k) R := by
  intro t b t' h
  obtain ⟨a, t1, h1, h2⟩ := bind_ok h
  exact hk a (hQ _ _ _ h1) _ _ _ h2

theorem Ret.pure {α : Type} {Q : α → Prop} {a : α} (h : Q a) : Ret (Pure.pure a : M F α) Q := by
  intro t a' t' e
  change Out.ok (a, t) = _ at e
  simp only [Out.ok.injEq, Prod.mk.injEq] at e
  rw [← e.1]; exact h

theorem Ret.abort {α : Type} {Q : α → Prop} : Ret (M.abort : M F α) Q := fun _ _ _ e => by cases e
theorem Ret.starved {α : Type} {Q : α → Prop} : Ret (M.starved : M F α) Q := fun _ _ _ e => by cases e
theorem Ret.ub {α : Type} {Q : α → Prop} : Ret (M.ub : M F α) Q := fun _ _ _ e => by cases e

theorem Ret.and {α : Type} {m : M F α} {Q R : α → Prop} (h : Ret m Q) (h' : Ret m R) :
    Ret m (fun a => Q a ∧ R a) := fun t a t' e => ⟨h t a t' e, h' t a t' e⟩

theorem Ret.mono {α : Type} {m : M F α} {Q R : α → Prop} (h : Ret m Q) (hqr : ∀ a, Q a → R a) :
    Ret m R := fun t a t' e => hqr a (h t a t' e)

theorem Ret.lift {α : Type} {o : Out α} {Q : α → Prop} (h : ∀ a, o = .ok a → Q a) :
    Ret (M.lift o : M F α) Q := by
  cases o with
  | ok a => exact Ret.pure (h a rfl)
  | abort => exact Ret.abort
  | ub => exact Ret.ub
  | starved => exact Ret.starved

theorem NoUB.lift {α : Type} {o : Out α} (h : o ≠ .ub) : NoUB (M.lift o : M F α) := by
  cases o with
  | ok a => exact NoUB.pure a
  | abort => exact NoUB.abort
  | ub => exact absurd rfl h
  | starved => exact NoUB.starved

/-! ### `random_point` -/

theorem rhsOf_eq (A x : F) : rhsOf A x = x ^ 3 + A * x ^ 2 + x := by unfold rhsOf; ring

theorem randomPointAux_spec {A : F} : ∀ {l : List F} {x : F} {l' : List F},
    randomPointAux env A l = some (x, l') → IsSquare (rhsOf A x) ∧ x ∈ l ∧ l'.length < l.length
  | [], _, _, h => by simp [randomPointAux] at h
  | x :: xs, y, l', h => by
    simp only [randomPointAux] at h
    split at h
    · rename_i he
      simp only [Option.some.injEq, Prod.mk.injEq] at h
      obtain ⟨rfl, rfl⟩ := h
      exact ⟨⟨_, he.symm⟩, by simp, by simp⟩
    · obtain ⟨h1, h2, h3⟩ := randomPointAux_spec h
      exact ⟨h1, List.mem_cons_of_mem _ h2, by simp; omega⟩

/-- A rational point of the curve. -/
theorem randomPoint_ret (h2F : (2 : F) ≠ 0) {A : F} (hA : A ^ 2 ≠ 4) :
    Ret (randomPoint env A) (fun P => P.Z = 1 ∧ ∃ X : (W A).Point, Rep P X) := by
  intro t P t' h
  unfold randomPoint at h
  cases ha : randomPointAux env A t.pts with
  | none => rw [ha] at h; cases h
  | some v =>
    obtain ⟨x, xs⟩ := v
    rw [ha] at h
    simp only [Out.ok.injEq, Prod.mk.injEq] at h
    obtain ⟨rfl, _⟩ := h
    obtain ⟨⟨y, hy⟩, _⟩ := randomPointAux_spec ha
    refine ⟨rfl, .some x y (W_nonsingular h2F hA ?_), (rep_some_iff _ _).2 ⟨one_ne_zero, by simp⟩⟩
    rw [← rhsOf_eq, hy]; ring

theorem randomPoint_noUB (A : F) : NoUB (randomPoint env A) := by
  intro t h
  unfold randomPoint at h
  cases ha : randomPointAux env A t.pts with
  | none => rw [ha] at h; cases h
  | some v => rw [ha] at h; cases h

/-! ### `random_point_with_order` -/

/-- The constants used for the curve with `C = 1`. -/
theorem consts (A : F) : A + (1 + 1) = A + 2 ∧ (1 + 1 + (1 + 1) : F) = 4 ∧ A - (1 + 1) = A - 2 := by
  refine ⟨by ring, by ring, by ring⟩

theorem randomPointCof_ret {A : F} (l : ℕ) (cof : Pt F → Pt F) {R : Pt F → Prop}
    (h : Ret (randomPoint env A) (fun P => R (cof P))) :
    ∀ n, Ret (randomPointCof env A l cof n) (fun P => P.Z ≠ 0 ∧ R P)
  | 0 => Ret.abort
  | n + 1 => by
    unfold randomPointCof
    refine Ret.bind h (fun P hP => ?_)
    by_cases hz : (cof P).Z = 0
    · simp only [hz, if_true]; exact randomPointCof_ret l cof h n
    · simp only [hz, if_false]; exact Ret.pure ⟨hz, hP⟩

theorem randomPointCof_noUB {A : F} (l : ℕ) (cof : Pt F → Pt F) : ∀ n, NoUB (randomPointCof env A l cof n)
  | 0 => NoUB.abort
  | n + 1 => by
    unfold randomPointCof
    refine NoUB.bind (randomPoint_noUB A) (fun _ => True) (fun _ _ _ _ => trivial) (fun P _ => ?_)
    simp only
    split
    · exact randomPointCof_noUB l cof n
    · exact NoUB.pure' _

theorem orderLoop_spec {A : F} {ℓ : ℕ} {mul : Pt F → Pt F}
    (hmul : ∀ (q : Pt F) (X : (W A).Point), Rep q X → Rep (mul q) (ℓ • X)) :
    ∀ (n e : ℕ) (q : Pt F) (X : (W A).Point) (e' : ℕ) (q' : Pt F), Rep q X → X ≠ 0 →
      orderLoop mul n e q = .ok (e', q') →
      ∃ d, e' = e + d ∧ Rep q' (ℓ ^ d • X) ∧ ℓ ^ d • X ≠ 0 ∧ ℓ ^ (d + 1) • X = 0
  | 0, _, _, _, _, _, _, _, h => by simp [orderLoop] at h
  | n + 1, e, q, X, e', q', hq, hX, h => by
    simp only [orderLoop] at h
    have hm := hmul q X hq
    by_cases hz : (mul q).Z = 0
    · simp only [hz, if_true, Out.ok.injEq, Prod.mk.injEq] at h
      obtain ⟨rfl, rfl⟩ := h
      exact ⟨0, rfl, by simpa using hq, by simpa using hX, by simpa using hm.Z_iff.1 hz⟩
    · simp only [hz, if_false] at h
      obtain ⟨d, h1, h2, h3, h4⟩ := orderLoop_spec hmul n (e + 1) (mul q) (ℓ • X) e' q' hm
        (fun h0 => hz (hm.Z_iff.2 h0)) h
      have e1 : ∀ k : ℕ, ℓ ^ k • (ℓ • X) = ℓ ^ (k + 1) • X := fun k => by
        rw [← mul_nsmul, pow_succ, mul_comm]
      refine ⟨d + 1, by omega, ?_, ?_, ?_⟩
      · rw [← e1]; exact h2
      · rw [← e1]; exact h3
      · rw [← e1]; exact h4

theorem orderLoop_noUB {mul : Pt F → Pt F} : ∀ (n e : ℕ) (q : Pt F), orderLoop mul n e q ≠ .ub
  | 0, _, _ => by simp [orderLoop]
  | n + 1, e, q => by
    simp only [orderLoop]
    split
    · simp
    · exact orderLoop_noUB n _ _

/-- The other prime power dividing `p + 1`. -/
def cofactor (env : Env F) (l : ℕ) : ℕ := if l = 2 then 3 ^ env.e3 else 2 ^ env.e2

/-- `random_point_with_order` returns a rational point, multiplied by the cofactor, with its exact order and
its multiple of order `l`. -/
theorem randomPointWithOrder_ret (h2F : (2 : F) ≠ 0) {A : F} (hA : A ^ 2 ≠ 4) {l : ℕ} (hl : l = 2 ∨ l = 3) :
    Ret (randomPointWithOrder env A l) (fun r => ∃ Y : (W A).Point, Rep r.1 (cofactor env l • Y) ∧ 1 ≤ r.2.1 ∧
      Rep r.2.2 (l ^ (r.2.1 - 1) • cofactor env l • Y) ∧ l ^ (r.2.1 - 1) • cofactor env l • Y ≠ 0 ∧
      l ^ r.2.1 • cofactor env l • Y = 0) := by
  obtain ⟨c1, c2, c3⟩ := consts A
  unfold randomPointWithOrder
  simp only [c1, c2, c3]
  have hcof : ∀ (q : Pt F) (Y : (W A).Point), Rep q Y →
      Rep (if l = 2 then xTPLe q (A - 2) (A + 2) env.e3 else xDBLe q (A + 2) 4 env.e2)
        (cofactor env l • Y) := by
    intro q Y hq
    unfold cofactor
    rcases hl with rfl | rfl
    · simp only [if_true]; exact xTPLe_rep h2F (isPM_std A) _ hq
    · simp only [show ¬ (3 = 2) by norm_num, if_false]; exact xDBLe_rep h2F (is24_std A) _ hq
  have hmul : ∀ (q : Pt F) (X : (W A).Point), Rep q X →
      Rep (if l = 2 then xDBL q (A + 2) 4 else xTPL q (A - 2) (A + 2)) (l • X) := by
    intro q X hq
    rcases hl with rfl | rfl
    · simp only [if_true]; exact xDBL_rep h2F (is24_std A) hq
    · simp only [show ¬ (3 = 2) by norm_num, if_false]; exact xTPL_rep h2F (isPM_std A) hq
  refine Ret.bind (randomPointCof_ret l _ (R := fun P => ∃ Y : (W A).Point, Rep P (cofactor env l • Y)) ?_ _) ?_
  · exact (randomPoint_ret h2F hA).mono (fun P ⟨_, Y, hY⟩ => ⟨Y, hcof P Y hY⟩)
  · rintro P ⟨hz, Y, hY⟩
    refine Ret.bind (Ret.lift (Q := fun r => ∃ d, r.1 = 1 + d ∧ Rep r.2 (l ^ d • cofactor env l • Y) ∧
      l ^ d • cofactor env l • Y ≠ 0 ∧ l ^ (d + 1) • cofactor env l • Y = 0) ?_) ?_
    · rintro ⟨e', q'⟩ h
      exact orderLoop_spec hmul _ 1 P _ e' q' hY (fun h0 => hz (hY.Z_iff.2 h0)) h
    · rintro ⟨e, Q⟩ ⟨d, h1, h2, h3, h4⟩
      refine Ret.pure ⟨Y, hY, ?_⟩
      simp only at h1
      subst h1
      have : 1 + d - 1 = d := by omega
      simp only [this]
      refine ⟨by omega, h2, h3, ?_⟩
      rw [add_comm]; exact h4

theorem randomPointWithOrder_noUB (A : F) (l : ℕ) : NoUB (randomPointWithOrder env A l) := by
  unfold randomPointWithOrder
  refine NoUB.bind (randomPointCof_noUB l _ _) (fun _ => True) (fun _ _ _ _ => trivial) (fun P _ => ?_)
  refine NoUB.bind (NoUB.lift (orderLoop_noUB _ _ _)) (fun _ => True) (fun _ _ _ _ => trivial) (fun r _ => ?_)
  exact NoUB.pure' _

/-- `l^e ∣ p + 1` bounds the order when the group is killed by `p + 1`. -/
theorem randomPointAB_ret (h2F : (2 : F) ≠ 0) {E : Crv F} (hA : (E.A / E.C) ^ 2 ≠ 4)
    (hkill : ∀ Y : (W (E.A / E.C)).Point, (2 ^ env.e2 * 3 ^ env.e3) • Y = 0) {l : ℕ} (hl : l = 2 ∨ l = 3)
    (avoid : Option (Pt F)) :
    Ret (randomPointAB env E l avoid) (fun P => ∃ X : (W (E.A / E.C)).Point, Rep P X ∧
      addOrderOf X = l ^ (if l = 2 then env.e2 else env.e3) ∧
      ∀ b ∈ avoid, ∀ Q, Rep Q (l ^ ((if l = 2 then env.e2 else env.e3) - 1) • X) → pointEqual Q b = false) := by
  unfold randomPointAB
  rw [fp2div_eq]
  set emax := (if l = 2 then env.e2 else env.e3) with hemax
  have hlp : l.Prime := by
    rcases hl with rfl | rfl
    · exact Nat.prime_two
    · exact Nat.prime_three
  have hk : ∀ Y : (W (E.A / E.C)).Point, l ^ emax • cofactor env l • Y = 0 := by
    intro Y
    have := hkill Y
    rw [hemax, ← mul_nsmul]
    unfold cofactor
    rcases hl with rfl | rfl
    · simp only [if_true]; rw [mul_comm]; exact this
    · simp only [show ¬ (3 = 2) by norm_num, if_false]; exact this
  generalize (9999 : ℕ) = n
  induction n with
  | zero => exact Ret.abort
  | succ n ih =>
    unfold randomPointABLoop
    refine Ret.bind (randomPointWithOrder_ret h2F hA hl) ?_
    rintro ⟨P, e, Q⟩ ⟨Y, h1, h2, h3, h4, h5⟩
    simp only at h1 h2 h3 h4 h5 ⊢
    by_cases he : e < emax
    · simp only [he, if_true]; exact ih
    · simp only [he, if_false]
      have hee : e = emax := by
        by_contra hne
        apply h4
        have : e - 1 = emax + (e - 1 - emax) := by omega
        rw [this, pow_add, mul_nsmul, hk, smul_zero]
      by_cases hav : (avoid.any fun a => pointEqual Q a) = true
      · simp only [hav, if_true]; exact ih
      · simp only [hav, if_false]
        refine Ret.pure ⟨cofactor env l • Y, h1, ?_, ?_⟩
        · rw [← hee, addOrderOf_two_pow_iff (by omega) hlp]
          exact ⟨h4, h5⟩
        · rintro b hb Q' hQ'
          rw [← hee] at hQ'
          have hb' : avoid = some b := hb
          rw [hb'] at hav
          simp only [Option.any_some, Bool.not_eq_true] at hav
          obtain ⟨c, hc, e1, e2⟩ := h3.unique hQ'
          simp only [pointEqual, projEqual, decide_eq_false_iff_not] at hav ⊢
          intro hh
          apply hav
          apply mul_left_cancel₀ hc
          rw [e1, e2] at hh
          linear_combination hh

theorem randomPointAB_noUB (E : Crv F) (l : ℕ) (avoid : Option (Pt F)) : NoUB (randomPointAB env E l avoid) := by
  unfold randomPointAB
  generalize (9999 : ℕ) = n
  generalize (if l = 2 then env.e2 else env.e3) = emax
  induction n with
  | zero => exact NoUB.abort
  | succ n ih =>
    unfold randomPointABLoop
    refine NoUB.bind (randomPointWithOrder_noUB _ _) (fun _ => True) (fun _ _ _ _ => trivial) ?_
    rintro ⟨P, e, Q⟩ _
    simp only
    split
    · exact ih
    · split
      · exact ih
      · exact NoUB.pure' _

/-- The search for the backtracking point. -/
theorem backLoop_ret (h2F : (2 : F) ≠ 0) {A : F} (hA : A ^ 2 ≠ 4) (R : Pt F) : ∀ n,
    Ret (backLoop env A R n) (fun b => (∃ X : (W A).Point, Rep b X ∧ 3 • X = 0 ∧ X ≠ 0) ∧ pointEqual b R = false)
  | 0 => Ret.starved
  | n + 1 => by
    unfold backLoop
    refine Ret.bind (randomPointWithOrder_ret h2F hA (Or.inr rfl)) ?_
    rintro ⟨P, e, Q⟩ ⟨Y, h1, h2, h3, h4, h5⟩
    simp only at h1 h2 h3 h4 h5 ⊢
    by_cases hp : pointEqual Q R = true
    · simp only [hp, if_true]; exact backLoop_ret h2F hA R n
    · simp only [hp, if_false]
      refine Ret.pure ⟨⟨_, h3, ?_, h4⟩, by simpa using hp⟩
      rw [← mul_nsmul, ← pow_succ, Nat.sub_add_cancel h2]; exact h5

theorem backLoop_noUB (A : F) (R : Pt F) : ∀ n, NoUB (backLoop env A R n)
  | 0 => NoUB.starved
  | n + 1 => by
    unfold backLoop
    refine NoUB.bind (randomPointWithOrder_noUB _ _) (fun _ => True) (fun _ _ _ _ => trivial) ?_
    rintro ⟨P, e, Q⟩ _
    simp only
    split
    · exact backLoop_noUB A R n
    · exact NoUB.pure' _

end Secuer.Curve
