import Verif.CMem.IsogB

/-!
# `Check_Curve` on memory

The local variables `max2`, `max3`, `cur2`, `cur3` of `Check_Curve` (`poik.c:775-840`) consist of a point, which is in memory here, and of a
number, which is not.  `cur2` and `cur3` are not initialised by the code; the points in them are then what the stack contains.
-/

namespace Secuer.CMem

open Secuer.Word Secuer.Field
open Secuer.Curve (Pt Crv Iso Out Tape)
open Secuer.WCurve (Draw)

attribute [local instance] Arith.portable

variable {l : Level}

/-! ## The program -/

/-- One of the loops `for (cur.h = 0; cur.h < …; ++cur.h)` (`poik.c:799-804`, `817-822`), `n` iterations left: `cur.h` and the memory -/
def valLoopM (l : Level) (mul : Mem → Mem) (Q cur sp : ℕ) : (n h : ℕ) → Mem → ℕ × Mem
  | 0, h, m => (h, m)
  | n + 1, h, m =>
    let r := fp2IszeroM (tables l) (Q + 2 * nw l) sp m
    if r.1 ≠ 0 then (h, r.2) else valLoopM l mul Q cur sp n (h + 1) (mul (copyPtM (nw l) Q cur r.2))

/-- This loop, the check after it, and the comparison with the point found before (`poik.c:799-811`, `817-829`): `cur.h`, and what
`point_equal` returns, or `none` if the check fails -/
def partM (l : Level) (mul : Mem → Mem) (Q cur max sp n : ℕ) (m : Mem) : ℕ × Option (BitVec 8) × Mem :=
  let c := valLoopM l mul Q cur sp n 0 m
  let r := fp2IszeroM (tables l) (Q + 2 * nw l) sp c.2
  if r.1 = 0 then (c.1, none, r.2) else
  let r := projEqualM l cur (cur + 2 * nw l) max (max + 2 * nw l) sp r.2
  (c.1, some r.1, r.2)

/-- The loop of `Check_Curve` (`poik.c:791-837`), `n` iterations left; `max2.h`, `max3.h` are arguments.  The local variables are `A24plus`,
`A24minus`, `C24` at `v 0`, `v 1`, `v 2`, then `max2.T`, `max3.T`, `P`, `Q`, `cur2.T`, `cur3.T`. -/
def checkLoopM (l : Level) (E : ℕ) (v : ℕ → ℕ) (sp : ℕ) : (n : ℕ) → (max2 max3 : ℕ) → Tape Draw → Mem → Out ((Bool × Mem) × Tape Draw)
  | 0, _, _, _, _ => .abort
  | n + 1, max2, max3, t, m =>
    let X := portable l
    bindT (randomPointM l E (v 7) sp t m) fun m t =>
      let m := xTPLeM X (v 7) (v 9) (v 1) (v 0) l.iso.e3 sp m
      let c2 := partM l (xDBLM X (v 9) (v 9) (v 0) (v 2) sp) (v 9) (v 11) (v 3) sp l.iso.e2 m
      match c2.2.1 with
      | none => .ok ((false, c2.2.2), t)
      | some eq2 =>
        let ord2 := if eq2 ≠ 0 then max2 else max2 + c2.1
        if l.po ord2 max3 then .ok ((true, c2.2.2), t) else
        let m := xDBLeM X (v 7) (v 9) (v 0) (v 2) c2.1 sp c2.2.2
        let c3 := partM l (xTPLM X (v 9) (v 9) (v 1) (v 0) sp) (v 9) (v 13) (v 5) sp l.iso.e3 m
        match c3.2.1 with
        | none => .ok ((false, c3.2.2), t)
        | some eq3 =>
          let ord3 := if eq3 ≠ 0 then max3 else max3 + c3.1
          if l.po ord2 ord3 then .ok ((true, c3.2.2), t) else
          let m := c3.2.2
          let m := if c2.1 > max2 then copyPtM (nw l) (v 11) (v 3) m else m
          let m := if c3.1 > max3 then copyPtM (nw l) (v 13) (v 5) m else m
          checkLoopM l E v sp n (if c2.1 > max2 then c2.1 else max2) (if c3.1 > max3 then c3.1 else max3) t m

/-- `Check_Curve` (`poik.c:775-840`) with `assert` compiled out -/
def checkCurveM (l : Level) (E sp : ℕ) (t : Tape Draw) (m : Mem) : Out ((Bool × Mem) × Tape Draw) :=
  let X := portable l
  let v := loc (nw l) sp
  let m := acToAac24M X E (v 0) (v 1) (v 2) (v 15) m
  let m := X.runs (v 15) [.zero (v 3), .zero (v 4), .zero (v 5), .zero (v 6)] m
  checkLoopM l E v (v 15) 9999 0 0 t m

/-! ## The loops on values -/

/-- One iteration of the loop on values -/
def checkStep (l : Level) (j : Pt F2 × Pt F2) (P : Pt F2) (A24plus A24minus C24 : F2) (max2 max3 : Pt F2 × ℕ) :
    Bool ⊕ ((Pt F2 × ℕ) × (Pt F2 × ℕ)) :=
  let c2 := WCurve.valLoop l (fun Q => WCurve.xDBL l Q A24plus C24) l.iso.e2 0 j.1 (WCurve.xTPLe l P A24minus A24plus l.iso.e3)
  if WCurve.iszero l c2.2.2.Z = 0 then .inl false else
  let ord2 := if WCurve.pointEqual l c2.2.1 max2.1 ≠ 0 then max2.2 else max2.2 + c2.1
  if l.po ord2 max3.2 then .inl true else
  let c3 := WCurve.valLoop l (fun Q => WCurve.xTPL l Q A24minus A24plus) l.iso.e3 0 j.2 (WCurve.xDBLe l P A24plus C24 c2.1)
  if WCurve.iszero l c3.2.2.Z = 0 then .inl false else
  let ord3 := if WCurve.pointEqual l c3.2.1 max3.1 ≠ 0 then max3.2 else max3.2 + c3.1
  if l.po ord2 ord3 then .inl true else
  .inr (if c2.1 > max2.2 then (c2.2.1, c2.1) else max2, if c3.1 > max3.2 then (c3.2.1, c3.1) else max3)

theorem checkCurveLoop_succ (junk : ℕ → Pt F2 × Pt F2) (A A24plus A24minus C24 : F2) (n : ℕ) (max2 max3 : Pt F2 × ℕ) :
    WCurve.checkCurveLoop l junk A A24plus A24minus C24 (n + 1) max2 max3 = Curve.M.bind (WCurve.randomPoint l A) fun P =>
      match checkStep l (junk n) P A24plus A24minus C24 max2 max3 with
      | .inl b => Curve.M.pure b
      | .inr x => WCurve.checkCurveLoop l junk A A24plus A24minus C24 n x.1 x.2 := by
  rw [WCurve.checkCurveLoop]
  change Curve.M.bind _ _ = _
  congr 1
  funext P
  unfold checkStep
  simp only
  generalize WCurve.valLoop l (fun Q => WCurve.xDBL l Q A24plus C24) _ _ _ _ = c2
  obtain ⟨h2, T2, Q2⟩ := c2
  simp only
  by_cases hz : WCurve.iszero l Q2.Z = 0
  · rw [if_pos hz, if_pos hz]; rfl
  rw [if_neg hz, if_neg hz]
  generalize (if WCurve.pointEqual l T2 max2.1 ≠ 0 then max2.2 else max2.2 + h2) = ord2
  by_cases hp : l.po ord2 max3.2 = true
  · rw [if_pos hp, if_pos hp]; rfl
  rw [if_neg hp, if_neg hp]
  generalize WCurve.valLoop l (fun Q => WCurve.xTPL l Q A24minus A24plus) _ _ _ _ = c3
  obtain ⟨h3, T3, Q3⟩ := c3
  simp only
  by_cases hz : WCurve.iszero l Q3.Z = 0
  · rw [if_pos hz, if_pos hz]; rfl
  rw [if_neg hz, if_neg hz]
  generalize (if WCurve.pointEqual l T3 max3.1 ≠ 0 then max3.2 else max3.2 + h3) = ord3
  by_cases hp : l.po ord2 ord3 = true
  · rw [if_pos hp, if_pos hp]; rfl
  rw [if_neg hp, if_neg hp]

theorem checkCurveLoop_congr {junk junk' : ℕ → Pt F2 × Pt F2} {A A24plus A24minus C24 : F2} (n : ℕ) : ∀ (max2 max3 : Pt F2 × ℕ),
    (∀ i < n, junk i = junk' i) →
    WCurve.checkCurveLoop l junk A A24plus A24minus C24 n max2 max3 = WCurve.checkCurveLoop l junk' A A24plus A24minus C24 n max2 max3 := by
  induction n with
  | zero => intro _ _ _; rw [WCurve.checkCurveLoop, WCurve.checkCurveLoop]
  | succ n ih =>
    intro max2 max3 h
    rw [checkCurveLoop_succ, checkCurveLoop_succ]
    refine congrArg (Curve.M.bind _) (funext fun P => ?_)
    rw [h n (by omega)]
    generalize checkStep l (junk' n) P A24plus A24minus C24 max2 max3 = o
    rcases o with b | x
    · rfl
    · exact ih _ _ fun i hi => h i (by omega)

/-! ## The loops on memory -/

section
variable {E s : ℕ} {m₀ : Mem}

/-- The three coefficients -/
def Coef (σ : ℕ → F2) (p a c : F2) : Prop := σ 2 = p ∧ σ 3 = a ∧ σ 4 = c

theorem valLoopM_spec (hL : Layout (nw l) s [E, E + 2 * nw l]) {p a c : F2} {mul : Mem → Mem} {f : Pt F2 → Pt F2} {cur ic : ℕ}
    (hc : cur = addr (nw l) s [E, E + 2 * nw l] ic) (hc' : cur + 2 * nw l = addr (nw l) s [E, E + 2 * nw l] (ic + 1)) (hi : 13 ≤ ic) (hi' : ic < 16)
    (hmul : ∀ {m : Mem} {σ : ℕ → F2}, At (nw l) s [E, E + 2 * nw l] 15 m₀ m σ → Coef σ p a c →
      ∃ σ', At (nw l) s [E, E + 2 * nw l] 15 m₀ (mul m) σ' ∧ ptOf σ' 11 = f (ptOf σ 11) ∧ ∀ i, i ≠ 11 → i ≠ 12 → σ' i = σ i) :
    ∀ (n h : ℕ) {m : Mem} {σ : ℕ → F2}, At (nw l) s [E, E + 2 * nw l] 15 m₀ m σ → Coef σ p a c →
    ∃ σ', At (nw l) s [E, E + 2 * nw l] 15 m₀ (valLoopM l mul (loc (nw l) s 9) cur (loc (nw l) s 15) n h m).2 σ' ∧
      (∀ i, i ≠ 11 → i ≠ 12 → i ≠ ic → i ≠ ic + 1 → σ' i = σ i) ∧
      WCurve.valLoop l f n h (ptOf σ ic) (ptOf σ 11) = ((valLoopM l mul (loc (nw l) s 9) cur (loc (nw l) s 15) n h m).1, ptOf σ' ic, ptOf σ' 11)
  | 0, h, m, σ, ha, _ => ⟨σ, ha, fun _ _ _ _ _ => rfl, rfl⟩
  | n + 1, h, m, σ, ha, hk => by
    obtain ⟨q1, q2⟩ := fp2IszeroM_spec (s := loc (nw l) s 15) (m := m) (a := loc (nw l) s 10) (good l)
      (addr_below (i := 12) (k := 15) hL (by simp))
    have w : rdF (tables l).n m (loc (nw l) s 10) = (ptOf σ 11).Z := ha.val (i := 12) (by simp)
    rw [w] at q1
    have q1' : (fp2IszeroM (tables l) (loc (nw l) s 9 + 2 * nw l) (loc (nw l) s 15) m).1 = WCurve.iszero l (ptOf σ 11).Z := q1
    have a1 : At (nw l) s [E, E + 2 * nw l] 15 m₀ (fp2IszeroM (tables l) (loc (nw l) s 9 + 2 * nw l) (loc (nw l) s 15) m).2 σ := ha.agree hL q2
    rw [valLoopM, WCurve.valLoop, q1']
    by_cases hz : WCurve.iszero l (ptOf σ 11).Z ≠ 0
    · rw [if_pos hz, if_pos hz]
      exact ⟨σ, a1, fun _ _ _ _ _ => rfl, rfl⟩
    · rw [if_neg hz, if_neg hz]
      generalize (fp2IszeroM (tables l) (loc (nw l) s 9 + 2 * nw l) (loc (nw l) s 15) m).2 = m1 at a1 ⊢
      have lay := hL.call 15 [11, 12, ic, ic + 1] (by simp; omega) (by simp; omega)
      have c2 : Effect (nw l) (loc (nw l) s 15) m1 (copyPtM (nw l) (loc (nw l) s 9) cur m1) (ptVars (nw l) cur (rdP (nw l) m1 (loc (nw l) s 9))) :=
        copyPtM_effect (by rw [hc', hc]; exact lay)
      have eQ : rdP (nw l) m1 (loc (nw l) s 9) = ptOf σ 11 := by
        change _ = Pt.mk (σ 11) (σ 12)
        exact congr (congrArg Pt.mk (a1.val (i := 11) (by simp))) (a1.val (i := 12) (by simp))
      rw [eQ, ptVars, hc', hc] at c2
      have a2 := a1.call hL [(ic, (ptOf σ 11).X), (ic + 1, (ptOf σ 11).Z)] (by simp) (by simp; omega) c2
      rw [← hc] at a2
      have n0 : ∀ i, i ≠ ic → i ≠ ic + 1 → setAll σ [(ic, (ptOf σ 11).X), (ic + 1, (ptOf σ 11).Z)] i = σ i := fun i h1 h2 =>
        setAll_of_not_mem _ _ (by simp; omega)
      have k2 : Coef (setAll σ [(ic, (ptOf σ 11).X), (ic + 1, (ptOf σ 11).Z)]) p a c :=
        ⟨(n0 2 (by omega) (by omega)).trans hk.1, (n0 3 (by omega) (by omega)).trans hk.2.1, (n0 4 (by omega) (by omega)).trans hk.2.2⟩
      obtain ⟨σ3, a3, p3, n3⟩ := hmul a2 k2
      have k3 : Coef σ3 p a c := ⟨(n3 2 (by omega) (by omega)).trans k2.1, (n3 3 (by omega) (by omega)).trans k2.2.1,
        (n3 4 (by omega) (by omega)).trans k2.2.2⟩
      obtain ⟨σ4, a4, n4, e4⟩ := valLoopM_spec hL hc hc' hi hi' hmul n (h + 1) a3 k3
      refine ⟨σ4, a4, fun i h1 h2 h3 h4 => ?_, ?_⟩
      · rw [n4 i h1 h2 h3 h4, n3 i h1 h2, n0 i h3 h4]
      · rw [← e4, p3]
        have e11 : ptOf (setAll σ [(ic, (ptOf σ 11).X), (ic + 1, (ptOf σ 11).Z)]) 11 = ptOf σ 11 := by
          rw [ptOf, n0 11 (by omega) (by omega), n0 12 (by omega) (by omega)]; rfl
        have eic : ptOf σ3 ic = ptOf σ 11 := by
          rw [ptOf, n3 ic (by omega) (by omega), n3 (ic + 1) (by omega) (by omega)]
          have h1 := setAll_of_mem [(ic, (ptOf σ 11).X), (ic + 1, (ptOf σ 11).Z)] σ (w := (ic, (ptOf σ 11).X)) (by simp) (by simp)
          have h2 := setAll_of_mem [(ic, (ptOf σ 11).X), (ic + 1, (ptOf σ 11).Z)] σ (w := (ic + 1, (ptOf σ 11).Z)) (by simp) (by simp)
          rw [h1, h2]
        rw [e11, eic]

theorem partM_spec (hL : Layout (nw l) s [E, E + 2 * nw l]) {p a c : F2} {mul : Mem → Mem} {f : Pt F2 → Pt F2} {cur ic max im : ℕ}
    (hc : cur = addr (nw l) s [E, E + 2 * nw l] ic) (hc' : cur + 2 * nw l = addr (nw l) s [E, E + 2 * nw l] (ic + 1)) (hi : 13 ≤ ic) (hi' : ic < 16)
    (hx : max = addr (nw l) s [E, E + 2 * nw l] im) (hx' : max + 2 * nw l = addr (nw l) s [E, E + 2 * nw l] (im + 1)) (hm : im < 10)
    (hmul : ∀ {m : Mem} {σ : ℕ → F2}, At (nw l) s [E, E + 2 * nw l] 15 m₀ m σ → Coef σ p a c →
      ∃ σ', At (nw l) s [E, E + 2 * nw l] 15 m₀ (mul m) σ' ∧ ptOf σ' 11 = f (ptOf σ 11) ∧ ∀ i, i ≠ 11 → i ≠ 12 → σ' i = σ i)
    (n : ℕ) {m : Mem} {σ : ℕ → F2} (ha : At (nw l) s [E, E + 2 * nw l] 15 m₀ m σ) (hk : Coef σ p a c) :
    ∃ σ', At (nw l) s [E, E + 2 * nw l] 15 m₀ (partM l mul (loc (nw l) s 9) cur max (loc (nw l) s 15) n m).2.2 σ' ∧
      (∀ i, i ≠ 11 → i ≠ 12 → i ≠ ic → i ≠ ic + 1 → σ' i = σ i) ∧
      (partM l mul (loc (nw l) s 9) cur max (loc (nw l) s 15) n m).1 = (WCurve.valLoop l f n 0 (ptOf σ ic) (ptOf σ 11)).1 ∧
      ptOf σ' ic = (WCurve.valLoop l f n 0 (ptOf σ ic) (ptOf σ 11)).2.1 ∧
      (partM l mul (loc (nw l) s 9) cur max (loc (nw l) s 15) n m).2.1 =
        if WCurve.iszero l (WCurve.valLoop l f n 0 (ptOf σ ic) (ptOf σ 11)).2.2.Z = 0 then none
        else some (WCurve.pointEqual l (WCurve.valLoop l f n 0 (ptOf σ ic) (ptOf σ 11)).2.1 (ptOf σ im)) := by
  obtain ⟨σ1, a1, n1, e1⟩ := valLoopM_spec hL hc hc' hi hi' hmul n 0 ha hk
  rw [partM]
  simp only
  generalize valLoopM l mul (loc (nw l) s 9) cur (loc (nw l) s 15) n 0 m = o at a1 e1 ⊢
  obtain ⟨h, m1⟩ := o
  simp only at a1 e1 ⊢
  rw [e1]
  simp only
  obtain ⟨q1, q2⟩ := fp2IszeroM_spec (s := loc (nw l) s 15) (m := m1) (a := loc (nw l) s 10) (good l)
    (addr_below (i := 12) (k := 15) hL (by simp))
  have w : rdF (tables l).n m1 (loc (nw l) s 10) = (ptOf σ1 11).Z := a1.val (i := 12) (by simp)
  rw [w] at q1
  have q1' : (fp2IszeroM (tables l) (loc (nw l) s 9 + 2 * nw l) (loc (nw l) s 15) m1).1 = WCurve.iszero l (ptOf σ1 11).Z := q1
  have a2 : At (nw l) s [E, E + 2 * nw l] 15 m₀ (fp2IszeroM (tables l) (loc (nw l) s 9 + 2 * nw l) (loc (nw l) s 15) m1).2 σ1 := a1.agree hL q2
  rw [q1']
  generalize (fp2IszeroM (tables l) (loc (nw l) s 9 + 2 * nw l) (loc (nw l) s 15) m1).2 = m2 at a2 ⊢
  by_cases hz : WCurve.iszero l (ptOf σ1 11).Z = 0
  · rw [if_pos hz, if_pos hz]
    exact ⟨σ1, a2, n1, rfl, rfl, rfl⟩
  · rw [if_neg hz, if_neg hz]
    have him : ¬ (im = 11 ∨ im = 12 ∨ im = ic ∨ im = ic + 1 ∨ im + 1 = 11 ∨ im + 1 = 12 ∨ im + 1 = ic ∨ im + 1 = ic + 1) := by omega
    have lay := hL.call 15 [ic, ic + 1, im, im + 1] (by simp; omega) (by simp; omega)
    simp only [List.map_cons, List.map_nil] at lay
    rw [← hc, ← hc', ← hx, ← hx'] at lay
    obtain ⟨p1, p2⟩ := projEqualM_spec m2 lay
    have v0 : rdF (nw l) m2 cur = σ1 ic := by rw [hc]; exact a2.val (by simp; omega)
    have v1 : rdF (nw l) m2 (cur + 2 * nw l) = σ1 (ic + 1) := by rw [hc']; exact a2.val (by simp; omega)
    have v2 : rdF (nw l) m2 max = σ im := by
      rw [hx, a2.val (by simp; omega)]; exact n1 im (by omega) (by omega) (by omega) (by omega)
    have v3 : rdF (nw l) m2 (max + 2 * nw l) = σ (im + 1) := by
      rw [hx', a2.val (by simp; omega)]; exact n1 (im + 1) (by omega) (by omega) (by omega) (by omega)
    rw [v0, v1, v2, v3] at p1
    exact ⟨σ1, a2.agree hL p2, n1, rfl, rfl, congrArg some p1⟩

/-- The variables that the loop does not change -/
def KeptC (σ σ' : ℕ → F2) : Prop := ∀ i < 5, σ' i = σ i

theorem mulA_ok (hL : Layout (nw l) s [E, E + 2 * nw l]) {p a c : F2} {m : Mem} {σ : ℕ → F2} (ha : At (nw l) s [E, E + 2 * nw l] 15 m₀ m σ)
    (hk : Coef σ p a c) : ∃ σ', At (nw l) s [E, E + 2 * nw l] 15 m₀
      (xDBLM (portable l) (loc (nw l) s 9) (loc (nw l) s 9) (loc (nw l) s 0) (loc (nw l) s 2) (loc (nw l) s 15) m) σ' ∧
      ptOf σ' 11 = WCurve.xDBL l (ptOf σ 11) p c ∧ ∀ i, i ≠ 11 → i ≠ 12 → σ' i = σ i := by
  have e : Effect (nw l) (loc (nw l) s 15) m (xDBLM (portable l) (loc (nw l) s 9) (loc (nw l) s 9) (loc (nw l) s 0) (loc (nw l) s 2) (loc (nw l) s 15) m)
      (ptVars (nw l) (loc (nw l) s 9) (WCurve.xDBL l (rdP (nw l) m (loc (nw l) s 9)) (rdF (nw l) m (loc (nw l) s 0)) (rdF (nw l) m (loc (nw l) s 2)))) :=
    xDBLM_effect_inplace (portable l) m (hL.call 15 [11, 12, 2, 4] (by decide) rfl)
  have eQ : rdP (nw l) m (loc (nw l) s 9) = ptOf σ 11 := by
    change _ = Pt.mk (σ 11) (σ 12)
    exact congr (congrArg Pt.mk (ha.val (i := 11) (by simp))) (ha.val (i := 12) (by simp))
  have v0 : rdF (nw l) m (loc (nw l) s 0) = p := (ha.val (i := 2) (by simp)).trans hk.1
  have v2 : rdF (nw l) m (loc (nw l) s 2) = c := (ha.val (i := 4) (by simp)).trans hk.2.2
  rw [eQ, v0, v2] at e
  generalize WCurve.xDBL l (ptOf σ 11) p c = y at e ⊢
  exact ⟨_, ha.call hL [(11, y.X), (12, y.Z)] (by simp) rfl e, rfl, fun i h1 h2 => setAll_of_not_mem _ _ (by simp; omega)⟩

theorem mulB_ok (hL : Layout (nw l) s [E, E + 2 * nw l]) {p a c : F2} {m : Mem} {σ : ℕ → F2} (ha : At (nw l) s [E, E + 2 * nw l] 15 m₀ m σ)
    (hk : Coef σ p a c) : ∃ σ', At (nw l) s [E, E + 2 * nw l] 15 m₀
      (xTPLM (portable l) (loc (nw l) s 9) (loc (nw l) s 9) (loc (nw l) s 1) (loc (nw l) s 0) (loc (nw l) s 15) m) σ' ∧
      ptOf σ' 11 = WCurve.xTPL l (ptOf σ 11) a p ∧ ∀ i, i ≠ 11 → i ≠ 12 → σ' i = σ i := by
  have e : Effect (nw l) (loc (nw l) s 15) m (xTPLM (portable l) (loc (nw l) s 9) (loc (nw l) s 9) (loc (nw l) s 1) (loc (nw l) s 0) (loc (nw l) s 15) m)
      (ptVars (nw l) (loc (nw l) s 9) (WCurve.xTPL l (rdP (nw l) m (loc (nw l) s 9)) (rdF (nw l) m (loc (nw l) s 1)) (rdF (nw l) m (loc (nw l) s 0)))) :=
    xTPLM_effect_inplace (portable l) m (hL.call 15 [11, 12, 3, 2] (by decide) rfl)
  have eQ : rdP (nw l) m (loc (nw l) s 9) = ptOf σ 11 := by
    change _ = Pt.mk (σ 11) (σ 12)
    exact congr (congrArg Pt.mk (ha.val (i := 11) (by simp))) (ha.val (i := 12) (by simp))
  have v0 : rdF (nw l) m (loc (nw l) s 0) = p := (ha.val (i := 2) (by simp)).trans hk.1
  have v2 : rdF (nw l) m (loc (nw l) s 1) = a := (ha.val (i := 3) (by simp)).trans hk.2.1
  rw [eQ, v0, v2] at e
  generalize WCurve.xTPL l (ptOf σ 11) a p = y at e ⊢
  exact ⟨_, ha.call hL [(11, y.X), (12, y.Z)] (by simp) rfl e, rfl, fun i h1 h2 => setAll_of_not_mem _ _ (by simp; omega)⟩

/-- `max = cur` under a condition -/
theorem copyMax (hL : Layout (nw l) s [E, E + 2 * nw l]) {m : Mem} {σ : ℕ → F2} (ha : At (nw l) s [E, E + 2 * nw l] 15 m₀ m σ)
    {cur ic max im : ℕ} (hc : cur = addr (nw l) s [E, E + 2 * nw l] ic) (hc' : cur + 2 * nw l = addr (nw l) s [E, E + 2 * nw l] (ic + 1))
    (hi : 13 ≤ ic) (hi' : ic < 16) (hx : max = addr (nw l) s [E, E + 2 * nw l] im)
    (hx' : max + 2 * nw l = addr (nw l) s [E, E + 2 * nw l] (im + 1)) (hm : im < 10) (b : Prop) [Decidable b] :
    ∃ σ', At (nw l) s [E, E + 2 * nw l] 15 m₀ (if b then copyPtM (nw l) cur max m else m) σ' ∧
      ptOf σ' im = (if b then ptOf σ ic else ptOf σ im) ∧ ∀ i, i ≠ im → i ≠ im + 1 → σ' i = σ i := by
  by_cases hb : b
  · rw [if_pos hb, if_pos hb]
    have lay := hL.call 15 [ic, ic + 1, im, im + 1] (by simp; omega) (by simp; omega)
    simp only [List.map_cons, List.map_nil] at lay
    rw [← hc, ← hc', ← hx, ← hx'] at lay
    have e := copyPtM_effect (m := m) lay
    have v : rdP (nw l) m cur = ptOf σ ic := by
      have v0 : rdF (nw l) m cur = σ ic := by rw [hc]; exact ha.val (by simp; omega)
      have v1 : rdF (nw l) m (cur + 2 * nw l) = σ (ic + 1) := by rw [hc']; exact ha.val (by simp; omega)
      rw [rdP, v0, v1]; rfl
    rw [v, ptVars, hx', hx] at e
    have a1 := ha.call hL [(im, (ptOf σ ic).X), (im + 1, (ptOf σ ic).Z)] (by simp) (by simp; omega) e
    rw [← hx] at a1
    refine ⟨_, a1, ?_, fun i h1 h2 => setAll_of_not_mem _ _ (by simp; omega)⟩
    have h1 := setAll_of_mem [(im, (ptOf σ ic).X), (im + 1, (ptOf σ ic).Z)] σ (w := (im, (ptOf σ ic).X)) (by simp) (by simp)
    have h2 := setAll_of_mem [(im, (ptOf σ ic).X), (im + 1, (ptOf σ ic).Z)] σ (w := (im + 1, (ptOf σ ic).Z)) (by simp) (by simp)
    rw [ptOf, h1, h2]
  · rw [if_neg hb, if_neg hb]
    exact ⟨σ, ha, rfl, fun _ _ _ => rfl⟩

/-- The part of an iteration after the choice of the point -/
def stepM (l : Level) (v : ℕ → ℕ) (sp : ℕ) (max2 max3 : ℕ) (m : Mem) : Bool × Mem ⊕ (ℕ × ℕ) × Mem :=
  let X := portable l
  let m := xTPLeM X (v 7) (v 9) (v 1) (v 0) l.iso.e3 sp m
  let c2 := partM l (xDBLM X (v 9) (v 9) (v 0) (v 2) sp) (v 9) (v 11) (v 3) sp l.iso.e2 m
  match c2.2.1 with
  | none => .inl (false, c2.2.2)
  | some eq2 =>
    let ord2 := if eq2 ≠ 0 then max2 else max2 + c2.1
    if l.po ord2 max3 then .inl (true, c2.2.2) else
    let m := xDBLeM X (v 7) (v 9) (v 0) (v 2) c2.1 sp c2.2.2
    let c3 := partM l (xTPLM X (v 9) (v 9) (v 1) (v 0) sp) (v 9) (v 13) (v 5) sp l.iso.e3 m
    match c3.2.1 with
    | none => .inl (false, c3.2.2)
    | some eq3 =>
      let ord3 := if eq3 ≠ 0 then max3 else max3 + c3.1
      if l.po ord2 ord3 then .inl (true, c3.2.2) else
      let m := c3.2.2
      let m := if c2.1 > max2 then copyPtM (nw l) (v 11) (v 3) m else m
      let m := if c3.1 > max3 then copyPtM (nw l) (v 13) (v 5) m else m
      .inr ((if c2.1 > max2 then c2.1 else max2, if c3.1 > max3 then c3.1 else max3), m)

theorem checkLoopM_succ (v : ℕ → ℕ) (sp n max2 max3 : ℕ) (t : Tape Draw) (m : Mem) : checkLoopM l E v sp (n + 1) max2 max3 t m =
    bindT (randomPointM l E (v 7) sp t m) fun m t =>
      match stepM l v sp max2 max3 m with
      | .inl r => .ok (r, t)
      | .inr x => checkLoopM l E v sp n x.1.1 x.1.2 t x.2 := by
  rw [checkLoopM]
  refine congrArg (bindT _) (funext fun m => funext fun t => ?_)
  unfold stepM
  simp only
  generalize partM l (xDBLM (portable l) _ _ _ _ _) _ _ _ _ _ _ = c2
  obtain ⟨h2, _ | eq2, m2⟩ := c2
  · rfl
  simp only
  generalize (if eq2 ≠ 0 then max2 else max2 + h2) = ord2
  by_cases hp : l.po ord2 max3 = true
  · rw [if_pos hp, if_pos hp]
  rw [if_neg hp, if_neg hp]
  generalize partM l (xTPLM (portable l) _ _ _ _ _) _ _ _ _ _ _ = c3
  obtain ⟨h3, _ | eq3, m3⟩ := c3
  · rfl
  simp only
  generalize (if eq3 ≠ 0 then max3 else max3 + h3) = ord3
  by_cases hp : l.po ord2 ord3 = true
  · rw [if_pos hp, if_pos hp]
  rw [if_neg hp, if_neg hp]

theorem stepM_spec (hL : Layout (nw l) s [E, E + 2 * nw l]) {p a c : F2} {m : Mem} {σ : ℕ → F2} (ha : At (nw l) s [E, E + 2 * nw l] 15 m₀ m σ)
    (hk : Coef σ p a c) {x2 x3 : Pt F2 × ℕ} (h2 : ptOf σ 5 = x2.1) (h3 : ptOf σ 7 = x3.1) :
    match checkStep l (ptOf σ 13, ptOf σ 15) (ptOf σ 9) p a c x2 x3, stepM l (loc (nw l) s) (loc (nw l) s 15) x2.2 x3.2 m with
    | .inl b, .inl r => b = r.1 ∧ ∃ σ', At (nw l) s [E, E + 2 * nw l] 15 m₀ r.2 σ' ∧ KeptC σ σ'
    | .inr y, .inr r => y.1.2 = r.1.1 ∧ y.2.2 = r.1.2 ∧ ∃ σ', At (nw l) s [E, E + 2 * nw l] 15 m₀ r.2 σ' ∧ KeptC σ σ' ∧
        ptOf σ' 5 = y.1.1 ∧ ptOf σ' 7 = y.2.1
    | _, _ => False := by
  unfold stepM checkStep
  simp only
  have eP : ∀ {m' : Mem} {σ' : ℕ → F2}, At (nw l) s [E, E + 2 * nw l] 15 m₀ m' σ' → rdP (nw l) m' (loc (nw l) s 7) = ptOf σ' 9 := fun {m' σ'} h => by
    change _ = Pt.mk (σ' 9) (σ' 10)
    exact congr (congrArg Pt.mk (h.val (i := 9) (by simp))) (h.val (i := 10) (by simp))
  have c1 : Effect (nw l) (loc (nw l) s 15) m (xTPLeM (portable l) (loc (nw l) s 7) (loc (nw l) s 9) (loc (nw l) s 1) (loc (nw l) s 0) l.iso.e3 (loc (nw l) s 15) m)
      (ptVars (nw l) (loc (nw l) s 9) (WCurve.xTPLe l (rdP (nw l) m (loc (nw l) s 7)) (rdF (nw l) m (loc (nw l) s 1)) (rdF (nw l) m (loc (nw l) s 0)) l.iso.e3)) :=
    xTPLeM_effect (portable l) m _ (hL.call 15 [9, 10, 11, 12, 3, 2] (by decide) rfl)
  have v0 : rdF (nw l) m (loc (nw l) s 0) = p := (ha.val (i := 2) (by simp)).trans hk.1
  have v1 : rdF (nw l) m (loc (nw l) s 1) = a := (ha.val (i := 3) (by simp)).trans hk.2.1
  rw [eP ha, v0, v1] at c1
  generalize WCurve.xTPLe l (ptOf σ 9) a p l.iso.e3 = y1 at c1 ⊢
  generalize xTPLeM (portable l) _ _ _ _ _ _ m = m1 at c1 ⊢
  have a1 := ha.call hL [(11, y1.X), (12, y1.Z)] (by simp) rfl c1
  have n1 : ∀ i, i ≠ 11 → i ≠ 12 → setAll σ [(11, y1.X), (12, y1.Z)] i = σ i := fun i h1 h2 => setAll_of_not_mem _ _ (by simp; omega)
  have p1 : ptOf (setAll σ [(11, y1.X), (12, y1.Z)]) 11 = y1 := rfl
  generalize setAll σ [(11, y1.X), (12, y1.Z)] = σ1 at a1 n1 p1
  have t1 : ∀ i, i < 10 ∨ 13 ≤ i → ptOf σ1 i = ptOf σ i := fun i hi => by
    rw [ptOf, n1 i (by omega) (by omega), n1 (i + 1) (by omega) (by omega)]; rfl
  obtain ⟨σ2, a2, n2, e2, f2, g2⟩ := partM_spec hL (p := p) (a := a) (c := c)
    (mul := xDBLM (portable l) (loc (nw l) s 9) (loc (nw l) s 9) (loc (nw l) s 0) (loc (nw l) s 2) (loc (nw l) s 15))
    (f := fun Q => WCurve.xDBL l Q p c) (cur := loc (nw l) s 11) (ic := 13) (max := loc (nw l) s 3) (im := 5) rfl rfl (by omega)
    (by omega) rfl rfl (by omega) (fun {_ _} ha hk => mulA_ok hL ha hk) l.iso.e2 a1
    (show Coef σ1 p a c from ⟨(n1 2 (by omega) (by omega)).trans hk.1, (n1 3 (by omega) (by omega)).trans hk.2.1, (n1 4 (by omega) (by omega)).trans hk.2.2⟩)
  rw [t1 13 (by omega), p1, t1 5 (by omega), h2] at g2
  rw [t1 13 (by omega), p1] at e2 f2
  generalize partM l (xDBLM (portable l) _ _ _ _ _) _ _ _ _ _ _ = c2 at a2 e2 g2 ⊢
  generalize WCurve.valLoop l (fun Q => WCurve.xDBL l Q p c) _ _ _ _ = w2 at e2 f2 g2 ⊢
  obtain ⟨H2, o2, m2⟩ := c2
  obtain ⟨H2', T2, Q2⟩ := w2
  simp only at a2 e2 f2 g2 ⊢
  subst e2
  have K2 : KeptC σ σ2 := fun i hi => (n2 i (by omega) (by omega) (by omega) (by omega)).trans (n1 i (by omega) (by omega))
  by_cases hz : WCurve.iszero l Q2.Z = 0
  · rw [if_pos hz] at g2 ⊢
    subst g2
    exact ⟨rfl, σ2, a2, K2⟩
  rw [if_neg hz] at g2 ⊢
  subst g2
  simp only
  generalize (if WCurve.pointEqual l T2 x2.1 ≠ 0 then x2.2 else x2.2 + H2) = ord2
  by_cases hp : l.po ord2 x3.2 = true
  · rw [if_pos hp, if_pos hp]
    exact ⟨rfl, σ2, a2, K2⟩
  rw [if_neg hp, if_neg hp]
  have c3 : Effect (nw l) (loc (nw l) s 15) m2 (xDBLeM (portable l) (loc (nw l) s 7) (loc (nw l) s 9) (loc (nw l) s 0) (loc (nw l) s 2) H2 (loc (nw l) s 15) m2)
      (ptVars (nw l) (loc (nw l) s 9) (WCurve.xDBLe l (rdP (nw l) m2 (loc (nw l) s 7)) (rdF (nw l) m2 (loc (nw l) s 0)) (rdF (nw l) m2 (loc (nw l) s 2)) H2)) :=
    xDBLeM_effect (portable l) m2 _ (hL.call 15 [9, 10, 11, 12, 2, 4] (by decide) rfl)
  have k2 : Coef σ2 p a c := ⟨(K2 2 (by omega)).trans hk.1, (K2 3 (by omega)).trans hk.2.1, (K2 4 (by omega)).trans hk.2.2⟩
  have v0 : rdF (nw l) m2 (loc (nw l) s 0) = p := (a2.val (i := 2) (by simp)).trans k2.1
  have v1 : rdF (nw l) m2 (loc (nw l) s 2) = c := (a2.val (i := 4) (by simp)).trans k2.2.2
  have t2 : ∀ i, i < 10 ∨ 15 ≤ i → ptOf σ2 i = ptOf σ i := fun i hi => by
    rw [ptOf, n2 i (by omega) (by omega) (by omega) (by omega), n2 (i + 1) (by omega) (by omega) (by omega) (by omega)]
    exact t1 i (by omega)
  rw [eP a2, v0, v1, t2 9 (by omega)] at c3
  generalize WCurve.xDBLe l (ptOf σ 9) p c H2 = y3 at c3 ⊢
  generalize xDBLeM (portable l) _ _ _ _ _ _ m2 = m3 at c3 ⊢
  have a3 := a2.call hL [(11, y3.X), (12, y3.Z)] (by simp) rfl c3
  have n3 : ∀ i, i ≠ 11 → i ≠ 12 → setAll σ2 [(11, y3.X), (12, y3.Z)] i = σ2 i := fun i h1 h2 => setAll_of_not_mem _ _ (by simp; omega)
  have p3 : ptOf (setAll σ2 [(11, y3.X), (12, y3.Z)]) 11 = y3 := rfl
  generalize setAll σ2 [(11, y3.X), (12, y3.Z)] = σ3 at a3 n3 p3
  have t3 : ∀ i, i < 10 ∨ 13 ≤ i → ptOf σ3 i = ptOf σ2 i := fun i hi => by
    rw [ptOf, n3 i (by omega) (by omega), n3 (i + 1) (by omega) (by omega)]; rfl
  have k3 : Coef σ3 p a c := ⟨(n3 2 (by omega) (by omega)).trans k2.1, (n3 3 (by omega) (by omega)).trans k2.2.1, (n3 4 (by omega) (by omega)).trans k2.2.2⟩
  obtain ⟨σ4, a4, n4, e4, f4, g4⟩ := partM_spec hL (p := p) (a := a) (c := c)
    (mul := xTPLM (portable l) (loc (nw l) s 9) (loc (nw l) s 9) (loc (nw l) s 1) (loc (nw l) s 0) (loc (nw l) s 15))
    (f := fun Q => WCurve.xTPL l Q a p) (cur := loc (nw l) s 13) (ic := 15) (max := loc (nw l) s 5) (im := 7) rfl rfl (by omega)
    (by omega) rfl rfl (by omega) (fun {_ _} ha hk => mulB_ok hL ha hk) l.iso.e3 a3 k3
  rw [t3 15 (by omega), t2 15 (by omega), p3, t3 7 (by omega), t2 7 (by omega), h3] at g4
  rw [t3 15 (by omega), t2 15 (by omega), p3] at e4 f4
  generalize partM l (xTPLM (portable l) _ _ _ _ _) _ _ _ _ _ _ = c4 at a4 e4 g4 ⊢
  generalize WCurve.valLoop l (fun Q => WCurve.xTPL l Q a p) _ _ _ _ = w4 at e4 f4 g4 ⊢
  obtain ⟨H3, o4, m4⟩ := c4
  obtain ⟨H3', T3, Q3⟩ := w4
  simp only at a4 e4 f4 g4 ⊢
  subst e4
  have K4 : KeptC σ σ4 := fun i hi => ((n4 i (by omega) (by omega) (by omega) (by omega)).trans (n3 i (by omega) (by omega))).trans (K2 i hi)
  by_cases hz : WCurve.iszero l Q3.Z = 0
  · rw [if_pos hz] at g4 ⊢
    subst g4
    exact ⟨rfl, σ4, a4, K4⟩
  rw [if_neg hz] at g4 ⊢
  subst g4
  simp only
  generalize (if WCurve.pointEqual l T3 x3.1 ≠ 0 then x3.2 else x3.2 + H3) = ord3
  by_cases hp : l.po ord2 ord3 = true
  · rw [if_pos hp, if_pos hp]
    exact ⟨rfl, σ4, a4, K4⟩
  rw [if_neg hp, if_neg hp]
  have t4 : ∀ i, i < 10 ∨ i = 13 → ptOf σ4 i = ptOf σ2 i := fun i hi => by
    rw [ptOf, n4 i (by omega) (by omega) (by omega) (by omega), n4 (i + 1) (by omega) (by omega) (by omega) (by omega)]
    exact t3 i (by omega)
  obtain ⟨σ5, a5, p5, n5⟩ := copyMax hL a4 (cur := loc (nw l) s 11) (ic := 13) (max := loc (nw l) s 3) (im := 5) rfl rfl (by omega)
    (by omega) rfl rfl (by omega) (H2 > x2.2)
  obtain ⟨σ6, a6, p6, n6⟩ := copyMax hL a5 (cur := loc (nw l) s 13) (ic := 15) (max := loc (nw l) s 5) (im := 7) rfl rfl (by omega)
    (by omega) rfl rfl (by omega) (H3 > x3.2)
  refine ⟨by by_cases h : H2 > x2.2 <;> simp only [h, if_true, if_false], by by_cases h : H3 > x3.2 <;> simp only [h, if_true, if_false], σ6, a6,
    fun i hi => ((n6 i (by omega) (by omega)).trans (n5 i (by omega) (by omega))).trans (K4 i hi), ?_, ?_⟩
  · rw [ptOf, n6 5 (by omega) (by omega), n6 6 (by omega) (by omega)]
    refine p5.trans ?_
    rw [t4 13 (by omega), t4 5 (by omega), t2 5 (by omega), h2, f2]
    by_cases h : H2 > x2.2 <;> simp only [h, if_true, if_false]
  · rw [p6]
    have q15 : ptOf σ5 15 = T3 := by rw [ptOf, n5 15 (by omega) (by omega), n5 16 (by omega) (by omega)]; exact f4
    have q7 : ptOf σ5 7 = x3.1 := by
      rw [ptOf, n5 7 (by omega) (by omega), n5 8 (by omega) (by omega)]
      exact ((t4 7 (by omega)).trans (t2 7 (by omega))).trans h3
    rw [q15, q7]
    by_cases h : H3 > x3.2 <;> simp only [h, if_true, if_false]

theorem checkLoopM_spec (hL : Layout (nw l) s [E, E + 2 * nw l]) {A p a c : F2} (n : ℕ) : ∀ {m : Mem} {σ : ℕ → F2} (t : Tape Draw) {x2 x3 : Pt F2 × ℕ},
    At (nw l) s [E, E + 2 * nw l] 15 m₀ m σ → Coef σ p a c → σ 0 = A → ptOf σ 5 = x2.1 → ptOf σ 7 = x3.1 →
    ∃ junk, ResT (fun b r => b = r.1 ∧ ∃ σ', At (nw l) s [E, E + 2 * nw l] 15 m₀ r.2 σ' ∧ KeptC σ σ')
      (WCurve.checkCurveLoop l junk A p a c n x2 x3 t) (checkLoopM l E (loc (nw l) s) (loc (nw l) s 15) n x2.2 x3.2 t m) := by
  induction n with
  | zero =>
    intro m σ t x2 x3 _ _ _ _ _
    exact ⟨fun _ => (x2.1, x2.1), by rw [WCurve.checkCurveLoop, checkLoopM]; trivial⟩
  | succ n ih =>
    intro m σ t x2 x3 ha hk h0 h2 h3
    simp only [checkCurveLoop_succ, checkLoopM_succ]
    have r1 := randomPointM_spec (hL.call 15 [0, 9, 10] (by decide) rfl) t m
    have v0 : rdF (nw l) m (addr (nw l) s [E, E + 2 * nw l] 0) = A := (ha.val (i := 0) (by simp)).trans h0
    rw [v0] at r1
    change ResT _ _ (randomPointM l E (loc (nw l) s 7) (loc (nw l) s 15) t m) at r1
    simp only [Curve.M.bind]
    generalize WCurve.randomPoint l A t = o at r1 ⊢
    generalize randomPointM l E _ _ t m = o' at r1 ⊢
    rcases o with ⟨P, t1⟩ | _ | _ | _ <;> rcases o' with ⟨m1, t2⟩ | _ | _ | _ <;> simp only [ResT] at r1
    · obtain ⟨rfl, e1⟩ := r1
      have a1 := ha.call hL [(9, P.X), (10, P.Z)] (by simp) rfl e1
      have n1 : ∀ i, i ≠ 9 → i ≠ 10 → setAll σ [(9, P.X), (10, P.Z)] i = σ i := fun i h1 h2 => setAll_of_not_mem _ _ (by simp; omega)
      have p1 : ptOf (setAll σ [(9, P.X), (10, P.Z)]) 9 = P := rfl
      generalize setAll σ [(9, P.X), (10, P.Z)] = σ1 at a1 n1 p1
      have K1 : KeptC σ σ1 := fun i hi => n1 i (by omega) (by omega)
      have k1 : Coef σ1 p a c := ⟨(K1 2 (by omega)).trans hk.1, (K1 3 (by omega)).trans hk.2.1, (K1 4 (by omega)).trans hk.2.2⟩
      have t1' : ∀ i, i < 8 → ptOf σ1 i = ptOf σ i := fun i hi => by
        rw [ptOf, n1 i (by omega) (by omega), n1 (i + 1) (by omega) (by omega)]; rfl
      have st := stepM_spec hL a1 k1 ((t1' 5 (by omega)).trans h2) ((t1' 7 (by omega)).trans h3)
      rw [p1] at st
      simp only [bindT]
      generalize hj : (ptOf σ1 13, ptOf σ1 15) = j at st
      generalize hc : checkStep l j P p a c x2 x3 = cs at st
      generalize stepM l _ _ x2.2 x3.2 m1 = sm at st ⊢
      rcases cs with b | y <;> rcases sm with r | r <;> simp only at st
      · refine ⟨fun _ => j, ?_⟩
        rw [hc]
        exact ⟨rfl, st.1, st.2.imp fun σ' h => ⟨h.1, fun i hi => (h.2 i hi).trans (K1 i hi)⟩⟩
      · obtain ⟨s1, s2, σ2, a2, K2, q5, q7⟩ := st
        have K := fun i hi => (K2 i hi).trans (K1 i hi)
        obtain ⟨junk, hr⟩ := ih (m := r.2) (σ := σ2) t1 (x2 := y.1) (x3 := y.2) a2
          ⟨(K 2 (by omega)).trans hk.1, (K 3 (by omega)).trans hk.2.1, (K 4 (by omega)).trans hk.2.2⟩ ((K 0 (by omega)).trans h0) q5 q7
        refine ⟨Function.update junk n j, ?_⟩
        rw [Function.update_self, hc]
        simp only
        rw [checkCurveLoop_congr (junk' := junk) n _ _ fun i hi => Function.update_of_ne (by omega) _ _, ← s1, ← s2]
        exact hr.mono fun b r h => ⟨h.1, h.2.imp fun σ' h => ⟨h.1, fun i hi => (h.2 i hi).trans (K i hi)⟩⟩
    all_goals exact ⟨fun _ => (x2.1, x2.1), trivial⟩

/-- `Check_Curve` on memory does what it does on values, for some contents of the variables that it does not initialise, and changes nothing
below the stack pointer. -/
theorem checkCurveM_spec (hL : Layout (nw l) s [E, E + 2 * nw l]) (t : Tape Draw) (m : Mem) :
    ∃ junk, ResT (fun b r => b = r.1 ∧ Effect (nw l) s m r.2 []) (WCurve.checkCurve l junk (rdC (nw l) m E) t) (checkCurveM l E s t m) := by
  have a0 := At.start (n := nw l) (s := s) (L := [E, E + 2 * nw l]) (k := 15) m
  have c1 := acToAac24M_effect (portable l) m (hL.call 15 [0, 1, 2, 3, 4] (by decide) rfl)
  have a1 := a0.call hL [(2, _), (3, _), (4, _)] (by simp) rfl c1
  have a2 := a1.sim (Sim.ops (portable l) hL [.zero 5, .zero 6, .zero 7, .zero 8] rfl)
  have r := checkLoopM_spec hL (A := rdF (nw l) m E) (p := (WCurve.acToAac24 l (rdC (nw l) m E)).1) (a := (WCurve.acToAac24 l (rdC (nw l) m E)).2.1)
    (c := (WCurve.acToAac24 l (rdC (nw l) m E)).2.2) 9999 t (x2 := (⟨fp2zero (tables l), fp2zero (tables l)⟩, 0))
    (x3 := (⟨fp2zero (tables l), fp2zero (tables l)⟩, 0)) a2 ⟨rfl, rfl, rfl⟩ rfl rfl rfl
  obtain ⟨junk, r⟩ := r
  refine ⟨junk, ?_⟩
  refine ResT.mono (P := fun b r => b = r.1 ∧ ∃ σ', At (nw l) s [E, E + 2 * nw l] 15 m r.2 σ' ∧ KeptC _ σ') r fun b r h => ⟨h.1, ?_⟩
  obtain ⟨-, σ', a3, k3⟩ := h
  refine a3.holds.effect a3.frame [] [0, 1] rfl rfl (by simp) ?_
  simp only [List.forall_mem_cons]
  exact ⟨(k3 0 (by omega)).trans rfl, (k3 1 (by omega)).trans rfl, by simp⟩

end

end Secuer.CMem
