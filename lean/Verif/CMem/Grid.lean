import Verif.CMem.Generate

/-!
# The grid of `Instance` on memory

The two nested loops of `Instance` in `poik.c` with `assert` compiled out (`NDEBUG`).  The return values of `Isogeny_A` and `Isogeny_B` are
ignored by the code; if one of them is false, curves are copied that were never written, which counts as undefined behaviour.
-/

set_option maxRecDepth 100000

namespace Secuer.CMem

open Secuer.Word Secuer.Field
open Secuer.Text (PFp2)
open Secuer.Protocol (params Secret)
open Secuer.Curve (Pt Crv Out Tape M Chain)
open Secuer.WCurve (Draw V VC VP VL VCh TapeLen fieldTape)

attribute [local instance] Arith.portable

variable {l : Level}

/-! ## The programs -/

/-- The inner loop (`poik.c:1115-1129`), `n` columns left, `bottom.E[col]` at `bE`, `bottom.P[col]` at `bP`; locals: `El`, `Kl` of the
surrounding block, `Et`, `Kt`, `Eb`, `Er`, `Kb`, `Kr` -/
def gridRowM (l : Level) (sp : ℕ) : (n bE bP : ℕ) → Tape Draw → Mem → Out (Mem × Tape Draw)
  | 0, _, _, t, m => .ok (m, t)
  | n + 1, bE, bP, t, m =>
    let v := loc (nw l) sp
    let El := v 0
    let Kl := v 2
    let Et := v 4
    let Kt := v 6
    let Eb := v 8
    let Er := v 10
    let Kb := v 12
    let Kr := v 14
    let m := copyPtM (nw l) bE Et m
    let m := copyPtM (nw l) bP Kt m
    let m := copyPtM (nw l) Kt Kb m
    let m := copyPtM (nw l) Kl Kr m
    match isogenyAM l Et Kt (some Er) (some Kr) none (v 16) m with
    | none => .ub
    | some (false, _) => .ub
    | some (true, m) =>
      bindT (isogenyBM l El Kl (some Eb) (some Kb) none (v 16) t m) fun q t =>
        if q.1 = false then .ub else
        let m := copyPtM (nw l) Eb bE q.2
        let m := copyPtM (nw l) Kb bP m
        let m := copyPtM (nw l) Er El m
        let m := copyPtM (nw l) Kr Kl m
        gridRowM l sp n (bE + 4 * nw l) (bP + 4 * nw l) t m

/-- The outer loop (`poik.c:1112-1132`), `n` rows left, `left.E[row]` at `lE`, `left.P[row]` at `lP`, `right.E[row]` at `rE`, `right.P[row]` at
`rP`, and `w` columns of `bottom` -/
def gridLoopM (l : Level) (sp w bE bP : ℕ) : (n lE lP rE rP : ℕ) → Tape Draw → Mem → Out (Mem × Tape Draw)
  | 0, _, _, _, _, t, m => .ok (m, t)
  | n + 1, lE, lP, rE, rP, t, m =>
    let El := loc (nw l) sp 0
    let Kl := loc (nw l) sp 2
    let m := copyPtM (nw l) lE El m
    let m := copyPtM (nw l) lP Kl m
    bindT (gridRowM l sp w bE bP t m) fun m t =>
      let m := copyPtM (nw l) El rE m
      let m := copyPtM (nw l) Kl rP m
      gridLoopM l sp w bE bP n (lE + 4 * nw l) (lP + 4 * nw l) (rE + 4 * nw l) (rP + 4 * nw l) t m

/-! ## The inner loop -/

theorem copyPtM_bfP {s P Q : ℕ} (m : Mem) (h : P + 4 * nw l ≤ Q ∨ Q + 4 * nw l ≤ P) :
    rdP (nw l) (copyPtM (nw l) P Q m) Q = rdP (nw l) m P ∧ BF s [(8 * Q, 32 * nw l)] m (copyPtM (nw l) P Q m) := by
  have c := copyPtM_effect_ok (s := s) (m := m) (n := nw l) (P := P) (Q := Q) (Or.inr h)
  refine ⟨?_, c.bf.mono (le_refl _) (by simp [ptVars]; omega)⟩
  change Pt.mk _ _ = Pt.mk _ _
  exact congr (congrArg Pt.mk (c.out (Q, _) (List.mem_cons_self ..))) (c.out (Q + 2 * nw l, _) (List.mem_cons_of_mem _ (List.mem_cons_self ..)))

/-- Curves and points, pairwise -/
abbrev rdCPs (l : Level) (m : Mem) (n E P : ℕ) : List (Crv F2 × Pt F2) := (rdCs l m n E).zip (rdPs l m n P)

/-- What the inner loop leaves in memory -/
abbrev RowRes (l : Level) (s n bE bP : ℕ) (m : Mem) (r : List (Crv F2 × Pt F2) × Crv F2 × Pt F2) (m' : Mem) : Prop :=
  r.1 = rdCPs l m' n bE bP ∧ r.2.1 = rdC (nw l) m' (loc (nw l) s 0) ∧ r.2.2 = rdP (nw l) m' (loc (nw l) s 2) ∧
    BF s [(8 * bE, 8 * (n * (4 * nw l))), (8 * bP, 8 * (n * (4 * nw l)))] m m'

set_option maxHeartbeats 1600000 in
theorem gridRowM_spec {s : ℕ} : ∀ (n bE bP : ℕ) (t : Tape Draw) (m : Mem), bE + n * (4 * nw l) ≤ s → bP + n * (4 * nw l) ≤ s →
    (bE + n * (4 * nw l) ≤ bP ∨ bP + n * (4 * nw l) ≤ bE) →
    ResT (RowRes l s n bE bP m) (WProtocol.gridRow l (rdCPs l m n bE bP) (rdC (nw l) m (loc (nw l) s 0)) (rdP (nw l) m (loc (nw l) s 2)) t)
      (gridRowM l s n bE bP t m)
  | 0, bE, bP, t, m, _, _, _ => ⟨rfl, rfl, rfl, rfl, (BF.refl _ _).mono (le_refl _) (by simp)⟩
  | n + 1, bE, bP, t, m, h1, h2, h3 => by
    rw [Nat.succ_mul n (4 * nw l)] at h1 h2 h3
    have l0 : loc (nw l) s 0 = s := by rw [loc_eq]; omega
    have l2 : loc (nw l) s 2 = s + 4 * nw l := by rw [loc_eq]; omega
    have l4 : loc (nw l) s 4 = s + 8 * nw l := by rw [loc_eq]; omega
    have l6 : loc (nw l) s 6 = s + 12 * nw l := by rw [loc_eq]; omega
    have l8 : loc (nw l) s 8 = s + 16 * nw l := by rw [loc_eq]; omega
    have l10 : loc (nw l) s 10 = s + 20 * nw l := by rw [loc_eq]; omega
    have l12 : loc (nw l) s 12 = s + 24 * nw l := by rw [loc_eq]; omega
    have l14 : loc (nw l) s 14 = s + 28 * nw l := by rw [loc_eq]; omega
    have l16 : loc (nw l) s 16 = s + 32 * nw l := by rw [loc_eq]; omega
    have e1 : rdCPs l m (n + 1) bE bP = (rdC (nw l) m bE, rdP (nw l) m bP) :: rdCPs l m n (bE + 4 * nw l) (bP + 4 * nw l) := rfl
    rw [e1, WProtocol.gridRow, gridRowM]
    simp only
    generalize loc (nw l) s 0 = El at l0 ⊢
    generalize loc (nw l) s 2 = Kl at l2 ⊢
    generalize loc (nw l) s 4 = Et at l4 ⊢
    generalize loc (nw l) s 6 = Kt at l6 ⊢
    generalize loc (nw l) s 8 = Eb at l8 ⊢
    generalize loc (nw l) s 10 = Er at l10 ⊢
    generalize loc (nw l) s 12 = Kb at l12 ⊢
    generalize loc (nw l) s 14 = Kr at l14 ⊢
    generalize loc (nw l) s 16 = S at l16 ⊢
    obtain ⟨c1, d1⟩ := copyPtM_bf (l := l) (s := S) (P := bE) (Q := Et) m (by omega)
    generalize copyPtM (nw l) bE Et m = m1 at c1 d1 ⊢
    obtain ⟨c2, d2⟩ := copyPtM_bfP (l := l) (s := S) (P := bP) (Q := Kt) m1 (by omega)
    generalize copyPtM (nw l) bP Kt m1 = m2 at c2 d2 ⊢
    obtain ⟨c3, d3⟩ := copyPtM_bfP (l := l) (s := S) (P := Kt) (Q := Kb) m2 (by omega)
    generalize copyPtM (nw l) Kt Kb m2 = m3 at c3 d3 ⊢
    obtain ⟨c4, d4⟩ := copyPtM_bfP (l := l) (s := S) (P := Kl) (Q := Kr) m3 (by omega)
    generalize copyPtM (nw l) Kl Kr m3 = m4 at c4 d4 ⊢
    have d14 := ((d1.trans d2).trans d3).trans d4
    have vEt : rdC (nw l) m4 Et = rdC (nw l) m bE := by
      rw [((d2.trans d3).trans d4).rdC (by omega) (by simp; omega), c1]
    have vKt : rdP (nw l) m4 Kt = rdP (nw l) m bP := by
      rw [(d3.trans d4).rdP (by omega) (by simp; omega), c2, d1.rdP (by omega) (by simp; omega)]
    have vKb : rdP (nw l) m4 Kb = rdP (nw l) m bP := by
      rw [d4.rdP (by omega) (by simp; omega), c3, c2, d1.rdP (by omega) (by simp; omega)]
    have vKr : rdP (nw l) m4 Kr = rdP (nw l) m Kl := by
      rw [c4, ((d1.trans d2).trans d3).rdP (by omega) (by simp; omega)]
    have vEl : rdC (nw l) m4 El = rdC (nw l) m El := d14.rdC (by omega) (by simp; omega)
    have vKl : rdP (nw l) m4 Kl = rdP (nw l) m Kl := d14.rdP (by omega) (by simp; omega)
    -- Isogeny_A
    have argsA : IsoArgs (nw l) S Et Kt (some Er) (some Kr) none := ⟨⟨by simp; omega, by simp; omega⟩, ⟨by simp; omega, by simp; omega⟩⟩
    have rA := isogenyAM_spec argsA m4
    rw [Option.map_some, vEt, vKt, vKr] at rA
    change ResT _ (M.bind (M.lift (WCurve.isogenyA l (rdC (nw l) m bE) (rdP (nw l) m bP) (some (rdP (nw l) m Kl)))) _ t) _
    simp only [M.bind, M.lift]
    generalize WCurve.isogenyA l (rdC (nw l) m bE) (rdP (nw l) m bP) (some (rdP (nw l) m Kl)) = o at rA ⊢
    generalize isogenyAM l Et Kt (some Er) (some Kr) none S m4 = o' at rA ⊢
    rcases o with (_ | ⟨E', q, b⟩) | _ | _ | _ <;> rcases o' with _ | ⟨_ | _, m5⟩ <;> simp only [IsoRes] at rA
    · trivial
    swap
    · trivial
    rcases q with _ | q
    · exact absurd rA.1 (by simp)
    obtain ⟨-, rA⟩ := rA
    have dA : BF S [(8 * Er, 32 * nw l), (8 * Kr, 32 * nw l)] m4 m5 := rA.bf.mono (le_refl _) (by simp [optVars, crvVars, ptVars]; omega)
    have vEr : rdC (nw l) m5 Er = E' := by
      change Crv.mk _ _ = Crv.mk _ _
      exact congr (congrArg Crv.mk (rA.out (Er, E'.A) (by simp [optVars, crvVars, ptVars])))
        (rA.out (Er + 2 * nw l, E'.C) (by simp [optVars, crvVars, ptVars]))
    have vKr' : rdP (nw l) m5 Kr = q := by
      change Pt.mk _ _ = Pt.mk _ _
      exact congr (congrArg Pt.mk (rA.out (Kr, q.X) (by simp [optVars, crvVars, ptVars])))
        (rA.out (Kr + 2 * nw l, q.Z) (by simp [optVars, crvVars, ptVars]))
    -- Isogeny_B
    have argsB : IsoArgsB (nw l) S El Kl (some Eb) (some Kb) none := ⟨⟨by simp; omega, by simp; omega⟩, ⟨by simp; omega, by simp; omega⟩⟩
    have rB := isogenyBM_spec argsB t m5
    have wEl : rdC (nw l) m5 El = rdC (nw l) m El := by rw [dA.rdC (by omega) (by simp; omega), vEl]
    have wKl : rdP (nw l) m5 Kl = rdP (nw l) m Kl := by rw [dA.rdP (by omega) (by simp; omega), vKl]
    have wKb : rdP (nw l) m5 Kb = rdP (nw l) m bP := by rw [dA.rdP (by omega) (by simp; omega), vKb]
    rw [Option.map_some, wEl, wKl, wKb] at rB
    change ResT _ (M.bind (WCurve.isogenyB l false (rdC (nw l) m El) (rdP (nw l) m Kl) (some (rdP (nw l) m bP))) _ t) _
    refine ResT.bind rB fun r g t hr => ?_
    obtain ⟨bb, m6⟩ := g
    rcases r with _ | ⟨E'', q', b'⟩ <;> rcases bb with _ | _ <;> simp only [IsoResB] at hr
    · trivial
    obtain ⟨r1, r2, rB⟩ := hr
    rcases q' with _ | q'
    · exact absurd r1 (by simp)
    rcases b' with _ | b'
    swap
    · exact absurd r2 (by simp)
    have dB : BF S [(8 * Eb, 32 * nw l), (8 * Kb, 32 * nw l)] m5 m6 := rB.bf.mono (le_refl _) (by simp [optVars, crvVars, ptVars]; omega)
    have vEb : rdC (nw l) m6 Eb = E'' := by
      change Crv.mk _ _ = Crv.mk _ _
      exact congr (congrArg Crv.mk (rB.out (Eb, E''.A) (by simp [optVars, crvVars, ptVars])))
        (rB.out (Eb + 2 * nw l, E''.C) (by simp [optVars, crvVars, ptVars]))
    have vKb' : rdP (nw l) m6 Kb = q' := by
      change Pt.mk _ _ = Pt.mk _ _
      exact congr (congrArg Pt.mk (rB.out (Kb, q'.X) (by simp [optVars, crvVars, ptVars])))
        (rB.out (Kb + 2 * nw l, q'.Z) (by simp [optVars, crvVars, ptVars]))
    rw [if_neg (by simp)]
    dsimp only
    -- the copies
    obtain ⟨f1, g1⟩ := copyPtM_bf (l := l) (s := S) (P := Eb) (Q := bE) m6 (by omega)
    generalize copyPtM (nw l) Eb bE m6 = m7 at f1 g1 ⊢
    obtain ⟨f2, g2⟩ := copyPtM_bfP (l := l) (s := S) (P := Kb) (Q := bP) m7 (by omega)
    generalize copyPtM (nw l) Kb bP m7 = m8 at f2 g2 ⊢
    obtain ⟨f3, g3⟩ := copyPtM_bf (l := l) (s := S) (P := Er) (Q := El) m8 (by omega)
    generalize copyPtM (nw l) Er El m8 = m9 at f3 g3 ⊢
    obtain ⟨f4, g4⟩ := copyPtM_bfP (l := l) (s := S) (P := Kr) (Q := Kl) m9 (by omega)
    generalize copyPtM (nw l) Kr Kl m9 = m10 at f4 g4 ⊢
    have dall := ((((((d14.trans dA).trans dB).trans g1).trans g2).trans g3).trans g4)
    have xE : rdC (nw l) m10 bE = E'' := by
      rw [((g2.trans g3).trans g4).rdC (by omega) (by simp; omega), f1, vEb]
    have xP : rdP (nw l) m10 bP = q' := by
      rw [(g3.trans g4).rdP (by omega) (by simp; omega), f2, g1.rdP (by omega) (by simp; omega), vKb']
    have xEl : rdC (nw l) m10 El = E' := by
      rw [g4.rdC (by omega) (by simp; omega), f3, ((dB.trans g1).trans g2).rdC (by omega) (by simp; omega), vEr]
    have xKl : rdP (nw l) m10 Kl = q := by
      rw [f4, (((dB.trans g1).trans g2).trans g3).rdP (by omega) (by simp; omega), vKr']
    have ih := gridRowM_spec (s := s) n (bE + 4 * nw l) (bP + 4 * nw l) t m10 (by omega) (by omega) (by omega)
    have yE : rdCs l m10 n (bE + 4 * nw l) = rdCs l m n (bE + 4 * nw l) := dall.rdCs (by omega) (by simp; omega)
    have yP : rdPs l m10 n (bP + 4 * nw l) = rdPs l m n (bP + 4 * nw l) := dall.rdPs (by omega) (by simp; omega)
    have i0 : loc (nw l) s 0 = El := by rw [l0, loc_eq]; omega
    have i2 : loc (nw l) s 2 = Kl := by rw [l2, loc_eq]; omega
    rw [rdCPs, yE, yP, i0, i2, xEl, xKl] at ih
    refine ResT.map ih fun r m11 hr => ?_
    obtain ⟨k1, k2, k3, k4⟩ := hr
    rw [i0] at k2
    rw [i2] at k3
    rw [RowRes, i0, i2]
    refine ⟨?_, k2, k3, ?_⟩
    · change _ :: r.1 = (rdC (nw l) m11 bE, rdP (nw l) m11 bP) :: rdCPs l m11 n _ _
      rw [k1, k4.rdC (by omega) (by simp; omega), k4.rdP (by omega) (by simp; omega), xE, xP]
    · rw [Nat.succ_mul n (4 * nw l)]
      exact ((dall.mono (s' := s) (W' := [(8 * bE, 32 * nw l), (8 * bP, 32 * nw l)]) (by omega) (by simp; omega)).trans k4).mono (le_refl _)
        (by simp; omega)

/-! ## The outer loop -/

set_option maxHeartbeats 1600000 in
theorem gridLoopM_spec {s w bE bP : ℕ} (b1 : bE + w * (4 * nw l) ≤ s) (b2 : bP + w * (4 * nw l) ≤ s)
    (b3 : bE + w * (4 * nw l) ≤ bP ∨ bP + w * (4 * nw l) ≤ bE) : ∀ (n lE lP rE rP : ℕ) (t : Tape Draw) (m : Mem),
    lE + n * (4 * nw l) ≤ s → lP + n * (4 * nw l) ≤ s → rE + n * (4 * nw l) ≤ s → rP + n * (4 * nw l) ≤ s →
    (∀ a ∈ [lE, lP, rE, rP], ∀ b ∈ [bE, bP], a + n * (4 * nw l) ≤ b ∨ b + w * (4 * nw l) ≤ a) →
    (∀ a ∈ [lE, lP], ∀ b ∈ [rE, rP], a + n * (4 * nw l) ≤ b ∨ b + n * (4 * nw l) ≤ a) →
    (rE + n * (4 * nw l) ≤ rP ∨ rP + n * (4 * nw l) ≤ rE) →
    ResT (fun r m' => r.1 = rdCPs l m' w bE bP ∧ r.2 = rdCPs l m' n rE rP ∧
        BF s [(8 * bE, 8 * (w * (4 * nw l))), (8 * bP, 8 * (w * (4 * nw l))), (8 * rE, 8 * (n * (4 * nw l))), (8 * rP, 8 * (n * (4 * nw l)))] m m')
      (WProtocol.gridLoop l (rdCPs l m n lE lP) (rdCPs l m w bE bP) t) (gridLoopM l s w bE bP n lE lP rE rP t m)
  | 0, lE, lP, rE, rP, t, m, _, _, _, _, _, _, _ => ⟨rfl, rfl, rfl, (BF.refl _ _).mono (le_refl _) (by simp)⟩
  | n + 1, lE, lP, rE, rP, t, m, h1, h2, h3, h4, h5, h6, h7 => by
    simp only [Nat.succ_mul n (4 * nw l)] at h1 h2 h3 h4 h5 h6 h7 ⊢
    simp at h5 h6
    have l0 : loc (nw l) s 0 = s := by rw [loc_eq]; omega
    have l2 : loc (nw l) s 2 = s + 4 * nw l := by rw [loc_eq]; omega
    have e1 : rdCPs l m (n + 1) lE lP = (rdC (nw l) m lE, rdP (nw l) m lP) :: rdCPs l m n (lE + 4 * nw l) (lP + 4 * nw l) := rfl
    rw [e1, WProtocol.gridLoop, gridLoopM]
    simp only
    obtain ⟨c1, d1⟩ := copyPtM_bf (l := l) (s := s + 8 * nw l) (P := lE) (Q := loc (nw l) s 0) m (by omega)
    generalize copyPtM (nw l) lE (loc (nw l) s 0) m = m1 at c1 d1 ⊢
    obtain ⟨c2, d2⟩ := copyPtM_bfP (l := l) (s := s + 8 * nw l) (P := lP) (Q := loc (nw l) s 2) m1 (by omega)
    generalize copyPtM (nw l) lP (loc (nw l) s 2) m1 = m2 at c2 d2 ⊢
    have d12 : BF s [] m m2 := (d1.trans d2).mono (by omega) (by simp; omega)
    have vE : rdC (nw l) m2 (loc (nw l) s 0) = rdC (nw l) m lE := by rw [d2.rdC (by omega) (by simp; omega), c1]
    have vP : rdP (nw l) m2 (loc (nw l) s 2) = rdP (nw l) m lP := by rw [c2, d1.rdP (by omega) (by simp; omega)]
    have r := gridRowM_spec (l := l) (s := s) w bE bP t m2 b1 b2 b3
    rw [vE, vP, rdCPs, d12.rdCs b1 (by simp), d12.rdPs b2 (by simp)] at r
    refine ResT.bind r fun a m3 t hr => ?_
    obtain ⟨k1, k2, k3, k4⟩ := hr
    obtain ⟨c4, d4⟩ := copyPtM_bf (l := l) (s := s + 8 * nw l) (P := loc (nw l) s 0) (Q := rE) m3 (by omega)
    generalize copyPtM (nw l) (loc (nw l) s 0) rE m3 = m4 at c4 d4 ⊢
    obtain ⟨c5, d5⟩ := copyPtM_bfP (l := l) (s := s + 8 * nw l) (P := loc (nw l) s 2) (Q := rP) m4 (by omega)
    generalize copyPtM (nw l) (loc (nw l) s 2) rP m4 = m5 at c5 d5 ⊢
    have d35 : BF s [(8 * rE, 32 * nw l), (8 * rP, 32 * nw l)] m3 m5 := (d4.trans d5).mono (by omega) (by simp)
    have xE : rdC (nw l) m5 rE = a.2.1 := by rw [d5.rdC (by omega) (by simp; omega), c4, k2]
    have xP : rdP (nw l) m5 rP = a.2.2 := by rw [c5, d4.rdP (by omega) (by simp; omega), k3]
    have ih := gridLoopM_spec (s := s) b1 b2 b3 n (lE + 4 * nw l) (lP + 4 * nw l) (rE + 4 * nw l) (rP + 4 * nw l) t m5 (by omega) (by omega) (by omega)
      (by omega) (by simp; omega) (by simp; omega) (by omega)
    have dall := (d12.trans k4).trans d35
    have yE : rdCs l m5 n (lE + 4 * nw l) = rdCs l m n (lE + 4 * nw l) := dall.rdCs (by omega) (by simp; omega)
    have yP : rdPs l m5 n (lP + 4 * nw l) = rdPs l m n (lP + 4 * nw l) := dall.rdPs (by omega) (by simp; omega)
    have zE : rdCs l m5 w bE = rdCs l m3 w bE := d35.rdCs (by omega) (by simp; omega)
    have zP : rdPs l m5 w bP = rdPs l m3 w bP := d35.rdPs (by omega) (by simp; omega)
    rw [rdCPs, rdCPs, yE, yP, zE, zP] at ih
    rw [show (rdCs l m3 w bE).zip (rdPs l m3 w bP) = a.1 from k1.symm] at ih
    refine ResT.map ih fun r m6 hr => ?_
    obtain ⟨j1, j2, j3⟩ := hr
    refine ⟨j1, ?_, (dall.trans j3).mono (le_refl _) (by simp; omega)⟩
    change (a.2.1, a.2.2) :: r.2 = (rdC (nw l) m6 rE, rdP (nw l) m6 rP) :: rdCPs l m6 n _ _
    rw [j2, j3.rdC (by omega) (by simp; omega), j3.rdP (by omega) (by simp; omega), xE, xP]

end Secuer.CMem
