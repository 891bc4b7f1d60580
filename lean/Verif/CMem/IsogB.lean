import Verif.CMem.Random

/-!
# `Isogeny_B` on memory

`Isogeny_B` (`poik.c:651-723`) with `assert` compiled out, in the portable build.  Local variables, counted in elements of GF(p^2) from the
start of the frame: `A24minus` 0, `A24plus` 1, `R` 2, `T` 4, `O` 6, `coeff` 8, `A` 11, the inner `E` 12, `P` 14, `pts` 16.
-/

namespace Secuer.CMem

open Secuer.Word Secuer.Field
open Secuer.Curve (Pt Crv Iso Out Tape StratOps StratState stratInner stratRows)
open Secuer.WCurve (Draw)

variable {l : Level}

/-! ## `proj_equal` -/

/-- `proj_equal` (`poik.c:92-98`) -/
def projEqualM (l : Level) (X1 Z1 X2 Z2 sp : ℕ) (m : Mem) : BitVec 8 × Mem :=
  let v := loc (nw l) sp
  fp2EqualM (tables l) (v 0) (v 1) (v 2) ((portable l).runs (v 2) [.mul X1 Z2 (v 0), .mul X2 Z1 (v 1)] m)

theorem projEqualM_spec (m : Mem) {X1 Z1 X2 Z2 s : ℕ} (hL : Layout (nw l) s [X1, Z1, X2, Z2]) :
    (projEqualM l X1 Z1 X2 Z2 s m).1 = WCurve.projEqual l (rdF (nw l) m X1) (rdF (nw l) m Z1) (rdF (nw l) m X2) (rdF (nw l) m Z2) ∧
      Agree s (projEqualM l X1 Z1 X2 Z2 s m).2 m := by
  have a1 := (At.start (k := 2) m).sim (Sim.ops (portable l) (k := 2) hL [.mul 0 3 4, .mul 2 1 5] rfl)
  generalize hm1 : (portable l).runs _ _ m = m1 at a1
  obtain ⟨q1, q2⟩ := fp2EqualM_spec (m := m1) (a := loc (nw l) s 0) (b := loc (nw l) s 1) (s := loc (nw l) s 2) (good l)
    (addr_below (i := 4) (k := 2) hL (by simp)) (addr_below (i := 5) (k := 2) hL (by simp))
  have e : projEqualM l X1 Z1 X2 Z2 s m = fp2EqualM (tables l) (loc (nw l) s 0) (loc (nw l) s 1) (loc (nw l) s 2) m1 := by
    rw [← hm1]
    rfl
  have v4 : rdF (tables l).n m1 (loc (nw l) s 0) = _ := a1.val (i := 4) (by simp)
  have v5 : rdF (tables l).n m1 (loc (nw l) s 1) = _ := a1.val (i := 5) (by simp)
  rw [v4, v5] at q1
  rw [e]
  refine ⟨q1, fun x hx => ?_⟩
  have he := a1.holds.effect a1.frame [] [0, 1, 2, 3] rfl rfl (by simp) (by
    simp only [List.forall_mem_cons]
    exact ⟨rfl, rfl, rfl, rfl, by simp⟩)
  exact (q2 x (lt_of_lt_of_le hx (le_loc _ _ _))).trans (he.frame x hx (by simp))

/-! ## The program -/

/-- The number of local variables besides `pts` -/
abbrev pts0B : ℕ := 16

/-- `poik.c:655-668`: the check of the order; the value of `bad` -/
def isoBCheckM (l : Level) (E K : ℕ) (v : ℕ → ℕ) (sp : ℕ) (m : Mem) : BitVec 8 × Mem :=
  let X := portable l
  let m := acToAa24M X E (v 1) (v 0) sp m
  let m := copyPtM (nw l) K (v 2) m
  let m := xTPLeM X (v 2) (v 4) (v 0) (v 1) (l.iso.e3 - 1) sp m
  let m := xTPLM X (v 4) (v 6) (v 0) (v 1) sp m
  let r := fp2IszeroM (tables l) (v 5) sp m
  let r' := fp2IszeroM (tables l) (v 7) sp r.2
  (r.1 ||| ~~~ r'.1, r'.2)

/-- The calls in the strategy loop -/
def isoBStrat (l : Level) (Q : Option ℕ) (v : ℕ → ℕ) (sp : ℕ) : StratM where
  R := v 2
  pts := v pts0B
  Q := Q
  sp := sp
  mul e := xTPLeM (portable l) (v 2) (v 2) (v 0) (v 1) e sp
  get := get3isogM (portable l) (v 2) (v 0) (v 1) (v 8) sp
  eval a := eval3isogM (portable l) a (v 8) sp

/-- The loop that looks for a point of order 3 outside the last kernel (`poik.c:707-712`) -/
def backLoopM (l : Level) (back : ℕ) (v : ℕ → ℕ) (sp : ℕ) : (fuel : ℕ) → Tape Draw → Mem → Out (Mem × Tape Draw)
  | 0, _, _ => .starved
  | n + 1, t, m =>
    bindT (randomPointWithOrderM l 3 (v 11) (v 14) back sp t m) fun r t =>
      let r := projEqualM l back (back + 2 * nw l) (v 2) (v 3) sp r.2
      if r.1 ≠ 0 then backLoopM l back v sp n t r.2 else .ok (r.2, t)

/-- `poik.c:700-713` -/
def isoBBackM (l : Level) (back : Option ℕ) (v : ℕ → ℕ) (sp : ℕ) (t : Tape Draw) (m : Mem) : Out (Mem × Tape Draw) :=
  match back with
  | none => .ok (m, t)
  | some back =>
    let m := aa24ToAcM (portable l) (v 0) (v 1) (v 12) sp m
    let m := divM (portable l) (v 12) (v 13) (v 11) sp m
    backLoopM l back v sp (t.pts.length + 1) t m

/-- `Isogeny_B` (`poik.c:651-723`) with `assert` compiled out; `ub` if there is an access outside an array.  The first `8 n` digits of the
frame are not used. -/
def isogenyBM (l : Level) (E K : ℕ) (EE Q back : Option ℕ) (sp : ℕ) (t : Tape Draw) (m : Mem) : Out ((Bool × Mem) × Tape Draw) :=
  let X := portable l
  let v := loc (nw l) (loc (nw l) sp 4)
  let sp := v (pts0B + 2 * l.iso.ptsB)
  let r := isoBCheckM l E K v sp m
  if r.1 ≠ 0 then .ok ((false, r.2), t) else
  let o := isoBStrat l Q v sp
  match stratRowsM l o l.iso.ptsB (l.iso.maxB - 1) ⟨r.2, 0, [], l.iso.stratB⟩ with
  | none => .ub
  | some x =>
    bindT (isoBBackM l back v sp t x.mem) fun m t =>
      let m := o.get m
      let m := Q.elim m fun q => o.eval q m
      let m := back.elim m fun b => o.eval b m
      let m := EE.elim m fun EE => aa24ToAcM X (v 0) (v 1) EE sp m
      .ok ((true, m), t)

/-! ## The arguments and local variables as a list -/

/-- The arguments -/
abbrev argB (l : Level) (E K q b : ℕ) : List ℕ := [E, E + 2 * nw l, K, K + 2 * nw l, q, q + 2 * nw l, b, b + 2 * nw l]

section
variable {E K q b s M : ℕ}

theorem len24 : 24 ≤ (argB l E K q b).length + (pts0B + 2 * M) := by simp only [List.length_cons, List.length_nil, pts0B]; omega

/-- The layout for a call with fixed variables -/
theorem callB (hL : Layout (nw l) s (argB l E K q b)) (M : ℕ) (ι : List ℕ) (hn : ι.Nodup) (hb : (ι.all fun i => decide (i < 24)) = true) :
    Layout (nw l) (loc (nw l) s (pts0B + 2 * M)) (ι.map (addr (nw l) s (argB l E K q b))) :=
  hL.call _ ι hn (all_lt hb len24)

variable {m₀ m m' : Mem} {σ : ℕ → F2}

theorem At.callB (h : At (nw l) s (argB l E K q b) (pts0B + 2 * M) m₀ m σ) (hL : Layout (nw l) s (argB l E K q b)) (W : List (ℕ × F2))
    (hn : (W.map Prod.fst).Nodup) (hb : ((W.map Prod.fst).all fun i => decide (i < 24)) = true)
    (he : Effect (nw l) (loc (nw l) s (pts0B + 2 * M)) m m' (W.map fun w => (addr (nw l) s (argB l E K q b) w.1, w.2))) :
    At (nw l) s (argB l E K q b) (pts0B + 2 * M) m₀ m' (setAll σ W) := h.call hL W hn (all_lt hb len24) he

theorem At.valB (h : At (nw l) s (argB l E K q b) (pts0B + 2 * M) m₀ m σ) {i : ℕ} (hi : i < 24) :
    rdF (nw l) m (addr (nw l) s (argB l E K q b) i) = σ i := h.val (lt_of_lt_of_le hi len24)

/-! ## The check of the order -/

theorem isoBCheckM_spec (hL : Layout (nw l) s (argB l E K q b)) (ha : At (nw l) s (argB l E K q b) (pts0B + 2 * M) m₀ m σ)
    {A P : F2} {T' O : Pt F2} (hA : (WCurve.acToAac24 l ⟨σ 0, σ 1⟩).2.1 = A) (hP : (WCurve.acToAac24 l ⟨σ 0, σ 1⟩).1 = P)
    (hT : WCurve.xTPLe l ⟨σ 2, σ 3⟩ A P (l.iso.e3 - 1) = T') (hO : WCurve.xTPL l T' A P = O) :
    (isoBCheckM l E K (loc (nw l) s) (loc (nw l) s (pts0B + 2 * M)) m).1 = (WCurve.iszero l T'.Z ||| ~~~ WCurve.iszero l O.Z) ∧
    ∃ σ', At (nw l) s (argB l E K q b) (pts0B + 2 * M) m₀ (isoBCheckM l E K (loc (nw l) s) (loc (nw l) s (pts0B + 2 * M)) m).2 σ' ∧
      σ' 8 = A ∧ σ' 9 = P ∧ ptOf σ' 10 = ⟨σ 2, σ 3⟩ ∧ ∀ i < 8, σ' i = σ i := by
  have c1 := acToAa24M_effect (portable l) m (callB hL M [0, 1, 9, 8] (by decide) rfl)
  have eE : rdC (nw l) m (addr (nw l) s (argB l E K q b) 0) = ⟨σ 0, σ 1⟩ :=
    congr (congrArg Crv.mk (ha.valB (i := 0) (by decide))) (ha.valB (i := 1) (by decide))
  rw [eE, hA, hP] at c1
  have a1 := ha.callB hL [(9, _), (8, _)] (by simp) rfl c1
  generalize hm1 : acToAa24M (portable l) _ _ _ _ m = m1 at a1
  have c2 : Effect (nw l) (loc (nw l) s (pts0B + 2 * M)) m1 (copyPtM (nw l) K (loc (nw l) s 2) m1) (ptVars (nw l) (loc (nw l) s 2) (rdP (nw l) m1 K)) :=
    copyPtM_effect (callB hL M [2, 3, 10, 11] (by decide) rfl)
  have eK : rdP (nw l) m1 K = ⟨σ 2, σ 3⟩ := congr (congrArg Pt.mk (a1.valB (i := 2) (by decide))) (a1.valB (i := 3) (by decide))
  rw [eK] at c2
  have a2 := a1.callB hL [(10, σ 2), (11, σ 3)] (by simp) rfl c2
  generalize hm2 : copyPtM (nw l) K (loc (nw l) s 2) m1 = m2 at a2
  have c3 := xTPLeM_effect (portable l) m2 (l.iso.e3 - 1) (callB hL M [10, 11, 12, 13, 8, 9] (by decide) rfl)
  have eR : rdP (nw l) m2 (addr (nw l) s (argB l E K q b) 10) = ⟨σ 2, σ 3⟩ :=
    congr (congrArg Pt.mk (a2.valB (i := 10) (by decide))) (a2.valB (i := 11) (by decide))
  have x8 : rdF (nw l) m2 (addr (nw l) s (argB l E K q b) 8) = A := a2.valB (i := 8) (by decide)
  have x9 : rdF (nw l) m2 (addr (nw l) s (argB l E K q b) 9) = P := a2.valB (i := 9) (by decide)
  rw [eR, x8, x9, hT] at c3
  have a3 := a2.callB hL [(12, T'.X), (13, T'.Z)] (by simp) rfl c3
  generalize hm3 : xTPLeM (portable l) _ _ _ _ _ _ m2 = m3 at a3
  have c4 := xTPLM_effect (portable l) m3 (callB hL M [12, 13, 14, 15, 8, 9] (by decide) rfl)
  have eT : rdP (nw l) m3 (addr (nw l) s (argB l E K q b) 12) = T' :=
    congr (congrArg Pt.mk (a3.valB (i := 12) (by decide))) (a3.valB (i := 13) (by decide))
  have y8 : rdF (nw l) m3 (addr (nw l) s (argB l E K q b) 8) = A := a3.valB (i := 8) (by decide)
  have y9 : rdF (nw l) m3 (addr (nw l) s (argB l E K q b) 9) = P := a3.valB (i := 9) (by decide)
  rw [eT, y8, y9, hO] at c4
  have a4 := a3.callB hL [(14, O.X), (15, O.Z)] (by simp) rfl c4
  generalize hm4 : xTPLM (portable l) _ _ _ _ _ m3 = m4 at a4
  obtain ⟨q1, q2⟩ := fp2IszeroM_spec (s := loc (nw l) s (pts0B + 2 * M)) (m := m4) (a := loc (nw l) s 5) (good l)
    (addr_below (i := 13) hL (lt_of_lt_of_le (by decide) len24))
  have w13 : rdF (tables l).n m4 (loc (nw l) s 5) = T'.Z := a4.valB (i := 13) (by decide)
  rw [w13] at q1
  have a5 := a4.agree hL q2
  generalize hm5 : (fp2IszeroM (tables l) (loc (nw l) s 5) (loc (nw l) s (pts0B + 2 * M)) m4).2 = m5 at a5
  obtain ⟨p1, p2⟩ := fp2IszeroM_spec (s := loc (nw l) s (pts0B + 2 * M)) (m := m5) (a := loc (nw l) s 7) (good l)
    (addr_below (i := 15) hL (lt_of_lt_of_le (by decide) len24))
  have w15 : rdF (tables l).n m5 (loc (nw l) s 7) = O.Z := a5.valB (i := 15) (by decide)
  rw [w15] at p1
  have a6 := a5.agree hL p2
  have e : isoBCheckM l E K (loc (nw l) s) (loc (nw l) s (pts0B + 2 * M)) m =
      ((fp2IszeroM (tables l) (loc (nw l) s 5) (loc (nw l) s (pts0B + 2 * M)) m4).1 |||
        ~~~ (fp2IszeroM (tables l) (loc (nw l) s 7) (loc (nw l) s (pts0B + 2 * M)) m5).1,
        (fp2IszeroM (tables l) (loc (nw l) s 7) (loc (nw l) s (pts0B + 2 * M)) m5).2) := by
    rw [← hm5, ← hm4, ← hm3, ← hm2, ← hm1]
    rfl
  rw [e]
  refine ⟨?_, _, a6, rfl, rfl, rfl, fun i hi => ?_⟩
  · simp only
    rw [q1, p1]
    rfl
  · rw [setAll_of_not_mem _ _ (by simp; omega), setAll_of_not_mem _ _ (by simp; omega), setAll_of_not_mem _ _ (by simp; omega),
      setAll_of_not_mem _ _ (by simp; omega)]

/-! ## The steps -/

theorem isoBStrat_ok (hL : Layout (nw l) s (argB l E K q b)) {Q : Option ℕ} (hQ : ∀ a ∈ Q, a = q) :
    StratOk l s (argB l E K q b) (pts0B + 2 * M) (isoBStrat l Q (loc (nw l) s) (loc (nw l) s (pts0B + 2 * M))) (WCurve.opsB l)
      (fun σ => (σ 8, σ 9)) (fun σ => (σ 16, σ 17)) [8, 9, 16, 17] 10 4 24 M where
  lay := hL
  aR := rfl
  aR' := rfl
  aP i := by
    rw [addr_ge (by simp; omega)]
    simp only [ptsAt, isoBStrat, loc_loc, pts0B, List.length_cons, List.length_nil]
    congr 1
    omega
  aP' i := by
    rw [addr_ge (by simp; omega)]
    simp only [ptsAt, isoBStrat, loc_loc, pts0B, List.length_cons, List.length_nil]
    rw [show loc (nw l) s (16 + 2 * i) + 2 * nw l = loc (nw l) s (16 + 2 * i + 1) from rfl]
    congr 1
    omega
  aQ := hQ
  sp := rfl
  le := by simp only [pts0B, List.length_cons, List.length_nil]; omega
  hr := by decide
  hq := by decide
  hrq := by decide
  hS := by decide
  cvS h := by rw [h 8 (by simp), h 9 (by simp)]
  coS h := by rw [h 16 (by simp), h 17 (by simp)]
  mul {m₀ m σ} e ha := by
    have c := xTPLeM_effect_inplace (portable l) m e (callB hL M [10, 11, 8, 9] (by decide) rfl)
    have eR : rdP (nw l) m (addr (nw l) s (argB l E K q b) 10) = ⟨σ 10, σ 11⟩ :=
      congr (congrArg Pt.mk (ha.valB (i := 10) (by decide))) (ha.valB (i := 11) (by decide))
    rw [eR, ha.valB (i := 8) (by decide), ha.valB (i := 9) (by decide)] at c
    exact ⟨_, ha.callB hL [(10, _), (11, _)] (by simp) rfl c, rfl, fun i h1 h2 => setAll_of_not_mem _ _ (by simp; omega)⟩
  get {m₀ m σ} ha := by
    have c := get3isogM_effect (portable l) m (callB hL M [10, 11, 8, 9, 16, 17] (by decide) rfl)
    have eR : rdP (nw l) m (addr (nw l) s (argB l E K q b) 10) = ⟨σ 10, σ 11⟩ :=
      congr (congrArg Pt.mk (ha.valB (i := 10) (by decide))) (ha.valB (i := 11) (by decide))
    rw [eR] at c
    exact ⟨_, ha.callB hL [(8, _), (9, _), (16, _), (17, _)] (by simp) rfl c, rfl, fun i h => setAll_of_not_mem _ _ (by simpa using h)⟩
  eval {m₀ m σ} j hj ha := by
    have hlen : j + 1 < (argB l E K q b).length + (pts0B + 2 * M) := by
      simp only [pts0B, List.length_cons, List.length_nil]
      omega
    have hj' : addr (nw l) s (argB l E K q b) j + 2 * nw l = addr (nw l) s (argB l E K q b) (j + 1) := by
      rcases hj with rfl | hj
      · rfl
      · rw [addr_ge (by simp; omega), addr_ge (by simp; omega)]
        simp only [loc, List.length_cons, List.length_nil, show j + 1 - 8 = (j - 8) + 1 by omega]
    have hn : [j, j + 1, 16, 17].Nodup := by
      simp
      omega
    have hb : ([j, j + 1, 16, 17].all fun i => decide (i < (argB l E K q b).length + (pts0B + 2 * M))) = true := by
      simp only [List.all_cons, List.all_nil, Bool.and_true, Bool.and_eq_true, decide_eq_true_eq]
      have := len24 (l := l) (E := E) (K := K) (q := q) (b := b) (M := M)
      refine ⟨?_, ?_, ?_, ?_⟩ <;> omega
    have hl := hL.call (pts0B + 2 * M) [j, j + 1, 16, 17] hn hb
    simp only [List.map_cons, List.map_nil] at hl
    rw [← hj'] at hl
    have c := eval3isogM_effect (portable l) m (Q := addr (nw l) s (argB l E K q b) j) (coeff := loc (nw l) s 8) hl
    have eR : rdP (nw l) m (addr (nw l) s (argB l E K q b) j) = ptOf σ j := by
      rw [rdP, hj', ha.val (by omega), ha.val hlen, ptOf]
    have v16 : rdF (nw l) m (loc (nw l) s 8) = σ 16 := ha.valB (i := 16) (by decide)
    have v17 : rdF (nw l) m (loc (nw l) s 8 + 2 * nw l) = σ 17 := ha.valB (i := 17) (by decide)
    rw [eR, v16, v17, ptVars, hj'] at c
    refine ⟨_, ha.call hL [(j, _), (j + 1, _)] (by simp) ?_ c, ?_, fun i h1 h2 => setAll_of_not_mem _ _ (by simp; omega)⟩
    · simp only [List.map_cons, List.map_nil, List.all_cons, List.all_nil, Bool.and_true, Bool.and_eq_true, decide_eq_true_eq]
      omega
    · simp [ptOf, setAll, Function.update, WCurve.opsB]

theorem isoBStrat_eval (Q : Option ℕ) (v : ℕ → ℕ) (sp a : ℕ) (m : Mem) :
    (isoBStrat l Q v sp).eval a m = eval3isogM (portable l) a (v 8) sp m := rfl

/-- `eval_3_isog` at `back` -/
theorem evalBackM (hL : Layout (nw l) s (argB l E K q b)) (ha : At (nw l) s (argB l E K q b) (pts0B + 2 * M) m₀ m σ) :
    ∃ σ', At (nw l) s (argB l E K q b) (pts0B + 2 * M) m₀ (eval3isogM (portable l) b (loc (nw l) s 8) (loc (nw l) s (pts0B + 2 * M)) m) σ' ∧
      ptOf σ' 6 = WCurve.eval3isog l (ptOf σ 6) (σ 16) (σ 17) ∧ ∀ i, i ≠ 6 → i ≠ 7 → σ' i = σ i := by
  have c := eval3isogM_effect (portable l) m (callB hL M [6, 7, 16, 17] (by decide) rfl)
  have eR : rdP (nw l) m (addr (nw l) s (argB l E K q b) 6) = ⟨σ 6, σ 7⟩ :=
    congr (congrArg Pt.mk (ha.valB (i := 6) (by decide))) (ha.valB (i := 7) (by decide))
  have v17 : rdF (nw l) m (addr (nw l) s (argB l E K q b) 16 + 2 * nw l) = σ 17 := ha.valB (i := 17) (by decide)
  rw [eR, ha.valB (i := 16) (by decide), v17] at c
  exact ⟨_, ha.callB hL [(6, _), (7, _)] (by simp) rfl c, rfl, fun i h1 h2 => setAll_of_not_mem _ _ (by simp; omega)⟩

theorem optMap_none {α β : Type} (x y : β) (f : β → β) : ((none : Option α).map fun _ => y) = ((none : Option α).map fun _ => x).map f := rfl

theorem evalBackOptM (hL : Layout (nw l) s (argB l E K q b)) {back : Option ℕ} (hb : ∀ a ∈ back, a = b)
    (ha : At (nw l) s (argB l E K q b) (pts0B + 2 * M) m₀ m σ) {co : F2 × F2} (hco : (σ 16, σ 17) = co) :
    ∃ σ', At (nw l) s (argB l E K q b) (pts0B + 2 * M) m₀
        (back.elim m fun a => eval3isogM (portable l) a (loc (nw l) s 8) (loc (nw l) s (pts0B + 2 * M)) m) σ' ∧
      (back.map fun _ => ptOf σ' 6) = (back.map fun _ => ptOf σ 6).map (fun P => WCurve.eval3isog l P co.1 co.2) ∧
      ∀ i, i ≠ 6 → i ≠ 7 → σ' i = σ i := by
  subst hco
  generalize hf : (fun P => WCurve.eval3isog l P (σ 16, σ 17).1 (σ 16, σ 17).2) = f
  generalize hg : (fun a => eval3isogM (portable l) a (loc (nw l) s 8) (loc (nw l) s (pts0B + 2 * M)) m) = g
  rcases back with _ | a
  · exact ⟨σ, ha, optMap_none _ _ _, fun _ _ _ => rfl⟩
  · have : a = b := hb a rfl
    subst this
    obtain ⟨σ', a', e', k'⟩ := evalBackM hL ha
    refine ⟨σ', ?_, ?_, k'⟩
    · rw [Option.elim_some, ← hg]
      exact a'
    · rw [Option.map_some, Option.map_some, Option.map_some, e', ← hf]

/-! ## The backtracking point -/

/-- The variables that the search leaves alone -/
def KeptB (σ σ' : ℕ → F2) : Prop := ∀ i, i < 12 → i ≠ 6 → i ≠ 7 → σ' i = σ i

theorem backLoopM_spec (hL : Layout (nw l) s (argB l E K q b)) {A : F2} {R : Pt F2} : ∀ (n : ℕ) {m : Mem} {σ : ℕ → F2} (t : Tape Draw),
    At (nw l) s (argB l E K q b) (pts0B + 2 * M) m₀ m σ → σ 19 = A → ptOf σ 10 = R →
    ResT (fun (x : Pt F2) m' => ∃ σ', At (nw l) s (argB l E K q b) (pts0B + 2 * M) m₀ m' σ' ∧ ptOf σ' 6 = x ∧ KeptB σ σ')
      (WCurve.backLoop l A R n t) (backLoopM l b (loc (nw l) s) (loc (nw l) s (pts0B + 2 * M)) n t m)
  | 0, _, _, _, _, _, _ => trivial
  | n + 1, m, σ, t, ha, hA, hR => by
    have r1 := randomPointWithOrderM_spec (q := 3) (callB hL M [19, 22, 23, 6, 7] (by decide) rfl) t m
    rw [ha.valB (i := 19) (by decide), hA] at r1
    refine ResT.bind r1 fun x r t h1 => ?_
    obtain ⟨y, e, x⟩ := x
    obtain ⟨e', m1⟩ := r
    have a1 := ha.callB hL [(22, y.X), (23, y.Z), (6, x.X), (7, x.Z)] (by simp) rfl h1.2
    obtain ⟨q1, q2⟩ := projEqualM_spec m1 (callB hL M [6, 7, 10, 11] (by decide) rfl)
    have a2 := a1.agree hL q2
    have v10 : σ 10 = R.X := congrArg Pt.X hR
    have v11 : σ 11 = R.Z := congrArg Pt.Z hR
    have w6 : rdF (nw l) m1 (addr (nw l) s (argB l E K q b) 6) = x.X := a1.valB (i := 6) (by decide)
    have w7 : rdF (nw l) m1 (addr (nw l) s (argB l E K q b) 7) = x.Z := a1.valB (i := 7) (by decide)
    have w10 : rdF (nw l) m1 (addr (nw l) s (argB l E K q b) 10) = R.X := (a1.valB (i := 10) (by decide)).trans v10
    have w11 : rdF (nw l) m1 (addr (nw l) s (argB l E K q b) 11) = R.Z := (a1.valB (i := 11) (by decide)).trans v11
    rw [w6, w7, w10, w11] at q1
    change ResT _ ((if WCurve.pointEqual l x R ≠ 0 then WCurve.backLoop l A R n else Curve.M.pure x) t)
      (if (projEqualM l b (b + 2 * nw l) (loc (nw l) s 2) (loc (nw l) s 3) (loc (nw l) s (pts0B + 2 * M)) m1).1 ≠ 0 then
        backLoopM l b (loc (nw l) s) (loc (nw l) s (pts0B + 2 * M)) n t
          (projEqualM l b (b + 2 * nw l) (loc (nw l) s 2) (loc (nw l) s 3) (loc (nw l) s (pts0B + 2 * M)) m1).2
        else .ok ((projEqualM l b (b + 2 * nw l) (loc (nw l) s 2) (loc (nw l) s 3) (loc (nw l) s (pts0B + 2 * M)) m1).2, t))
    have q1' : (projEqualM l b (b + 2 * nw l) (loc (nw l) s 2) (loc (nw l) s 3) (loc (nw l) s (pts0B + 2 * M)) m1).1 =
      WCurve.pointEqual l x R := q1
    rw [q1']
    have keep : KeptB σ (setAll σ [(22, y.X), (23, y.Z), (6, x.X), (7, x.Z)]) := fun i h1 h2 h3 =>
      setAll_of_not_mem _ _ (by simp; omega)
    by_cases hz : WCurve.pointEqual l x R ≠ 0
    · rw [if_pos hz, if_pos hz]
      refine (backLoopM_spec hL n t a2 hA hR).mono fun x m' h => h.imp fun σ' h => ⟨h.1, h.2.1, fun i h1 h2 h3 => ?_⟩
      rw [h.2.2 i h1 h2 h3, keep i h1 h2 h3]
    · rw [if_neg hz, if_neg hz]
      exact ⟨rfl, _, a2, rfl, keep⟩

theorem bindT_ok {α : Type} (o : Out (α × Tape Draw)) : (bindT o fun m t => .ok (m, t)) = o := by
  rcases o with _ | _ | _ | _ <;> rfl

theorem isoBBackM_spec (hL : Layout (nw l) s (argB l E K q b)) {back : Option ℕ} (hb : ∀ a ∈ back, a = b)
    (ha : At (nw l) s (argB l E K q b) (pts0B + 2 * M) m₀ m σ) {cv : F2 × F2} {R : Pt F2} (hcv : (σ 8, σ 9) = cv) (hR : ptOf σ 10 = R)
    (t : Tape Draw) :
    ResT (fun (x : Option (Pt F2)) m' => ∃ σ', At (nw l) s (argB l E K q b) (pts0B + 2 * M) m₀ m' σ' ∧ (back.map fun _ => ptOf σ' 6) = x ∧
        KeptB σ σ')
      ((if back.isSome = true then
          (fun t => (Curve.M.bind (WCurve.backLoop l (WCurve.div l (WCurve.aa24ToAc l cv.1 cv.2).A (WCurve.aa24ToAc l cv.1 cv.2).C) R
            (t.pts.length + 1)) (fun b => Curve.M.pure (some b))) t : Curve.M Draw (Option (Pt F2)))
        else Curve.M.pure none) t)
      (isoBBackM l back (loc (nw l) s) (loc (nw l) s (pts0B + 2 * M)) t m) := by
  rcases back with _ | a
  · exact ⟨rfl, σ, ha, rfl, fun _ _ _ _ => rfl⟩
  · have : a = b := hb a rfl
    subst this
    subst hcv
    have c1 := aa24ToAcM_effect (portable l) m (callB hL M [8, 9, 20, 21] (by decide) rfl)
    rw [ha.valB (i := 8) (by decide), ha.valB (i := 9) (by decide)] at c1
    have a1 := ha.callB hL [(20, _), (21, _)] (by simp) rfl c1
    generalize hm1 : aa24ToAcM (portable l) _ _ _ _ m = m1 at a1
    have c2 := divM_effect (portable l) m1 (callB hL M [20, 21, 19] (by decide) rfl)
    have v20 : rdF (nw l) m1 (addr (nw l) s (argB l E K q a) 20) = (WCurve.aa24ToAc l (σ 8) (σ 9)).A := a1.valB (i := 20) (by decide)
    have v21 : rdF (nw l) m1 (addr (nw l) s (argB l E K q a) 21) = (WCurve.aa24ToAc l (σ 8) (σ 9)).C := a1.valB (i := 21) (by decide)
    rw [v20, v21] at c2
    have a2 := a1.callB hL [(19, _)] (by simp) rfl c2
    generalize hm2 : divM (portable l) _ _ _ _ m1 = m2 at a2
    have e : isoBBackM l (some a) (loc (nw l) s) (loc (nw l) s (pts0B + 2 * M)) t m =
        bindT (backLoopM l a (loc (nw l) s) (loc (nw l) s (pts0B + 2 * M)) (t.pts.length + 1) t m2) fun m t => .ok (m, t) := by
      rw [bindT_ok, ← hm2, ← hm1]
      rfl
    rw [e]
    change ResT _ (Curve.M.bind (WCurve.backLoop l (WCurve.div l (WCurve.aa24ToAc l (σ 8) (σ 9)).A (WCurve.aa24ToAc l (σ 8) (σ 9)).C) R
      (t.pts.length + 1)) (fun b => Curve.M.pure (some b)) t) _
    refine ResT.bind (backLoopM_spec hL (t.pts.length + 1) t a2 rfl hR) fun x m' t' hx => ?_
    obtain ⟨σ', a3, e3, k3⟩ := hx
    refine ⟨rfl, σ', a3, congrArg some e3, fun i h1 h2 h3 => ?_⟩
    rw [k3 i h1 h2 h3, setAll_of_not_mem _ _ (by simp; omega), setAll_of_not_mem _ _ (by simp; omega)]

end

/-! ## The whole function -/

/-- What `Isogeny_B` does, from memory `m`: if it returns true, it has written the image to `Q`, the point to `back` and the codomain to
`EE`, as far as these are not `NULL`; if it returns false, it has changed nothing. -/
def IsoResB (n s : ℕ) (m : Mem) (EE Q back : Option ℕ) : Option (Crv F2 × Option (Pt F2) × Option (Pt F2)) → Bool × Mem → Prop
  | none, (false, m') => Effect n s m m' []
  | some r, (true, m') => r.2.1.isSome = Q.isSome ∧ r.2.2.isSome = back.isSome ∧
      Effect n s m m' (optVars n Q r.2.1 ++ optVars n back r.2.2 ++ EE.elim [] fun a => crvVars n a r.1)
  | _, _ => False

/-- The places of the arguments: `E`, `K`, `Q` and `back` are disjoint, and so are `Q`, `back` and `EE`.  `EE` may be `E`. -/
structure IsoArgsB (n s E K : ℕ) (EE Q back : Option ℕ) : Prop where
  ins : Layout n s ([E, E + 2 * n, K, K + 2 * n] ++ (Q.elim [] fun a => [a, a + 2 * n]) ++ back.elim [] fun a => [a, a + 2 * n])
  outs : Layout n s ((Q.elim [] fun a => [a, a + 2 * n]) ++ (back.elim [] fun a => [a, a + 2 * n]) ++ EE.elim [] fun a => [a, a + 2 * n])

section
variable {E K sp : ℕ} {EE Q back : Option ℕ}

theorem IsoArgsB.lay (h : IsoArgsB (nw l) sp E K EE Q back) :
    Layout (nw l) (loc (nw l) sp 4) (argB l E K (Q.getD sp) (back.getD (loc (nw l) sp 2))) := by
  rcases Q with _ | a <;> rcases back with _ | b
  · exact h.ins.call 4 [0, 1, 2, 3, 4, 5, 6, 7] (by decide) rfl
  · exact h.ins.call 4 [0, 1, 2, 3, 6, 7, 4, 5] (by decide) rfl
  · exact h.ins.call 4 [0, 1, 2, 3, 4, 5, 8, 9] (by decide) rfl
  · exact h.ins.call 4 [0, 1, 2, 3, 4, 5, 6, 7] (by decide) rfl

/-- The arguments with the unused ones replaced -/
abbrev argB' (l : Level) (E K : ℕ) (Q back : Option ℕ) (sp : ℕ) : List ℕ := argB l E K (Q.getD sp) (back.getD (loc (nw l) sp 2))

/-- The values at the start -/
abbrev startB (l : Level) (E K : ℕ) (Q back : Option ℕ) (sp : ℕ) (m : Mem) : ℕ → F2 :=
  CMem.start (nw l) m (argB' l E K Q back sp) fun i => rdF (nw l) m (addr (nw l) (loc (nw l) sp 4) (argB' l E K Q back sp) i)

/-- What has happened when only `Q`, `back` and local variables have been written -/
theorem At.coreB {k : ℕ} {m m' : Mem} {σ : ℕ → F2} (ha : At (nw l) (loc (nw l) sp 4) (argB' l E K Q back sp) k m m' σ)
    (hs : ∀ i < 4, σ i = startB l E K Q back sp m i) :
    Effect (nw l) sp m m' (optVars (nw l) Q (Q.map fun _ => ptOf σ 4) ++ optVars (nw l) back (back.map fun _ => ptOf σ 6)) := by
  have he := (ha.holds.effect ha.frame [(4, σ 4), (5, σ 5), (6, σ 6), (7, σ 7)] [0, 1, 2, 3] rfl rfl (by simp) (by
    intro i hi
    refine hs i ?_
    simp only [List.mem_cons, List.not_mem_nil, or_false] at hi
    omega)).mono (le_loc (nw l) sp 4)
  have h2 : sp ≤ loc (nw l) sp 2 := le_loc _ _ _
  refine ⟨fun w hw => he.out w ?_, fun x hx hn => he.frame x hx fun w hw => ?_⟩
  · rcases Q with _ | a <;> rcases back with _ | b <;>
      simp only [optVars, Option.map_some, ptVars, List.nil_append, List.append_nil, List.cons_append, List.mem_cons,
        List.not_mem_nil, or_false] at hw
    · rcases hw with rfl | rfl <;> simp [addr, ptOf]
    · rcases hw with rfl | rfl <;> simp [addr, ptOf]
    · rcases hw with rfl | rfl | rfl | rfl <;> simp [addr, ptOf]
  · have hw' : w ∈ [(Q.getD sp, σ 4), (Q.getD sp + 2 * nw l, σ 5), (back.getD (loc (nw l) sp 2), σ 6),
        (back.getD (loc (nw l) sp 2) + 2 * nw l, σ 7)] := hw
    simp only [List.mem_cons, List.not_mem_nil, or_false] at hw'
    rcases Q with _ | a <;> rcases back with _ | b <;>
      simp only [optVars, Option.map_some, ptVars, List.nil_append, List.append_nil, List.cons_append,
        List.forall_mem_cons, Option.getD_none, Option.getD_some] at hn hw' <;>
      rcases hw' with rfl | rfl | rfl | rfl <;> simp only <;> omega

/-- What has happened when only local variables have been written -/
theorem At.coreB0 {k : ℕ} {m m' : Mem} {σ : ℕ → F2} (ha : At (nw l) (loc (nw l) sp 4) (argB' l E K Q back sp) k m m' σ)
    (hs : ∀ i < 8, σ i = startB l E K Q back sp m i) : Effect (nw l) sp m m' [] :=
  (ha.holds.effect ha.frame [] [0, 1, 2, 3, 4, 5, 6, 7] rfl rfl (by simp) (by
    intro i hi
    refine hs i ?_
    simp only [List.mem_cons, List.not_mem_nil, or_false] at hi
    omega)).mono (le_loc (nw l) sp 4)

/-- Writing the codomain (`poik.c:719-720`) -/
theorem isoOutB (h : IsoArgsB (nw l) sp E K EE Q back) {m m' : Mem} {k : ℕ} {P B : Option (Pt F2)} {E' : Crv F2}
    (he : Effect (nw l) sp m m' (optVars (nw l) Q P ++ optVars (nw l) back B)) {f : ℕ → Mem → Mem}
    (hf : ∀ a, Layout (nw l) (loc (nw l) sp 4) [a, a + 2 * nw l] → Effect (nw l) (loc (nw l) (loc (nw l) sp 4) k) m' (f a m') (crvVars (nw l) a E')) :
    Effect (nw l) sp m (EE.elim m' fun a => f a m')
      (optVars (nw l) Q P ++ optVars (nw l) back B ++ EE.elim [] fun a => crvVars (nw l) a E') := by
  have hs : sp ≤ loc (nw l) (loc (nw l) sp 4) k := (le_loc _ _ _).trans (le_loc _ _ _)
  rcases EE with _ | a
  · simpa using he
  · have hl : Layout (nw l) sp [a, a + 2 * nw l] := ⟨fun x hx => h.outs.below x (by
      simp only [List.mem_append]
      exact Or.inr hx), (List.pairwise_append.1 h.outs.disj).2.1⟩
    have hm : ∀ w ∈ optVars (nw l) Q P ++ optVars (nw l) back B,
        w.1 ∈ (Q.elim [] fun a => [a, a + 2 * nw l]) ++ (back.elim [] fun a => [a, a + 2 * nw l] : List ℕ) := by
      intro w hw
      simp only [List.mem_append] at hw ⊢
      exact hw.imp optVars_mem optVars_mem
    refine he.append ((hf a ⟨fun x hx => (hl.below x hx).trans (le_loc _ _ _), hl.disj⟩).mono hs)
      (fun w hw => h.outs.below _ (List.mem_append_left _ (hm w hw))) fun w hw v hv => ?_
    refine (List.pairwise_append.1 h.outs.disj).2.2 _ (hm w hw) _ ?_
    simp only [crvVars, Option.elim_some, List.mem_cons, List.not_mem_nil, or_false] at hv ⊢
    rcases hv with rfl | rfl <;> simp

theorem isogenyB_eq (wb : Bool) (E : Crv F2) (K : Pt F2) (Q : Option (Pt F2)) : WCurve.isogenyB l wb E K Q =
    let P := (WCurve.acToAac24 l E).1
    let A := (WCurve.acToAac24 l E).2.1
    let T' := WCurve.xTPLe l K A P (l.iso.e3 - 1)
    let O := WCurve.xTPL l T' A P
    if (WCurve.iszero l T'.Z ||| ~~~ WCurve.iszero l O.Z) ≠ 0 then Curve.M.pure none else
    match stratRows (WCurve.opsB l) l.iso.ptsB (l.iso.maxB - 1) ⟨(A, P), K, Q, [], 0, l.iso.stratB⟩ with
    | none => Curve.M.ub
    | some st => Curve.M.bind
      (if wb = true then
          (fun t => (Curve.M.bind (WCurve.backLoop l (WCurve.div l (WCurve.aa24ToAc l st.cv.1 st.cv.2).A (WCurve.aa24ToAc l st.cv.1 st.cv.2).C)
            st.R (t.pts.length + 1)) (fun b => Curve.M.pure (some b))) t : Curve.M Draw (Option (Pt F2)))
        else Curve.M.pure none)
      fun back => Curve.M.pure (some (WCurve.aa24ToAc l ((WCurve.opsB l).get st.R).1.1 ((WCurve.opsB l).get st.R).1.2,
        st.Q.map ((WCurve.opsB l).eval ((WCurve.opsB l).get st.R).2), back.map ((WCurve.opsB l).eval ((WCurve.opsB l).get st.R).2))) := by
  unfold WCurve.isogenyB
  dsimp only
  generalize (WCurve.acToAac24 l E).1 = P
  generalize (WCurve.acToAac24 l E).2.1 = A
  generalize WCurve.xTPLe l K A P _ = T'
  generalize WCurve.xTPL l T' A P = O
  generalize WCurve.iszero l T'.Z ||| ~~~ WCurve.iszero l O.Z = b
  generalize stratRows (WCurve.opsB l) _ _ _ = st
  by_cases hb : b ≠ 0
  · rw [if_pos hb, if_pos hb]
    rfl
  · rw [if_neg hb, if_neg hb]
    rcases st with _ | st
    · rfl
    · cases wb <;> rfl

/-- `Isogeny_B` on memory does what it does on values. -/
theorem isogenyBM_spec (h : IsoArgsB (nw l) sp E K EE Q back) (t : Tape Draw) (m : Mem) :
    ResT (IsoResB (nw l) sp m EE Q back) (WCurve.isogenyB l back.isSome (rdC (nw l) m E) (rdP (nw l) m K) (Q.map (rdP (nw l) m)) t)
      (isogenyBM l E K EE Q back sp t m) := by
  have hL := h.lay
  have hQ : ∀ a ∈ Q, a = Q.getD sp := by rintro a ha; rw [Option.mem_def.1 ha]; rfl
  have hb : ∀ a ∈ back, a = back.getD (loc (nw l) sp 2) := by rintro a ha; rw [Option.mem_def.1 ha]; rfl
  have a0 : At (nw l) (loc (nw l) sp 4) (argB' l E K Q back sp) (pts0B + 2 * l.iso.ptsB) m m (startB l E K Q back sp m) := At.start m
  have eQ : (Q.map fun _ => ptOf (startB l E K Q back sp m) 4) = Q.map (rdP (nw l) m) := by
    rcases Q with _ | a <;> rfl
  have eE : Crv.mk (startB l E K Q back sp m 0) (startB l E K Q back sp m 1) = rdC (nw l) m E := rfl
  have eK : Pt.mk (startB l E K Q back sp m 2) (startB l E K Q back sp m 3) = rdP (nw l) m K := rfl
  generalize hσ : startB l E K Q back sp m = σ0 at a0 eQ eE eK
  rw [isogenyB_eq]
  unfold isogenyBM
  simp only
  generalize hP : (WCurve.acToAac24 l (rdC (nw l) m E)).1 = P
  generalize hA : (WCurve.acToAac24 l (rdC (nw l) m E)).2.1 = A
  generalize hT : WCurve.xTPLe l (rdP (nw l) m K) A P (l.iso.e3 - 1) = T'
  generalize hO : WCurve.xTPL l T' A P = O
  obtain ⟨p1, σ1, a1, hA1, hP1, hR1, k1⟩ := isoBCheckM_spec hL a0 (A := A) (P := P) (T' := T') (O := O) (by rw [eE, hA]) (by rw [eE, hP])
    (by rw [eK, hT]) hO
  rw [p1]
  by_cases hbad : (WCurve.iszero l T'.Z ||| ~~~ WCurve.iszero l O.Z) ≠ 0
  · rw [if_pos hbad, if_pos hbad]
    exact ⟨rfl, At.coreB0 a1 (by rw [hσ]; exact k1)⟩
  · rw [if_neg hbad, if_neg hbad]
    have ok := isoBStrat_ok (M := l.iso.ptsB) hL hQ
    rw [eK] at hR1
    have hQ1 : Q.map (rdP (nw l) m) = Q.map fun _ => ptOf σ1 4 := by rw [← eQ, ptOf, ptOf, k1 4 (by decide), k1 5 (by decide)]
    have rel := stratRowsM_rel ok (l.iso.maxB - 1)
      (x := ⟨(isoBCheckM l E K (loc (nw l) (loc (nw l) sp 4)) (loc (nw l) (loc (nw l) sp 4) (pts0B + 2 * l.iso.ptsB)) m).2, 0, [], l.iso.stratB⟩)
      (st := ⟨(A, P), rdP (nw l) m K, Q.map (rdP (nw l) m), [], 0, l.iso.stratB⟩) a1
      ⟨by simp only; rw [hA1, hP1], hR1, hQ1, rfl, rfl, rfl, trivial, Nat.zero_le _⟩
    generalize stratRowsM l _ _ _ _ = x at rel ⊢
    generalize stratRows (WCurve.opsB l) _ _ _ = st at rel ⊢
    rcases x with _ | x <;> rcases st with _ | st <;> simp only [LoopRel] at rel
    · trivial
    · obtain ⟨σ2, a2, i2, k2⟩ := rel
      have r3 := isoBBackM_spec hL hb a2 (cv := st.cv) (R := st.R) i2.cv i2.R t
      dsimp only
      refine ResT.bind r3 fun bk m3 t3 h3 => ?_
      clear r3
      obtain ⟨σ3, a3, e3, k3⟩ := h3
      obtain ⟨σ4, a4, e4, k4⟩ := ok.get a3
      have hR3 : ptOf σ3 10 = st.R := by
        rw [← i2.R, ptOf, ptOf, k3 10 (by decide) (by decide) (by decide), k3 11 (by decide) (by decide) (by decide)]
      rw [hR3] at e4
      have e41 := congrArg Prod.fst e4
      have e42 := congrArg Prod.snd e4
      dsimp only at e41 e42
      have q2 : st.Q = Q.map fun _ => ptOf σ4 4 := by
        rw [i2.Q, ptOf, ptOf, k4 4 (by decide), k4 5 (by decide), k3 4 (by decide) (by decide) (by decide),
          k3 5 (by decide) (by decide) (by decide)]
        rfl
      have b4 : bk = back.map fun _ => ptOf σ4 6 := by
        rw [← e3, ptOf, ptOf, k4 6 (by decide), k4 7 (by decide)]
      have hlt : ∀ i < 4, σ4 i = σ0 i := fun i hi => by
        rw [k4 i (by simp; omega), k3 i (by omega) (by omega) (by omega),
          k2 i (by omega) (by simp; omega) (by omega) (by omega) (by omega) (by omega), k1 i (by omega)]
      -- the image of `Q`
      obtain ⟨σ5, a5, e5, k5⟩ : ∃ σ5, At (nw l) (loc (nw l) sp 4) (argB' l E K Q back sp) (pts0B + 2 * l.iso.ptsB) m
          (Q.elim ((isoBStrat l Q (loc (nw l) (loc (nw l) sp 4)) (loc (nw l) (loc (nw l) sp 4) (pts0B + 2 * l.iso.ptsB))).get m3) fun q =>
            (isoBStrat l Q (loc (nw l) (loc (nw l) sp 4)) (loc (nw l) (loc (nw l) sp 4) (pts0B + 2 * l.iso.ptsB))).eval q
            ((isoBStrat l Q (loc (nw l) (loc (nw l) sp 4)) (loc (nw l) (loc (nw l) sp 4) (pts0B + 2 * l.iso.ptsB))).get m3)) σ5 ∧
          (Q.map fun _ => ptOf σ5 4) = st.Q.map ((WCurve.opsB l).eval ((WCurve.opsB l).get st.R).2) ∧
          ∀ i, i ≠ 4 → i ≠ 5 → σ5 i = σ4 i := by
        rw [q2]
        rcases Q with _ | a
        · exact ⟨σ4, a4, optMap_none _ _ _, fun _ _ _ => rfl⟩
        · obtain ⟨σ5, a5, e5, k5⟩ := ok.eval 4 (Or.inl rfl) a4
          refine ⟨σ5, a5, ?_, k5⟩
          rw [Option.map_some, Option.map_some, e5, e42]
          rfl
      generalize Q.elim _ _ = m5 at a5 ⊢
      -- the image of `back`
      have e5c : (σ5 16, σ5 17) = ((WCurve.opsB l).get st.R).2 := by
        rw [k5 16 (by decide) (by decide), k5 17 (by decide) (by decide)]
        exact e42
      have b5 : bk = back.map fun _ => ptOf σ5 6 := by
        rw [b4, ptOf, ptOf, k5 6 (by decide) (by decide), k5 7 (by decide) (by decide)]
      obtain ⟨σ6, a6, e6, k6⟩ := evalBackOptM hL hb a5 e5c
      rw [← b5] at e6
      simp only [isoBStrat_eval]
      generalize back.elim _ _ = m6 at a6 ⊢
      have hcore := At.coreB a6 (by
        rw [hσ]
        intro i hi
        rw [k6 i (by omega) (by omega), k5 i (by omega) (by omega), hlt i hi])
      have e61 : σ6 8 = ((WCurve.opsB l).get st.R).1.1 := by
        rw [k6 8 (by decide) (by decide), k5 8 (by decide) (by decide)]
        exact congrArg Prod.fst e41
      have e62 : σ6 9 = ((WCurve.opsB l).get st.R).1.2 := by
        rw [k6 9 (by decide) (by decide), k5 9 (by decide) (by decide)]
        exact congrArg Prod.snd e41
      have q6 : (Q.map fun _ => ptOf σ6 4) = st.Q.map ((WCurve.opsB l).eval ((WCurve.opsB l).get st.R).2) := by
        rw [← e5, ptOf, ptOf, k6 4 (by decide) (by decide), k6 5 (by decide) (by decide)]
      refine ⟨rfl, ?_⟩
      change IsoResB (nw l) sp m EE Q back (some (WCurve.aa24ToAc l ((WCurve.opsB l).get st.R).1.1 ((WCurve.opsB l).get st.R).1.2,
        st.Q.map ((WCurve.opsB l).eval ((WCurve.opsB l).get st.R).2),
        bk.map (fun P => WCurve.eval3isog l P ((WCurve.opsB l).get st.R).2.1 ((WCurve.opsB l).get st.R).2.2))) (true, _)
      rw [← q6, ← e6, ← e61, ← e62]
      refine ⟨isSome_map_const Q _, isSome_map_const back _, isoOutB h hcore
        (f := fun a => aa24ToAcM (portable l) (loc (nw l) (loc (nw l) sp 4) 0) (loc (nw l) (loc (nw l) sp 4) 1) a
          (loc (nw l) (loc (nw l) sp 4) (pts0B + 2 * l.iso.ptsB))) (k := pts0B + 2 * l.iso.ptsB) (fun a hl => ?_)⟩
      have c := aa24ToAcM_effect (portable l) m6 (hl.call (pts0B + 2 * l.iso.ptsB) [2, 3, 0, 1] (by decide) (all_lt (N := 4) rfl (by
        simp only [List.length_cons, List.length_nil, pts0B]; omega)))
      have v8 : rdF (nw l) m6 (loc (nw l) (loc (nw l) sp 4) 0) = σ6 8 := a6.valB (i := 8) (by decide)
      have v9 : rdF (nw l) m6 (loc (nw l) (loc (nw l) sp 4) 1) = σ6 9 := a6.valB (i := 9) (by decide)
      rw [← v8, ← v9]
      exact c

end

end Secuer.CMem
