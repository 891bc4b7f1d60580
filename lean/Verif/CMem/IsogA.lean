import Verif.CMem.Strat

/-!
# `Isogeny_A` on memory

`Isogeny_A` (`poik.c:554-646`) with `assert` compiled out, in the portable build.  Local variables, counted in elements of GF(p^2) from the
start of the frame: `A24plus` 0, `C24` 1, `R` 2, `T` 4, `iso` 6, `other` 9, the inner `EE` 12, `O` 14, `S` 16, `coeff` 18, `pts` 21.
-/

namespace Secuer.CMem

open Secuer.Word Secuer.Field
open Secuer.Curve (Pt Crv Iso StratOps StratState stratInner stratRows)

variable {l : Level}

/-- The number of local variables besides `pts` -/
abbrev pts0 : ℕ := 21

/-- `poik.c:558-577`: the choice of the model -/
def isoAModelM (l : Level) (E K : ℕ) (v : ℕ → ℕ) (sp : ℕ) (m : Mem) : Option Mem :=
  let X := portable l
  let m := acToAc24M X E (v 0) (v 1) sp m
  let m := copyPtM (nw l) K (v 2) m
  let m := xDBLeM X (v 2) (v 4) (v 0) (v 1) (l.iso.e2 - 1) sp m
  let r := fp2IszeroM (tables l) (v 4) sp m
  (changeModelM l E (v 9) (v 6) sp r.2).map (cmovIsoM (nw l) r.1 (v 6) (v 9))

/-- `poik.c:578-592`: the point and the curve in this model, and the check of the order; the value of `bad` -/
def isoACheckM (l : Level) (Q : Option ℕ) (v : ℕ → ℕ) (sp : ℕ) (m : Mem) : BitVec 8 × Mem :=
  let X := portable l
  let m := X.runs sp [.copy (v 6) (v 12), .one (v 13)] m
  let m := acToAc24M X (v 12) (v 0) (v 1) sp m
  let m := evalIsoM X (v 6) (v 2) (v 2) sp m
  let m := Q.elim m fun q => evalIsoM X (v 6) q q sp m
  let m := xDBLeM X (v 2) (v 4) (v 0) (v 1) (l.iso.e2 - 1) sp m
  let m := xDBLM X (v 4) (v 14) (v 0) (v 1) sp m
  let r := fp2IszeroM (tables l) (v 5) sp m
  let r' := fp2IszeroM (tables l) (v 15) sp r.2
  (r.1 ||| ~~~ r'.1, r'.2)

/-- `poik.c:595-604`: the first step if the exponent is odd -/
def isoAOddM (l : Level) (Q : Option ℕ) (v : ℕ → ℕ) (sp : ℕ) (m : Mem) : Mem :=
  let X := portable l
  if l.iso.e2 % 2 = 1 then
    let m := xDBLeM X (v 2) (v 16) (v 0) (v 1) (l.iso.e2 - 1) sp m
    let m := get2isogM X (v 16) (v 0) (v 1) sp m
    let m := eval2isogM X (v 2) (v 16) sp m
    Q.elim m fun q => eval2isogM X q (v 16) sp m
  else m

/-- The calls in the strategy loop -/
def isoAStrat (l : Level) (Q : Option ℕ) (v : ℕ → ℕ) (sp : ℕ) : StratM where
  R := v 2
  pts := v pts0
  Q := Q
  sp := sp
  mul e := xDBLeM (portable l) (v 2) (v 2) (v 0) (v 1) (2 * e) sp
  get := get4isogM (portable l) (v 2) (v 0) (v 1) (v 18) sp
  eval a := eval4isogM (portable l) a (v 18) sp

/-- `poik.c:595-636`: the steps -/
def isoAStepsM (l : Level) (Q : Option ℕ) (v : ℕ → ℕ) (sp : ℕ) (m : Mem) : Option Mem :=
  let o := isoAStrat l Q v sp
  (stratRowsM l o l.iso.ptsA (l.iso.maxA - 1) ⟨isoAOddM l Q v sp m, 0, [], l.iso.stratA⟩).map fun x =>
    let m := o.get x.mem
    o.Q.elim m fun q => o.eval q m

/-- `Isogeny_A` (`poik.c:554-646`) with `assert` compiled out; `none` if there is an access outside an array.  The first `4 n` digits of
the frame are not used. -/
def isogenyAM (l : Level) (E K : ℕ) (EE Q back : Option ℕ) (sp : ℕ) (m : Mem) : Option (Bool × Mem) :=
  let X := portable l
  let v := loc (nw l) (loc (nw l) sp 2)
  let sp := v (pts0 + 2 * l.iso.ptsA)
  match isoAModelM l E K v sp m with
  | none => none
  | some m =>
    let r := isoACheckM l Q v sp m
    if r.1 ≠ 0 then some (false, r.2) else
    match isoAStepsM l Q v sp r.2 with
    | none => none
    | some m =>
      let m := EE.elim m fun EE => ac24ToAcM X (v 0) (v 1) EE sp m
      let m := back.elim m fun back => X.runs sp [.zero back, .one (back + 2 * nw l)] m
      some (true, m)

/-! ## The arguments and local variables as a list -/

/-- The arguments -/
abbrev argA (l : Level) (E K q : ℕ) : List ℕ := [E, E + 2 * nw l, K, K + 2 * nw l, q, q + 2 * nw l]

section
variable {E K q s M : ℕ}

theorem all_lt {ι : List ℕ} {N N' : ℕ} (h : (ι.all fun i => decide (i < N)) = true) (hN : N ≤ N') :
    (ι.all fun i => decide (i < N')) = true := by
  simp only [List.all_eq_true, decide_eq_true_eq] at h ⊢
  exact fun i hi => lt_of_lt_of_le (h i hi) hN

theorem len27 : 27 ≤ (argA l E K q).length + (pts0 + 2 * M) := by simp only [List.length_cons, List.length_nil, pts0]; omega

/-- The layout for a call with fixed variables -/
theorem callA (hL : Layout (nw l) s (argA l E K q)) (M : ℕ) (ι : List ℕ) (hn : ι.Nodup) (hb : (ι.all fun i => decide (i < 27)) = true) :
    Layout (nw l) (loc (nw l) s (pts0 + 2 * M)) (ι.map (addr (nw l) s (argA l E K q))) :=
  hL.call _ ι hn (all_lt hb len27)

variable {m₀ m m' : Mem} {σ : ℕ → F2}

theorem At.callA (h : At (nw l) s (argA l E K q) (pts0 + 2 * M) m₀ m σ) (hL : Layout (nw l) s (argA l E K q)) (W : List (ℕ × F2))
    (hn : (W.map Prod.fst).Nodup) (hb : ((W.map Prod.fst).all fun i => decide (i < 27)) = true)
    (he : Effect (nw l) (loc (nw l) s (pts0 + 2 * M)) m m' (W.map fun w => (addr (nw l) s (argA l E K q) w.1, w.2))) :
    At (nw l) s (argA l E K q) (pts0 + 2 * M) m₀ m' (setAll σ W) := h.call hL W hn (all_lt hb len27) he

theorem At.valA (h : At (nw l) s (argA l E K q) (pts0 + 2 * M) m₀ m σ) {i : ℕ} (hi : i < 27) :
    rdF (nw l) m (addr (nw l) s (argA l E K q) i) = σ i := h.val (lt_of_lt_of_le hi len27)

/-! ## The choice of the model -/

theorem isoAModelM_spec (hL : Layout (nw l) s (argA l E K q)) (ha : At (nw l) s (argA l E K q) (pts0 + 2 * M) m₀ m σ) :
    Res (WCurve.changeModel l ⟨σ 0, σ 1⟩) (isoAModelM l E K (loc (nw l) s) (loc (nw l) s (pts0 + 2 * M)) m) fun r m' =>
      ∃ σ', At (nw l) s (argA l E K q) (pts0 + 2 * M) m₀ m' σ' ∧
        Iso.mk (σ' 12) (σ' 13) (σ' 14) = WCurve.cmovIso l (WCurve.iszero l (WCurve.xDBLe l ⟨σ 2, σ 3⟩ (WCurve.acToAac24 l ⟨σ 0, σ 1⟩).1
          (WCurve.acToAac24 l ⟨σ 0, σ 1⟩).2.2 (l.iso.e2 - 1)).X) r.2 r.1 ∧
        ptOf σ' 8 = ⟨σ 2, σ 3⟩ ∧ ∀ i < 6, σ' i = σ i := by
  have c1 := acToAc24M_effect (portable l) m (callA hL M [0, 1, 6, 7] (by decide) rfl)
  have eE : rdC (nw l) m E = ⟨σ 0, σ 1⟩ := congr (congrArg Crv.mk (ha.valA (i := 0) (by decide))) (ha.valA (i := 1) (by decide))
  have eE' : rdC (nw l) m (addr (nw l) s (argA l E K q) 0) = ⟨σ 0, σ 1⟩ := eE
  rw [eE'] at c1
  have a1 := ha.callA hL [(6, _), (7, _)] (by simp) rfl c1
  generalize hm1 : acToAc24M (portable l) _ _ _ _ m = m1 at a1
  have c2 : Effect (nw l) (loc (nw l) s (pts0 + 2 * M)) m1 (copyPtM (nw l) K (loc (nw l) s 2) m1) (ptVars (nw l) (loc (nw l) s 2) (rdP (nw l) m1 K)) :=
    copyPtM_effect (callA hL M [2, 3, 8, 9] (by decide) rfl)
  have eK : rdP (nw l) m1 K = ⟨σ 2, σ 3⟩ := congr (congrArg Pt.mk (a1.valA (i := 2) (by decide))) (a1.valA (i := 3) (by decide))
  rw [eK] at c2
  have a2 := a1.callA hL [(8, σ 2), (9, σ 3)] (by simp) rfl c2
  generalize hm2 : copyPtM (nw l) K (loc (nw l) s 2) m1 = m2 at a2
  have c3 := xDBLeM_effect (portable l) m2 (l.iso.e2 - 1) (callA hL M [8, 9, 10, 11, 6, 7] (by decide) rfl)
  have eR : rdP (nw l) m2 (addr (nw l) s (argA l E K q) 8) = ⟨σ 2, σ 3⟩ :=
    congr (congrArg Pt.mk (a2.valA (i := 8) (by decide))) (a2.valA (i := 9) (by decide))
  rw [eR, a2.valA (i := 6) (by decide), a2.valA (i := 7) (by decide)] at c3
  have a3 := a2.callA hL [(10, _), (11, _)] (by simp) rfl c3
  generalize hm3 : xDBLeM (portable l) _ _ _ _ _ _ m2 = m3 at a3
  generalize hσ : setAll _ _ = σ3 at a3
  have v0 : σ3 0 = σ 0 := by rw [← hσ]; rfl
  have v1 : σ3 1 = σ 1 := by rw [← hσ]; rfl
  have v8 : σ3 8 = σ 2 := by rw [← hσ]; rfl
  have v9 : σ3 9 = σ 3 := by rw [← hσ]; rfl
  have vlt : ∀ i < 6, σ3 i = σ i := by
    intro i hi
    rw [← hσ, setAll_of_not_mem _ _ (by simp; omega), setAll_of_not_mem _ _ (by simp; omega), setAll_of_not_mem _ _ (by simp; omega)]
  have v10 : σ3 10 = (WCurve.xDBLe l ⟨σ 2, σ 3⟩ (WCurve.acToAac24 l ⟨σ 0, σ 1⟩).1 (WCurve.acToAac24 l ⟨σ 0, σ 1⟩).2.2 (l.iso.e2 - 1)).X := by
    rw [← hσ]
    rfl
  clear hσ
  obtain ⟨q1, q2⟩ := fp2IszeroM_spec (s := loc (nw l) s (pts0 + 2 * M)) (m := m3) (a := loc (nw l) s 4) (good l)
    (addr_below (i := 10) hL (lt_of_lt_of_le (by decide) len27))
  have w10 : rdF (tables l).n m3 (loc (nw l) s 4) = σ3 10 := a3.valA (i := 10) (by decide)
  rw [w10, v10] at q1
  have a4 := a3.agree hL q2
  have e : isoAModelM l E K (loc (nw l) s) (loc (nw l) s (pts0 + 2 * M)) m =
      (changeModelM l E (loc (nw l) s 9) (loc (nw l) s 6) (loc (nw l) s (pts0 + 2 * M))
        (fp2IszeroM (tables l) (loc (nw l) s 4) (loc (nw l) s (pts0 + 2 * M)) m3).2).map
        (cmovIsoM (nw l) (fp2IszeroM (tables l) (loc (nw l) s 4) (loc (nw l) s (pts0 + 2 * M)) m3).1 (loc (nw l) s 6) (loc (nw l) s 9)) := by
    rw [← hm3, ← hm2, ← hm1]
    rfl
  rw [e, q1]
  generalize (fp2IszeroM (tables l) (loc (nw l) s 4) (loc (nw l) s (pts0 + 2 * M)) m3).2 = m4 at a4
  have r5 := changeModelM_effect (l := l) (E := E) (I := loc (nw l) s 9) (J := loc (nw l) s 6) m4
    (callA hL M [0, 1, 15, 16, 17, 12, 13, 14] (by decide) rfl)
  have eE4 : rdC (nw l) m4 E = ⟨σ 0, σ 1⟩ := by
    rw [← v0, ← v1]
    exact congr (congrArg Crv.mk (a4.valA (i := 0) (by decide))) (a4.valA (i := 1) (by decide))
  rw [eE4] at r5
  generalize changeModelM l E (loc (nw l) s 9) (loc (nw l) s 6) (loc (nw l) s (pts0 + 2 * M)) m4 = o at r5 ⊢
  generalize WCurve.changeModel l ⟨σ 0, σ 1⟩ = o' at r5 ⊢
  rcases o' with ij | _ | _ <;> rcases o with _ | m5 <;> simp only [Res] at r5
  · have a5 := a4.callA hL [(15, ij.1.B), (16, ij.1.r), (17, ij.1.u2), (12, ij.2.B), (13, ij.2.r), (14, ij.2.u2)] (by simp) rfl r5
    have hd : loc (nw l) s 6 + 6 * nw l ≤ loc (nw l) s 9 ∨ loc (nw l) s 9 + 6 * nw l ≤ loc (nw l) s 6 := Or.inl (by simp only [loc]; omega)
    generalize hb : WCurve.iszero l _ = b
    have hb' : fp2equal (tables l) _ (fp2zero (tables l)) = b := hb
    have c6 := cmovIsoM_effect (s := loc (nw l) s (pts0 + 2 * M)) l b m5 hd
    have i6 : rdI (nw l) m5 (loc (nw l) s 6) = ij.2 :=
      congr (congr (congrArg Iso.mk (a5.valA (i := 12) (by decide))) (a5.valA (i := 13) (by decide))) (a5.valA (i := 14) (by decide))
    have i9 : rdI (nw l) m5 (loc (nw l) s 9) = ij.1 :=
      congr (congr (congrArg Iso.mk (a5.valA (i := 15) (by decide))) (a5.valA (i := 16) (by decide))) (a5.valA (i := 17) (by decide))
    rw [i6, i9] at c6
    have a6 := a5.callA hL [(12, _), (13, _), (14, _)] (by simp) rfl c6
    rw [hb']
    refine ⟨_, a6, rfl, congr (congrArg Pt.mk v8) v9, fun i hi => ?_⟩
    rw [setAll_of_not_mem _ _ (by simp; omega), setAll_of_not_mem _ _ (by simp; omega), vlt i hi]
  · trivial

/-! ## The check of the order -/

/-- An evaluation at `Q`, unless it is `NULL` -/
theorem At.evalQ (ha : At (nw l) s (argA l E K q) (pts0 + 2 * M) m₀ m σ) (hL : Layout (nw l) s (argA l E K q)) {Q : Option ℕ}
    (hQ : ∀ a ∈ Q, a = q) {f : ℕ → Mem → Mem} {g : Pt F2 → Pt F2}
    (hf : Effect (nw l) (loc (nw l) s (pts0 + 2 * M)) m (f q m) (ptVars (nw l) q (g (rdP (nw l) m q)))) :
    ∃ σ', At (nw l) s (argA l E K q) (pts0 + 2 * M) m₀ (Q.elim m fun a => f a m) σ' ∧
      ((Q.map fun _ => ptOf σ 4).map g = Q.map fun _ => ptOf σ' 4) ∧ ∀ i, i ≠ 4 → i ≠ 5 → σ' i = σ i := by
  rcases Q with _ | a
  · exact ⟨σ, ha, rfl, fun _ _ _ => rfl⟩
  · rw [hQ a rfl]
    have e : rdP (nw l) m q = ⟨σ 4, σ 5⟩ := congr (congrArg Pt.mk (ha.valA (i := 4) (by decide))) (ha.valA (i := 5) (by decide))
    change rdP (nw l) m q = ptOf σ 4 at e
    rw [e] at hf
    refine ⟨_, ha.callA hL [(4, _), (5, _)] (by simp) rfl hf, rfl, fun i h1 h2 => setAll_of_not_mem _ _ (by simp; omega)⟩

theorem isoACheckM_spec (hL : Layout (nw l) s (argA l E K q)) (ha : At (nw l) s (argA l E K q) (pts0 + 2 * M) m₀ m σ) {Q : Option ℕ}
    (hQ : ∀ a ∈ Q, a = q) {iso : Iso F2} {K' : Pt F2} {A C : F2} {R T' O : Pt F2} (hi : Iso.mk (σ 12) (σ 13) (σ 14) = iso) (hK : ptOf σ 8 = K')
    (hA : (WCurve.acToAac24 l ⟨iso.B, fp2one (tables l)⟩).1 = A) (hC : (WCurve.acToAac24 l ⟨iso.B, fp2one (tables l)⟩).2.2 = C)
    (hR : WCurve.evalIso l iso K' = R) (hT : WCurve.xDBLe l R A C (l.iso.e2 - 1) = T') (hO : WCurve.xDBL l T' A C = O) :
    (isoACheckM l Q (loc (nw l) s) (loc (nw l) s (pts0 + 2 * M)) m).1 = (WCurve.iszero l T'.Z ||| ~~~ WCurve.iszero l O.Z) ∧
    ∃ σ', At (nw l) s (argA l E K q) (pts0 + 2 * M) m₀ (isoACheckM l Q (loc (nw l) s) (loc (nw l) s (pts0 + 2 * M)) m).2 σ' ∧
      σ' 6 = A ∧ σ' 7 = C ∧ ptOf σ' 8 = R ∧ ((Q.map fun _ => ptOf σ 4).map (WCurve.evalIso l iso) = Q.map fun _ => ptOf σ' 4) ∧
      ∀ i < 4, σ' i = σ i := by
  have a1 := ha.sim (Sim.ops (portable l) (k := pts0 + 2 * M) hL [.copy 12 18, .one 19] (by
    simp only [List.all_cons, List.all_nil, Op.dst, Op.srcs, Bool.and_true, Bool.and_eq_true, decide_eq_true_eq, List.length_cons, List.length_nil]
    refine ⟨⟨decide_eq_true ?_, ?_⟩, decide_eq_true ?_⟩ <;> simp only [pts0] <;> omega))
  generalize hm1 : (portable l).runs (loc (nw l) s (pts0 + 2 * M)) _ m = m1 at a1
  have c2 := acToAc24M_effect (portable l) m1 (callA hL M [18, 19, 6, 7] (by decide) rfl)
  have eE : rdC (nw l) m1 (addr (nw l) s (argA l E K q) 18) = ⟨iso.B, fp2one (tables l)⟩ := by
    rw [← hi]
    exact congr (congrArg Crv.mk (a1.valA (i := 18) (by decide))) (a1.valA (i := 19) (by decide))
  rw [eE, hA, hC] at c2
  have a2 := a1.callA hL [(6, _), (7, _)] (by simp) rfl c2
  generalize hm2 : acToAc24M (portable l) _ _ _ _ m1 = m2 at a2
  have c3 : Effect (nw l) _ m2 (evalIsoM (portable l) (loc (nw l) s 6) (loc (nw l) s 2) (loc (nw l) s 2) (loc (nw l) s (pts0 + 2 * M)) m2) _ :=
    evalIsoM_effect_inplace (portable l) m2 (callA hL M [13, 14, 8, 9] (by decide) rfl)
  have eI : rdI (nw l) m2 (loc (nw l) s 6) = iso := by
    rw [← hi]
    exact congr (congr (congrArg Iso.mk (a2.valA (i := 12) (by decide))) (a2.valA (i := 13) (by decide))) (a2.valA (i := 14) (by decide))
  have eK : rdP (nw l) m2 (loc (nw l) s 2) = K' := by
    rw [← hK]
    change _ = Pt.mk (σ 8) (σ 9)
    exact congr (congrArg Pt.mk (a2.valA (i := 8) (by decide))) (a2.valA (i := 9) (by decide))
  rw [eI, eK, hR] at c3
  have a3 := a2.callA hL [(8, R.X), (9, R.Z)] (by simp) rfl c3
  generalize hm3 : evalIsoM (portable l) _ _ _ _ m2 = m3 at a3
  generalize hσ : setAll _ _ = σ3 at a3
  have vlt : ∀ i < 6, σ3 i = σ i := by
    intro i hi
    rw [← hσ, setAll_of_not_mem _ _ (by simp; omega), setAll_of_not_mem _ _ (by simp; omega)]
    simp [evals, Op.dst, Function.update, show i ≠ 18 by omega, show i ≠ 19 by omega]
  have v6 : σ3 6 = A := by rw [← hσ]; rfl
  have v7 : σ3 7 = C := by rw [← hσ]; rfl
  have v8 : σ3 8 = R.X := by rw [← hσ]; rfl
  have v9 : σ3 9 = R.Z := by rw [← hσ]; rfl
  have v12 : Iso.mk (σ3 12) (σ3 13) (σ3 14) = iso := by rw [← hσ, ← hi]; rfl
  clear hσ
  have c4 : Effect (nw l) _ m3 (evalIsoM (portable l) (loc (nw l) s 6) q q (loc (nw l) s (pts0 + 2 * M)) m3) _ :=
    evalIsoM_effect_inplace (portable l) m3 (callA hL M [13, 14, 4, 5] (by decide) rfl)
  have eI : rdI (nw l) m3 (loc (nw l) s 6) = iso := by
    rw [← v12]
    exact congr (congr (congrArg Iso.mk (a3.valA (i := 12) (by decide))) (a3.valA (i := 13) (by decide))) (a3.valA (i := 14) (by decide))
  rw [eI] at c4
  obtain ⟨σ4, a4, e4, k4⟩ := a3.evalQ hL hQ (f := fun q m => evalIsoM (portable l) (loc (nw l) s 6) q q (loc (nw l) s (pts0 + 2 * M)) m) c4
  generalize hm4 : Q.elim m3 _ = m4 at a4
  have c5 := xDBLeM_effect (portable l) m4 (l.iso.e2 - 1) (callA hL M [8, 9, 10, 11, 6, 7] (by decide) rfl)
  have eR : rdP (nw l) m4 (addr (nw l) s (argA l E K q) 8) = R := by
    have e8 : σ4 8 = R.X := (k4 8 (by decide) (by decide)).trans v8
    have e9 : σ4 9 = R.Z := (k4 9 (by decide) (by decide)).trans v9
    exact congr (congrArg Pt.mk ((a4.valA (i := 8) (by decide)).trans e8)) ((a4.valA (i := 9) (by decide)).trans e9)
  rw [eR, a4.valA (i := 6) (by decide), a4.valA (i := 7) (by decide), k4 6 (by decide) (by decide), k4 7 (by decide) (by decide), v6, v7,
    hT] at c5
  have a5 := a4.callA hL [(10, _), (11, _)] (by simp) rfl c5
  generalize hm5 : xDBLeM (portable l) _ _ _ _ _ _ m4 = m5 at a5
  have c6 := xDBLM_effect (portable l) m5 (callA hL M [10, 11, 20, 21, 6, 7] (by decide) rfl)
  have eT : rdP (nw l) m5 (addr (nw l) s (argA l E K q) 10) = T' :=
    congr (congrArg Pt.mk (a5.valA (i := 10) (by decide))) (a5.valA (i := 11) (by decide))
  have x6 : rdF (nw l) m5 (addr (nw l) s (argA l E K q) 6) = A := (a5.valA (i := 6) (by decide)).trans ((k4 6 (by decide) (by decide)).trans v6)
  have x7 : rdF (nw l) m5 (addr (nw l) s (argA l E K q) 7) = C := (a5.valA (i := 7) (by decide)).trans ((k4 7 (by decide) (by decide)).trans v7)
  rw [eT, x6, x7, hO] at c6
  have a6 := a5.callA hL [(20, _), (21, _)] (by simp) rfl c6
  generalize hm6 : xDBLM (portable l) _ _ _ _ _ m5 = m6 at a6
  obtain ⟨q1, q2⟩ := fp2IszeroM_spec (s := loc (nw l) s (pts0 + 2 * M)) (m := m6) (a := loc (nw l) s 5) (good l)
    (addr_below (i := 11) hL (lt_of_lt_of_le (by decide) len27))
  have w11 : rdF (tables l).n m6 (loc (nw l) s 5) = T'.Z := a6.valA (i := 11) (by decide)
  rw [w11] at q1
  have a7 := a6.agree hL q2
  generalize hm7 : (fp2IszeroM (tables l) (loc (nw l) s 5) (loc (nw l) s (pts0 + 2 * M)) m6).2 = m7 at a7
  obtain ⟨p1, p2⟩ := fp2IszeroM_spec (s := loc (nw l) s (pts0 + 2 * M)) (m := m7) (a := loc (nw l) s 15) (good l)
    (addr_below (i := 21) hL (lt_of_lt_of_le (by decide) len27))
  have w21 : rdF (tables l).n m7 (loc (nw l) s 15) = O.Z := a7.valA (i := 21) (by decide)
  rw [w21] at p1
  have a8 := a7.agree hL p2
  have e : isoACheckM l Q (loc (nw l) s) (loc (nw l) s (pts0 + 2 * M)) m =
      ((fp2IszeroM (tables l) (loc (nw l) s 5) (loc (nw l) s (pts0 + 2 * M)) m6).1 |||
        ~~~ (fp2IszeroM (tables l) (loc (nw l) s 15) (loc (nw l) s (pts0 + 2 * M)) m7).1,
        (fp2IszeroM (tables l) (loc (nw l) s 15) (loc (nw l) s (pts0 + 2 * M)) m7).2) := by
    rw [← hm7, ← hm6, ← hm5, ← hm4, ← hm3, ← hm2, ← hm1]
    rfl
  rw [e]
  refine ⟨?_, _, a8, ?_, ?_, ?_, ?_, fun i hi => ?_⟩
  · simp only
    rw [q1, p1]
    rfl
  · exact (k4 6 (by decide) (by decide)).trans v6
  · exact (k4 7 (by decide) (by decide)).trans v7
  · exact congr (congrArg Pt.mk ((k4 8 (by decide) (by decide)).trans v8)) ((k4 9 (by decide) (by decide)).trans v9)
  · have e0 : ptOf σ 4 = ptOf σ3 4 := by rw [ptOf, ptOf, vlt 4 (by decide), vlt 5 (by decide)]
    rw [e0, e4]
    rfl
  · rw [setAll_of_not_mem _ _ (by simp; omega), setAll_of_not_mem _ _ (by simp; omega), k4 i (by omega) (by omega), vlt i (by omega)]

/-! ## The steps -/

theorem isoAOddM_spec (hL : Layout (nw l) s (argA l E K q)) (ha : At (nw l) s (argA l E K q) (pts0 + 2 * M) m₀ m σ) {Q : Option ℕ}
    (hQ : ∀ a ∈ Q, a = q) {S : Pt F2} (hS : WCurve.xDBLe l (ptOf σ 8) (σ 6) (σ 7) (l.iso.e2 - 1) = S) :
    ∃ σ', At (nw l) s (argA l E K q) (pts0 + 2 * M) m₀ (isoAOddM l Q (loc (nw l) s) (loc (nw l) s (pts0 + 2 * M)) m) σ' ∧
      (((σ' 6, σ' 7) : F2 × F2), ptOf σ' 8, Q.map fun _ => ptOf σ' 4) = (if l.iso.e2 % 2 = 1 then
        (((WCurve.get2isog l S).1, (WCurve.get2isog l S).2), WCurve.eval2isog l (ptOf σ 8) S,
          (Q.map fun _ => ptOf σ 4).map fun q => WCurve.eval2isog l q S)
        else ((σ 6, σ 7), ptOf σ 8, Q.map fun _ => ptOf σ 4)) ∧ ∀ i < 4, σ' i = σ i := by
  by_cases ho : l.iso.e2 % 2 = 1
  · rw [if_pos ho]
    have e0 : isoAOddM l Q (loc (nw l) s) (loc (nw l) s (pts0 + 2 * M)) m = _ := if_pos ho
    have c1 := xDBLeM_effect (portable l) m (l.iso.e2 - 1) (callA hL M [8, 9, 22, 23, 6, 7] (by decide) rfl)
    have eR : rdP (nw l) m (addr (nw l) s (argA l E K q) 8) = ⟨σ 8, σ 9⟩ :=
      congr (congrArg Pt.mk (ha.valA (i := 8) (by decide))) (ha.valA (i := 9) (by decide))
    change _ = ptOf σ 8 at eR
    rw [eR, ha.valA (i := 6) (by decide), ha.valA (i := 7) (by decide), hS] at c1
    have a1 := ha.callA hL [(22, S.X), (23, S.Z)] (by simp) rfl c1
    generalize hm1 : xDBLeM (portable l) _ _ _ _ _ _ m = m1 at a1
    have c2 := get2isogM_effect (portable l) m1 (callA hL M [22, 23, 6, 7] (by decide) rfl)
    have eS : rdP (nw l) m1 (addr (nw l) s (argA l E K q) 22) = S :=
      congr (congrArg Pt.mk (a1.valA (i := 22) (by decide))) (a1.valA (i := 23) (by decide))
    rw [eS] at c2
    have a2 := a1.callA hL [(6, _), (7, _)] (by simp) rfl c2
    generalize hm2 : get2isogM (portable l) _ _ _ _ m1 = m2 at a2
    have c3 := eval2isogM_effect (portable l) m2 (callA hL M [8, 9, 22, 23] (by decide) rfl)
    have eS2 : rdP (nw l) m2 (addr (nw l) s (argA l E K q) 22) = S :=
      congr (congrArg Pt.mk (a2.valA (i := 22) (by decide))) (a2.valA (i := 23) (by decide))
    have eR2 : rdP (nw l) m2 (addr (nw l) s (argA l E K q) 8) = ⟨σ 8, σ 9⟩ :=
      congr (congrArg Pt.mk (a2.valA (i := 8) (by decide))) (a2.valA (i := 9) (by decide))
    change _ = ptOf σ 8 at eR2
    rw [eS2, eR2] at c3
    have a3 := a2.callA hL [(8, _), (9, _)] (by simp) rfl c3
    generalize hm3 : eval2isogM (portable l) _ _ _ m2 = m3 at a3
    have c4 := eval2isogM_effect (portable l) m3 (callA hL M [4, 5, 22, 23] (by decide) rfl)
    have eS3 : rdP (nw l) m3 (addr (nw l) s (argA l E K q) 22) = S :=
      congr (congrArg Pt.mk (a3.valA (i := 22) (by decide))) (a3.valA (i := 23) (by decide))
    rw [eS3] at c4
    obtain ⟨σ4, a4, e4, k4⟩ := a3.evalQ hL hQ (f := fun q m => eval2isogM (portable l) q (loc (nw l) s 16) (loc (nw l) s (pts0 + 2 * M)) m)
      (g := fun q => WCurve.eval2isog l q S) c4
    have e : isoAOddM l Q (loc (nw l) s) (loc (nw l) s (pts0 + 2 * M)) m =
        Q.elim m3 fun a => eval2isogM (portable l) a (loc (nw l) s 16) (loc (nw l) s (pts0 + 2 * M)) m3 := by
      rw [e0, ← hm3, ← hm2, ← hm1]
      rfl
    rw [e]
    refine ⟨σ4, a4, ?_, fun i hi => ?_⟩
    · rw [ptOf, k4 6 (by decide) (by decide), k4 7 (by decide) (by decide), k4 8 (by decide) (by decide), k4 9 (by decide) (by decide), ← e4]
      rfl
    · rw [k4 i (by omega) (by omega), setAll_of_not_mem _ _ (by simp; omega), setAll_of_not_mem _ _ (by simp; omega),
        setAll_of_not_mem _ _ (by simp; omega)]
  · rw [if_neg ho]
    have e0 : isoAOddM l Q (loc (nw l) s) (loc (nw l) s (pts0 + 2 * M)) m = m := if_neg ho
    rw [e0]
    exact ⟨σ, ha, rfl, fun _ _ => rfl⟩

theorem addr_ge {L : List ℕ} {i : ℕ} (h : L.length ≤ i) : addr (nw l) s L i = loc (nw l) s (i - L.length) := by
  rw [addr, dif_neg (by omega)]

theorem loc_loc (n s i j : ℕ) : loc n (loc n s i) j = loc n s (i + j) := by
  simp only [loc_eq]
  ring

theorem isoAStrat_ok (hL : Layout (nw l) s (argA l E K q)) {Q : Option ℕ} (hQ : ∀ a ∈ Q, a = q) :
    StratOk l s (argA l E K q) (pts0 + 2 * M) (isoAStrat l Q (loc (nw l) s) (loc (nw l) s (pts0 + 2 * M))) (WCurve.opsA l)
      (fun σ => (σ 6, σ 7)) (fun σ => (σ 24, σ 25, σ 26)) [6, 7, 24, 25, 26] 8 4 27 M where
  lay := hL
  aR := rfl
  aR' := rfl
  aP i := by
    rw [addr_ge (by simp; omega)]
    simp only [ptsAt, isoAStrat, loc_loc, pts0, List.length_cons, List.length_nil]
    congr 1
    omega
  aP' i := by
    rw [addr_ge (by simp; omega)]
    simp only [ptsAt, isoAStrat, loc_loc, pts0, List.length_cons, List.length_nil]
    rw [show loc (nw l) s (21 + 2 * i) + 2 * nw l = loc (nw l) s (21 + 2 * i + 1) from rfl]
    congr 1
    omega
  aQ := hQ
  sp := rfl
  le := by simp only [pts0, List.length_cons, List.length_nil]; omega
  hr := by decide
  hq := by decide
  hrq := by decide
  hS := by decide
  cvS h := by rw [h 6 (by simp), h 7 (by simp)]
  coS h := by rw [h 24 (by simp), h 25 (by simp), h 26 (by simp)]
  mul {m₀ m σ} e ha := by
    have c := xDBLeM_effect_inplace (portable l) m (2 * e) (callA hL M [8, 9, 6, 7] (by decide) rfl)
    have eR : rdP (nw l) m (addr (nw l) s (argA l E K q) 8) = ⟨σ 8, σ 9⟩ :=
      congr (congrArg Pt.mk (ha.valA (i := 8) (by decide))) (ha.valA (i := 9) (by decide))
    rw [eR, ha.valA (i := 6) (by decide), ha.valA (i := 7) (by decide)] at c
    exact ⟨_, ha.callA hL [(8, _), (9, _)] (by simp) rfl c, rfl, fun i h1 h2 => setAll_of_not_mem _ _ (by simp; omega)⟩
  get {m₀ m σ} ha := by
    have c := get4isogM_effect (portable l) m (callA hL M [8, 9, 6, 7, 24, 25, 26] (by decide) rfl)
    have eR : rdP (nw l) m (addr (nw l) s (argA l E K q) 8) = ⟨σ 8, σ 9⟩ :=
      congr (congrArg Pt.mk (ha.valA (i := 8) (by decide))) (ha.valA (i := 9) (by decide))
    rw [eR] at c
    exact ⟨_, ha.callA hL [(6, _), (7, _), (24, _), (25, _), (26, _)] (by simp) rfl c, rfl, fun i h => setAll_of_not_mem _ _ (by simpa using h)⟩
  eval {m₀ m σ} j hj ha := by
    have hlen : j + 1 < (argA l E K q).length + (pts0 + 2 * M) := by
      simp only [pts0, List.length_cons, List.length_nil]
      omega
    have hj' : addr (nw l) s (argA l E K q) j + 2 * nw l = addr (nw l) s (argA l E K q) (j + 1) := by
      rcases hj with rfl | hj
      · rfl
      · rw [addr_ge (by simp; omega), addr_ge (by simp; omega)]
        simp only [loc, List.length_cons, List.length_nil, show j + 1 - 6 = (j - 6) + 1 by omega]
    have hn : [j, j + 1, 24, 25, 26].Nodup := by
      simp
      omega
    have hb : ([j, j + 1, 24, 25, 26].all fun i => decide (i < (argA l E K q).length + (pts0 + 2 * M))) = true := by
      simp only [List.all_cons, List.all_nil, Bool.and_true, Bool.and_eq_true, decide_eq_true_eq]
      have := len27 (l := l) (E := E) (K := K) (q := q) (M := M)
      refine ⟨?_, ?_, ?_, ?_, ?_⟩ <;> omega
    have hl := hL.call (pts0 + 2 * M) [j, j + 1, 24, 25, 26] hn hb
    simp only [List.map_cons, List.map_nil] at hl
    rw [← hj'] at hl
    have c := eval4isogM_effect (portable l) m (P := addr (nw l) s (argA l E K q) j) (coeff := loc (nw l) s 18) hl
    have eR : rdP (nw l) m (addr (nw l) s (argA l E K q) j) = ptOf σ j := by
      rw [rdP, hj', ha.val (by omega), ha.val hlen, ptOf]
    have v24 : rdF (nw l) m (loc (nw l) s 18) = σ 24 := ha.valA (i := 24) (by decide)
    have v25 : rdF (nw l) m (loc (nw l) s 18 + 2 * nw l) = σ 25 := ha.valA (i := 25) (by decide)
    have v26 : rdF (nw l) m (loc (nw l) s 18 + 2 * nw l + 2 * nw l) = σ 26 := ha.valA (i := 26) (by decide)
    rw [eR, v24, v25, v26, ptVars, hj'] at c
    refine ⟨_, ha.call hL [(j, _), (j + 1, _)] (by simp) ?_ c, ?_, fun i h1 h2 => setAll_of_not_mem _ _ (by simp; omega)⟩
    · simp only [List.map_cons, List.map_nil, List.all_cons, List.all_nil, Bool.and_true, Bool.and_eq_true, decide_eq_true_eq]
      omega
    · simp [ptOf, setAll, Function.update, WCurve.opsA]

theorem isoAStepsM_spec (hL : Layout (nw l) s (argA l E K q)) {Q : Option ℕ} (hQ : ∀ a ∈ Q, a = q)
    (ha : At (nw l) s (argA l E K q) (pts0 + 2 * l.iso.ptsA) m₀ m σ) {S : Pt F2}
    (hS : WCurve.xDBLe l (ptOf σ 8) (σ 6) (σ 7) (l.iso.e2 - 1) = S) {cv : F2 × F2} {R : Pt F2} {Q' : Option (Pt F2)}
    (h : (if l.iso.e2 % 2 = 1 then
        (((WCurve.get2isog l S).1, (WCurve.get2isog l S).2), WCurve.eval2isog l (ptOf σ 8) S,
          (Q.map fun _ => ptOf σ 4).map fun q => WCurve.eval2isog l q S)
        else ((σ 6, σ 7), ptOf σ 8, Q.map fun _ => ptOf σ 4)) = (cv, R, Q')) :
    match stratRows (WCurve.opsA l) l.iso.ptsA (l.iso.maxA - 1) ⟨cv, R, Q', [], 0, l.iso.stratA⟩,
      isoAStepsM l Q (loc (nw l) s) (loc (nw l) s (pts0 + 2 * l.iso.ptsA)) m with
    | none, none => True
    | some st, some m' => ∃ σ', At (nw l) s (argA l E K q) (pts0 + 2 * l.iso.ptsA) m₀ m' σ' ∧ (σ' 6, σ' 7) = ((WCurve.opsA l).get st.R).1 ∧
        (Q.map fun _ => ptOf σ' 4) = st.Q.map ((WCurve.opsA l).eval ((WCurve.opsA l).get st.R).2) ∧ ∀ i < 4, σ' i = σ i
    | _, _ => False := by
  obtain ⟨σ1, a1, e1, k1⟩ := isoAOddM_spec hL ha hQ hS
  rw [h] at e1
  simp only [Prod.mk.injEq] at e1
  have ok := isoAStrat_ok (M := l.iso.ptsA) hL hQ
  have rel := stratRowsM_rel ok (l.iso.maxA - 1)
    (x := ⟨isoAOddM l Q (loc (nw l) s) (loc (nw l) s (pts0 + 2 * l.iso.ptsA)) m, 0, [], l.iso.stratA⟩)
    (st := ⟨cv, R, Q', [], 0, l.iso.stratA⟩) a1 ⟨e1.1, e1.2.1, e1.2.2.symm, rfl, rfl, rfl, trivial, Nat.zero_le _⟩
  unfold isoAStepsM
  simp only
  generalize stratRowsM l _ _ _ _ = x at rel ⊢
  generalize stratRows (WCurve.opsA l) _ _ _ = st at rel ⊢
  rcases x with _ | x <;> rcases st with _ | st <;> simp only [LoopRel] at rel
  · trivial
  · obtain ⟨σ2, a2, i2, k2⟩ := rel
    obtain ⟨σ3, a3, e3, k3⟩ := ok.get a2
    have hR : ptOf σ2 8 = st.R := i2.R
    rw [hR] at e3
    have e31 := congrArg Prod.fst e3
    have e32 := congrArg Prod.snd e3
    dsimp only at e31 e32
    have q3 : ptOf σ3 4 = ptOf σ2 4 := by rw [ptOf, ptOf, k3 4 (by decide), k3 5 (by decide)]
    have hlt : ∀ i < 4, σ3 i = σ i := fun i hi => by
      rw [k3 i (by simp; omega), k2 i (by omega) (by simp; omega) (by omega) (by omega) (by omega) (by omega), k1 i hi]
    have hQ2 : st.Q = Q.map fun _ => ptOf σ2 4 := i2.Q
    rcases Q with _ | a
    · refine ⟨σ3, a3, e31, ?_, hlt⟩
      rw [hQ2]
      rfl
    · obtain ⟨σ4, a4, e4, k4⟩ := ok.eval 4 (Or.inl rfl) a3
      have : a = q := hQ a rfl
      subst this
      refine ⟨σ4, a4, ?_, ?_, fun i hi => (k4 i (by omega) (by omega)).trans (hlt i hi)⟩
      · rw [k4 6 (by decide) (by decide), k4 7 (by decide) (by decide), e31]
      · rw [hQ2, Option.map_some, Option.map_some, e4, q3, e32]
        rfl

end

/-- The variables of a point and its new value, if there are both -/
def optVars (n : ℕ) : Option ℕ → Option (Pt F2) → List (ℕ × F2)
  | some a, some P => ptVars n a P
  | _, _ => []

/-- What `Isogeny_A` and `Isogeny_B` do, from memory `m`: if they return true, they write the codomain to `EE`, the image to `Q` and the
point to `back`, as far as these are not `NULL`; if they return false, they have changed `Q` at most. -/
def IsoRes (n s : ℕ) (m : Mem) (EE Q back : Option ℕ) : Curve.Out (Option (Crv F2 × Option (Pt F2) × Pt F2)) → Option (Bool × Mem) → Prop
  | .ub, none => True
  | .ok none, some (false, m') => ∃ P, Effect n s m m' (optVars n Q P)
  | .ok (some r), some (true, m') => r.2.1.isSome = Q.isSome ∧
      Effect n s m m' (optVars n Q r.2.1 ++ (EE.elim [] fun a => crvVars n a r.1) ++ back.elim [] fun a => ptVars n a r.2.2)
  | _, _ => False

/-- The places of the arguments: `E`, `K` and `Q` are disjoint, and so are `Q`, `EE` and `back`.  `EE` may be `E`. -/
structure IsoArgs (n s E K : ℕ) (EE Q back : Option ℕ) : Prop where
  ins : Layout n s ([E, E + 2 * n, K, K + 2 * n] ++ Q.elim [] fun a => [a, a + 2 * n])
  outs : Layout n s ((Q.elim [] fun a => [a, a + 2 * n]) ++ (EE.elim [] fun a => [a, a + 2 * n]) ++ back.elim [] fun a => [a, a + 2 * n])

theorem Effect.mono {n s s' : ℕ} {m m' : Mem} {W : List (ℕ × F2)} (h : Effect n s' m m' W) (hs : s ≤ s') : Effect n s m m' W :=
  ⟨h.out, fun x hx => h.frame x (by omega)⟩

theorem Effect.append {n s : ℕ} {m m' m'' : Mem} {W W' : List (ℕ × F2)} (h : Effect n s m m' W) (h' : Effect n s m' m'' W')
    (hb : ∀ w ∈ W, w.1 + 2 * n ≤ s) (hd : ∀ w ∈ W, ∀ v ∈ W', w.1 + 2 * n ≤ v.1 ∨ v.1 + 2 * n ≤ w.1) : Effect n s m m'' (W ++ W') := by
  refine h.comp h' (fun w hw => ?_) (fun w hw => ?_) (fun w hw => ?_)
  · rcases List.mem_append.1 hw with hw | hw
    · rw [h'.keep (hb w hw) fun v hv => (hd w hw v hv).symm, h.out w hw]
    · exact h'.out w hw
  · exact List.mem_map.2 ⟨w, List.mem_append_left _ hw, rfl⟩
  · exact List.mem_map.2 ⟨w, List.mem_append_right _ hw, rfl⟩

section
variable {E K sp : ℕ} {EE Q back : Option ℕ}

theorem IsoArgs.lay (h : IsoArgs (nw l) sp E K EE Q back) : Layout (nw l) (loc (nw l) sp 2) (argA l E K (Q.getD sp)) := by
  rcases Q with _ | a
  · exact h.ins.call 2 [0, 1, 2, 3, 4, 5] (by decide) rfl
  · exact h.ins.call 2 [0, 1, 2, 3, 4, 5] (by decide) rfl

theorem le_loc (n s i : ℕ) : s ≤ loc n s i := by rw [loc_eq]; omega

/-- What has happened when only `Q` and local variables have been written -/
theorem At.core (h : IsoArgs (nw l) sp E K EE Q back) {k : ℕ} {m m' : Mem} {σ : ℕ → F2}
    (ha : At (nw l) (loc (nw l) sp 2) (argA l E K (Q.getD sp)) k m m' σ)
    (hs : ∀ i < 4, σ i = CMem.start (nw l) m (argA l E K (Q.getD sp)) (fun i => rdF (nw l) m (addr (nw l) (loc (nw l) sp 2) (argA l E K (Q.getD sp)) i)) i) :
    Effect (nw l) sp m m' (optVars (nw l) Q (Q.map fun _ => ptOf σ 4)) := by
  have he := (ha.holds.effect ha.frame [(4, σ 4), (5, σ 5)] [0, 1, 2, 3] rfl rfl (by simp) (by
    intro i hi
    refine hs i ?_
    simp only [List.mem_cons, List.not_mem_nil, or_false] at hi
    omega)).mono (le_loc (nw l) sp 2)
  rcases Q with _ | a
  · refine ⟨by simp [optVars], fun x hx _ => he.frame x hx fun w hw => ?_⟩
    have hw' : w ∈ [((sp : ℕ), σ 4), (sp + 2 * nw l, σ 5)] := hw
    simp only [List.mem_cons, List.not_mem_nil, or_false] at hw'
    rcases hw' with rfl | rfl <;> simp only <;> omega
  · exact he

theorem isSome_map_const {α β : Type} (Q : Option α) (b : β) : (Q.map fun _ => b).isSome = Q.isSome := by cases Q <;> rfl

theorem optVars_mem {n : ℕ} {P : Option (Pt F2)} : ∀ {w : ℕ × F2}, w ∈ optVars n Q P → w.1 ∈ (Q.elim [] fun a => [a, a + 2 * n] : List ℕ) := by
  rcases Q with _ | a <;> rcases P with _ | P <;> simp [optVars, ptVars]

/-- Writing the results (`poik.c:638-643`, `703-704`) -/
theorem isoOut (h : IsoArgs (nw l) sp E K EE Q back) {m m' : Mem} {k : ℕ} {P : Option (Pt F2)} {E' : Crv F2} {bk : Pt F2}
    (he : Effect (nw l) sp m m' (optVars (nw l) Q P)) {f g : ℕ → Mem → Mem}
    (hf : ∀ a, Layout (nw l) (loc (nw l) sp 2) [a, a + 2 * nw l] → Effect (nw l) (loc (nw l) (loc (nw l) sp 2) k) m' (f a m') (crvVars (nw l) a E'))
    (hg : ∀ a m, Layout (nw l) (loc (nw l) sp 2) [a, a + 2 * nw l] → Effect (nw l) (loc (nw l) (loc (nw l) sp 2) k) m (g a m) (ptVars (nw l) a bk)) :
    Effect (nw l) sp m (back.elim (EE.elim m' fun a => f a m') fun a => g a (EE.elim m' fun a => f a m'))
      (optVars (nw l) Q P ++ (EE.elim [] fun a => crvVars (nw l) a E') ++ back.elim [] fun a => ptVars (nw l) a bk) := by
  have hs : sp ≤ loc (nw l) (loc (nw l) sp 2) k := (le_loc _ _ _).trans (le_loc _ _ _)
  have h1 : Effect (nw l) sp m (EE.elim m' fun a => f a m') (optVars (nw l) Q P ++ EE.elim [] fun a => crvVars (nw l) a E') := by
    rcases EE with _ | a
    · simpa using he
    · have hl : Layout (nw l) sp [a, a + 2 * nw l] := ⟨fun x hx => h.outs.below x (by
        simp only [List.mem_append]
        exact Or.inl (Or.inr hx)), ((List.pairwise_append.1 (List.pairwise_append.1 h.outs.disj).1).2.1)⟩
      refine he.append ((hf a ⟨fun x hx => (hl.below x hx).trans (le_loc _ _ _), hl.disj⟩).mono hs)
        (fun w hw => h.outs.below _ (by simp only [List.mem_append]; exact Or.inl (Or.inl (optVars_mem hw)))) fun w hw v hv => ?_
      refine (List.pairwise_append.1 (List.pairwise_append.1 h.outs.disj).1).2.2 _ (optVars_mem hw) _ ?_
      simp only [crvVars, Option.elim_some, List.mem_cons, List.not_mem_nil, or_false] at hv ⊢
      rcases hv with rfl | rfl <;> simp
  rcases back with _ | b
  · simpa using h1
  · have hl : Layout (nw l) sp [b, b + 2 * nw l] := ⟨fun x hx => h.outs.below x (by
      simp only [List.mem_append]
      exact Or.inr hx), (List.pairwise_append.1 h.outs.disj).2.1⟩
    have hm : ∀ w ∈ optVars (nw l) Q P ++ (EE.elim [] fun a => crvVars (nw l) a E'),
        w.1 ∈ (Q.elim [] fun a => [a, a + 2 * nw l]) ++ (EE.elim [] fun a => [a, a + 2 * nw l] : List ℕ) := by
      intro w hw
      simp only [List.mem_append] at hw ⊢
      refine hw.imp optVars_mem fun hw => ?_
      rcases EE with _ | a
      · exact absurd hw (by simp)
      · simp only [crvVars, Option.elim_some, List.mem_cons, List.not_mem_nil, or_false] at hw ⊢
        rcases hw with rfl | rfl <;> simp
    refine h1.append ((hg b _ ⟨fun x hx => (hl.below x hx).trans (le_loc _ _ _), hl.disj⟩).mono hs)
      (fun w hw => h.outs.below _ (List.mem_append_left _ (hm w hw))) fun w hw v hv => ?_
    refine (List.pairwise_append.1 h.outs.disj).2.2 _ (hm w hw) _ ?_
    simp only [ptVars, Option.elim_some, List.mem_cons, List.not_mem_nil, or_false] at hv ⊢
    rcases hv with rfl | rfl <;> simp

/-- `WCurve.isogenyA` after the choice of the model -/
def restA (l : Level) (iso : Iso F2) (K : Pt F2) (Q : Option (Pt F2)) : Curve.Out (Option (Crv F2 × Option (Pt F2) × Pt F2)) :=
  let A := (WCurve.acToAac24 l ⟨iso.B, fp2one (tables l)⟩).1
  let C := (WCurve.acToAac24 l ⟨iso.B, fp2one (tables l)⟩).2.2
  let R := WCurve.evalIso l iso K
  let Q := Q.map (WCurve.evalIso l iso)
  let T' := WCurve.xDBLe l R A C (l.iso.e2 - 1)
  let O := WCurve.xDBL l T' A C
  if (WCurve.iszero l T'.Z ||| ~~~ WCurve.iszero l O.Z) ≠ 0 then .ok none else
  let S := WCurve.xDBLe l R A C (l.iso.e2 - 1)
  let t : (F2 × F2) × Pt F2 × Option (Pt F2) := if l.iso.e2 % 2 = 1 then
    (((WCurve.get2isog l S).1, (WCurve.get2isog l S).2), WCurve.eval2isog l R S, Q.map fun q => WCurve.eval2isog l q S) else ((A, C), R, Q)
  match stratRows (WCurve.opsA l) l.iso.ptsA (l.iso.maxA - 1) ⟨t.1, t.2.1, t.2.2, [], 0, l.iso.stratA⟩ with
  | none => .ub
  | some st => .ok (some (WCurve.ac24ToAc l ((WCurve.opsA l).get st.R).1.1 ((WCurve.opsA l).get st.R).1.2,
      st.Q.map ((WCurve.opsA l).eval ((WCurve.opsA l).get st.R).2), ⟨fp2zero (tables l), fp2one (tables l)⟩))

theorem isogenyA_eq (E : Crv F2) (K : Pt F2) (Q : Option (Pt F2)) : WCurve.isogenyA l E K Q =
    match WCurve.changeModel l E with
    | .ok r => restA l (WCurve.cmovIso l (WCurve.iszero l (WCurve.xDBLe l K (WCurve.acToAac24 l E).1 (WCurve.acToAac24 l E).2.2
        (l.iso.e2 - 1)).X) r.2 r.1) K Q
    | _ => .ub := by
  unfold WCurve.isogenyA restA
  simp only
  rcases WCurve.changeModel l E with r | _ | _
  · simp only
    by_cases ho : l.iso.e2 % 2 = 1
    · simp only [if_pos ho]
      rfl
    · simp only [if_neg ho]
      rfl
  all_goals rfl

/-- `Isogeny_A` on memory does what it does on values. -/
theorem isogenyAM_spec (h : IsoArgs (nw l) sp E K EE Q back) (m : Mem) :
    IsoRes (nw l) sp m EE Q back (WCurve.isogenyA l (rdC (nw l) m E) (rdP (nw l) m K) (Q.map (rdP (nw l) m)))
      (isogenyAM l E K EE Q back sp m) := by
  have hL := h.lay
  have hQ : ∀ a ∈ Q, a = Q.getD sp := by rintro a ha; rw [Option.mem_def.1 ha]; rfl
  have a0 := At.start (n := nw l) (s := loc (nw l) sp 2) (L := argA l E K (Q.getD sp)) (k := pts0 + 2 * l.iso.ptsA) m
  have eQ : (Q.map fun _ => ptOf (start (nw l) m (argA l E K (Q.getD sp)) fun i =>
      rdF (nw l) m (addr (nw l) (loc (nw l) sp 2) (argA l E K (Q.getD sp)) i)) 4) = Q.map (rdP (nw l) m) := by
    rcases Q with _ | a <;> rfl
  generalize hσ : start (nw l) m _ _ = σ0 at a0 eQ
  have r1 := isoAModelM_spec hL a0
  have eE : Crv.mk (σ0 0) (σ0 1) = rdC (nw l) m E := by rw [← hσ]; rfl
  have eK : Pt.mk (σ0 2) (σ0 3) = rdP (nw l) m K := by rw [← hσ]; rfl
  rw [eE, eK] at r1
  rw [isogenyA_eq]
  unfold isogenyAM
  simp only
  generalize isoAModelM l E K _ _ m = o1 at r1 ⊢
  generalize WCurve.changeModel l (rdC (nw l) m E) = c1 at r1 ⊢
  rcases c1 with r | _ | _ <;> rcases o1 with _ | m1 <;> simp only [Res] at r1
  on_goal 2 => exact trivial
  obtain ⟨σ1, a1, hi1, hk1, k1⟩ := r1
  have eQ1 : (Q.map fun _ => ptOf σ1 4) = Q.map (rdP (nw l) m) := by rw [← eQ, ptOf, ptOf, k1 4 (by decide), k1 5 (by decide)]
  simp only
  generalize WCurve.cmovIso l _ _ _ = iso at hi1 ⊢
  unfold restA
  simp only
  generalize hA : (WCurve.acToAac24 l ⟨iso.B, fp2one (tables l)⟩).1 = A
  generalize hC : (WCurve.acToAac24 l ⟨iso.B, fp2one (tables l)⟩).2.2 = C
  generalize hR : WCurve.evalIso l iso (rdP (nw l) m K) = R
  generalize hT : WCurve.xDBLe l R A C (l.iso.e2 - 1) = T'
  generalize hO : WCurve.xDBL l T' A C = O
  obtain ⟨p2, σ2, a2, hA2, hC2, hR2, hQ2, k2⟩ := isoACheckM_spec hL a1 hQ hi1 hk1 hA hC hR hT hO
  rw [p2]
  rw [eQ1] at hQ2
  have hlt2 : ∀ i < 4, σ2 i = σ0 i := fun i hi => (k2 i hi).trans (k1 i (by omega))
  by_cases hb : (WCurve.iszero l T'.Z ||| ~~~ WCurve.iszero l O.Z) ≠ 0
  · rw [if_pos hb, if_pos hb]
    exact ⟨_, At.core h a2 (by rw [hσ]; exact hlt2)⟩
  · rw [if_neg hb, if_neg hb]
    generalize ht : (if l.iso.e2 % 2 = 1 then _ else _ : (F2 × F2) × Pt F2 × Option (Pt F2)) = t
    have r3 := isoAStepsM_spec hL hQ a2 (S := T') (by rw [hR2, hA2, hC2, hT]) (cv := t.1) (R := t.2.1) (Q' := t.2.2) (by
      rw [hA2, hC2, hR2, ← hQ2]
      exact ht)
    generalize isoAStepsM l Q _ _ _ = o3 at r3 ⊢
    generalize stratRows (WCurve.opsA l) _ _ _ = s3 at r3 ⊢
    rcases s3 with _ | st <;> rcases o3 with _ | m3 <;> simp only at r3
    · trivial
    · obtain ⟨σ3, a3, e3, q3, k3⟩ := r3
      have hcore := At.core h a3 (by rw [hσ]; exact fun i hi => (k3 i hi).trans (hlt2 i hi))
      have e31 : σ3 6 = ((WCurve.opsA l).get st.R).1.1 := congrArg Prod.fst e3
      have e32 : σ3 7 = ((WCurve.opsA l).get st.R).1.2 := congrArg Prod.snd e3
      simp only
      rw [← q3, ← e31, ← e32]
      refine ⟨isSome_map_const Q _, isoOut h hcore
        (f := fun a => ac24ToAcM (portable l) (loc (nw l) (loc (nw l) sp 2) 0) (loc (nw l) (loc (nw l) sp 2) 1) a
          (loc (nw l) (loc (nw l) sp 2) (pts0 + 2 * l.iso.ptsA)))
        (g := fun a => (portable l).runs (loc (nw l) (loc (nw l) sp 2) (pts0 + 2 * l.iso.ptsA)) [.zero a, .one (a + 2 * nw l)])
        (k := pts0 + 2 * l.iso.ptsA) (fun a hl => ?_) (fun a m hl => ?_)⟩
      · have c := ac24ToAcM_effect (portable l) m3 (hl.call (pts0 + 2 * l.iso.ptsA) [2, 3, 0, 1] (by decide) (all_lt (N := 4) rfl (by
          simp only [List.length_cons, List.length_nil, pts0]; omega)))
        have v6 : rdF (nw l) m3 (loc (nw l) (loc (nw l) sp 2) 0) = σ3 6 := a3.valA (i := 6) (by decide)
        have v7 : rdF (nw l) m3 (loc (nw l) (loc (nw l) sp 2) 1) = σ3 7 := a3.valA (i := 7) (by decide)
        rw [← v6, ← v7]
        exact c
      · have hl' := hl.call (pts0 + 2 * l.iso.ptsA) [0, 1] (by decide) (all_lt (N := 2) rfl (by
          simp only [List.length_cons, List.length_nil]; omega))
        refine (portable l).prog m hl' (k := 0) [.zero 0, .one 1] [(0, _), (1, _)] rfl rfl rfl ?_
        values

end

end Secuer.CMem
