import Verif.CMem.Bytes

/-!
# Montgomery models on memory

`solve_quadratic`, `all_models`, `canonical_model`, `change_model` of `poik.c`, in the portable build.
-/

namespace Secuer.CMem

open Secuer.Word Secuer.Field
open Secuer.Curve (Pt Crv Iso)

variable {l : Level} {s k : ℕ} {L : List ℕ}

/-- The variables have the values `σ`, and nothing else has changed since `m₀`. -/
structure At (n s : ℕ) (L : List ℕ) (k : ℕ) (m₀ m : Mem) (σ : ℕ → F2) : Prop where
  holds : Holds n s L k m σ
  frame : Frame n s L k m₀ m

section
variable {n : ℕ} {m₀ m m' : Mem} {σ : ℕ → F2}

theorem At.start (m : Mem) : At n s L k m m (CMem.start n m L fun i => rdF n m (addr n s L i)) := ⟨holds_start m, fun _ _ _ => rfl⟩

theorem At.sim {P : Mem → Mem} {F : (ℕ → F2) → ℕ → F2} (h : At n s L k m₀ m σ) (S : Sim n s L k P F) : At n s L k m₀ (P m) (F σ) :=
  ⟨S.val _ _ h.holds, h.frame.trans (S.frame _)⟩

theorem At.agree (h : At n s L k m₀ m σ) (hL : Layout n s L) (ha : Agree (loc n s k) m' m) : At n s L k m₀ m' σ :=
  ⟨h.holds.agree hL ha, h.frame.trans (Frame.agree ha)⟩

/-- A call whose effect is known -/
theorem At.call (h : At n s L k m₀ m σ) (hL : Layout n s L) (W : List (ℕ × F2)) (hn : (W.map Prod.fst).Nodup)
    (hb : ((W.map Prod.fst).all fun i => decide (i < L.length + k)) = true)
    (he : Effect n (loc n s k) m m' (W.map fun w => (addr n s L w.1, w.2))) : At n s L k m₀ m' (setAll σ W) :=
  ⟨h.holds.call hL hn he, h.frame.trans (he.toFrame hb)⟩

theorem At.val (h : At n s L k m₀ m σ) {i : ℕ} (hi : i < L.length + k) : rdF n m (addr n s L i) = σ i := h.holds i hi

end

/-! ## `solve_quadratic` -/

/-- `solve_quadratic` (`poik.c:370-405`) with `assert` compiled out -/
def solveQuadraticM (l : Level) (A sols sp : ℕ) (m : Mem) : BitVec 64 × Mem :=
  let sqrtDisc := loc (nw l) sp 0
  let four := loc (nw l) sp 1
  let disc := loc (nw l) sp 2
  let sp := loc (nw l) sp 3
  let m := (portable l).runs sp [.one four, .add four four four, .add four four four, .sqr A disc, .sub disc four disc] m
  let m := (fp2sqrtM l true disc sqrtDisc sp m).2
  let m := (portable l).runs sp [.sub sqrtDisc A sols, .div2 sols sols, .sub sols sqrtDisc (sols + 2 * nw l)] m
  let r := fp2EqualM (tables l) sols (sols + 2 * nw l) sp m
  (2 - r.1.setWidth 64, r.2)

theorem solveQuadraticM_effect {A S : ℕ} (m : Mem) (hL : Layout (nw l) s [A, S, S + 2 * nw l]) :
    (solveQuadraticM l A S s m).1 = (WCurve.solveQuadratic l (rdF (nw l) m A)).2.2 ∧
    Effect (nw l) s m (solveQuadraticM l A S s m).2 [(S, (WCurve.solveQuadratic l (rdF (nw l) m A)).1),
      (S + 2 * nw l, (WCurve.solveQuadratic l (rdF (nw l) m A)).2.1)] := by
  have a1 := (At.start (k := 3) m).sim (Sim.ops (portable l) (k := 3) hL
    [.one 4, .add 4 4 4, .add 4 4 4, .sqr 0 5, .sub 5 4 5] rfl)
  generalize hσ : evals l _ _ = σ at a1
  have v0 : σ 0 = rdF (nw l) m A := by rw [← hσ]; rfl
  have v5 : σ 5 = fp2sub (tables l) (fp2sqr (tables l) (rdF (nw l) m A))
      (fp2add (tables l) (fp2add (tables l) (fp2one (tables l)) (fp2one (tables l))) (fp2add (tables l) (fp2one (tables l)) (fp2one (tables l)))) := by
    rw [← hσ]
    simp [evals, Op.dst, Op.val, Function.update, start]
  clear hσ
  generalize hm1 : (portable l).runs (loc (nw l) s 3) _ m = m1 at a1
  have c2 := (fp2sqrtM_effect (l := l) true m1 (hL.call 3 [5, 3] (by decide) rfl)).2
  have w5 : rdF (nw l) m1 (addr (nw l) s [A, S, S + 2 * nw l] 5) = σ 5 := a1.val (by simp)
  rw [w5, v5] at c2
  have a2 := a1.call hL [(3, _)] (by simp) rfl c2
  generalize hm2 : (fp2sqrtM l true _ _ (loc (nw l) s 3) m1).2 = m2 at a2
  have a3 := a2.sim (Sim.ops (portable l) (k := 3) hL [.sub 3 0 1, .div2 1 1, .sub 1 3 2] rfl)
  generalize hm3 : (portable l).runs (loc (nw l) s 3) _ m2 = m3 at a3
  generalize hσ' : evals l _ _ = σ' at a3
  have u0 : σ' 0 = rdF (nw l) m A := by
    rw [← hσ', ← v0]
    simp [evals, Op.dst, setAll, Function.update]
  have u1 : σ' 1 = (WCurve.solveQuadratic l (rdF (nw l) m A)).1 := by
    rw [← hσ']
    simp [evals, Op.dst, Op.val, setAll, Function.update, v0]
    rfl
  have u2 : σ' 2 = (WCurve.solveQuadratic l (rdF (nw l) m A)).2.1 := by
    rw [← hσ']
    simp [evals, Op.dst, Op.val, setAll, Function.update, v0]
    rfl
  clear hσ'
  obtain ⟨q1, q2⟩ := fp2EqualM_spec (s := loc (nw l) s 3) (m := m3) (a := S) (b := S + 2 * nw l) (good l)
    (addr_below (k := 3) (i := 1) hL (by simp)) (addr_below (k := 3) (i := 2) hL (by simp))
  have w1 : rdF (tables l).n m3 S = σ' 1 := a3.val (i := 1) (by simp)
  have w2 : rdF (tables l).n m3 (S + 2 * nw l) = σ' 2 := a3.val (i := 2) (by simp)
  rw [w1, w2, u1, u2] at q1
  have a4 := a3.agree hL q2
  have e : solveQuadraticM l A S s m = (2 - (fp2EqualM (tables l) S (S + 2 * nw l) (loc (nw l) s 3) m3).1.setWidth 64,
      (fp2EqualM (tables l) S (S + 2 * nw l) (loc (nw l) s 3) m3).2) := by
    rw [← hm3, ← hm2, ← hm1]
    rfl
  rw [e]
  refine ⟨?_, ?_⟩
  · simp only
    rw [q1]
    rfl
  · exact a4.holds.effect a4.frame [(1, _), (2, _)] [0] rfl rfl (by
      simp only [List.forall_mem_cons]
      exact ⟨u1, u2, by simp⟩) (by
      simp only [List.forall_mem_cons]
      exact ⟨u0, by simp⟩)

/-! ## `all_models` -/

/-- The body of the inner loop of `all_models` (`poik.c:438-445`) -/
def modelAtM (l : Level) (A x2 min2x2 x4 iso sp : ℕ) (m : Mem) : Mem :=
  let B := iso
  let r := iso + 2 * nw l
  let u2 := iso + 2 * nw l + 2 * nw l
  let m := (portable l).runs sp [.sub x4 x2 u2, .sub x2 min2x2 B, .add B A B] m
  let m := divM (portable l) B u2 B sp m
  (portable l).runs sp [.copy x2 r] m

theorem modelAtM_effect {A x2 min2x2 x4 I : ℕ} (m : Mem)
    (hL : Layout (nw l) s [A, x2, min2x2, x4, I, I + 2 * nw l, I + 2 * nw l + 2 * nw l]) :
    Effect (nw l) s m (modelAtM l A x2 min2x2 x4 I s m) (isoVars (nw l) I
      (WCurve.modelAt l (rdF (nw l) m A) (rdF (nw l) m x2) (rdF (nw l) m min2x2) (rdF (nw l) m x4))) := by
  have a1 := (At.start (k := 0) m).sim (Sim.ops (portable l) (k := 0) hL [.sub 3 1 6, .sub 1 2 4, .add 4 0 4] rfl)
  generalize hm1 : (portable l).runs (loc (nw l) s 0) _ m = m1 at a1
  have c2 := divM_effect_inplace (portable l) m1 (hL.call 0 [4, 6] (by decide) rfl)
  have w4 := a1.val (i := 4) (by simp)
  have w6 := a1.val (i := 6) (by simp)
  rw [w4, w6] at c2
  have a2 := a1.call hL [(4, _)] (by simp) rfl c2
  generalize hm2 : divM (portable l) _ _ _ _ m1 = m2 at a2
  have a3 := a2.sim (Sim.ops (portable l) (k := 0) hL [.copy 1 5] rfl)
  have e : modelAtM l A x2 min2x2 x4 I s m = (portable l).runs (loc (nw l) s 0) ([Op.copy 1 5].map (Op.map (addr (nw l) s
      [A, x2, min2x2, x4, I, I + 2 * nw l, I + 2 * nw l + 2 * nw l]))) m2 := by
    rw [← hm2, ← hm1]
    rfl
  rw [e]
  refine a3.holds.effect a3.frame [(4, _), (5, _), (6, _)] [0, 1, 2, 3] rfl rfl ?_ ?_
  · simp only [List.forall_mem_cons]
    refine ⟨?_, ?_, ?_, by simp⟩ <;> simp [evals, Op.dst, Op.val, setAll, Function.update, start] <;> rfl
  · simp only [List.forall_mem_cons]
    refine ⟨?_, ?_, ?_, ?_, by simp⟩ <;> simp [evals, Op.dst, setAll, Function.update]

/-- The result of a function that has no defined behaviour for some inputs: `P` relates the value to the memory. -/
def Res {α : Type} (o : Curve.Out α) (r : Option Mem) (P : α → Mem → Prop) : Prop :=
  match o, r with
  | .ok a, some m => P a m
  | .ub, none => True
  | _, _ => False

/-- One pass of the outer loop of `all_models` (`poik.c:428-446`); `iso` points to the first of the two entries it writes.  `none` if the
inner loop runs beyond `x4`. -/
def modelsAtM (l : Level) (A x2 iso sp : ℕ) (m : Mem) : Option Mem :=
  let min2x2 := loc (nw l) sp 0
  let x4 := loc (nw l) sp 1
  let sp := loc (nw l) sp 3
  let m := (portable l).runs sp [.add x2 x2 min2x2, .neg min2x2] m
  let r := solveQuadraticM l min2x2 x4 sp m
  if r.1 = 2 then
    let m := modelAtM l A x2 min2x2 x4 iso sp r.2
    some (modelAtM l A x2 min2x2 (x4 + 2 * nw l) (iso + 2 * nw l + 2 * nw l + 2 * nw l) sp m)
  else none

theorem modelsAtM_effect {A x2 I J : ℕ} (m : Mem) (hJ : J = I + 2 * nw l + 2 * nw l + 2 * nw l)
    (hL : Layout (nw l) s [A, x2, I, I + 2 * nw l, I + 2 * nw l + 2 * nw l, J, J + 2 * nw l, J + 2 * nw l + 2 * nw l]) :
    Res (WCurve.modelsAt l (rdF (nw l) m A) (rdF (nw l) m x2)) (modelsAtM l A x2 I s m) fun is m' =>
      ∃ i j, is = [i, j] ∧ Effect (nw l) s m m' (isoVars (nw l) I i ++ isoVars (nw l) J j) := by
  generalize hLL : [A, x2, I, I + 2 * nw l, I + 2 * nw l + 2 * nw l, J, J + 2 * nw l, J + 2 * nw l + 2 * nw l] = LL at hL
  have a1 := (At.start (k := 3) m).sim (Sim.ops (portable l) (k := 3) hL [.add 1 1 8, .neg 8] (by subst hLL; rfl))
  subst hLL
  generalize hm1 : (portable l).runs (loc (nw l) s 3) _ m = m1 at a1
  generalize hσ : evals l _ _ = σ at a1
  have v0 : σ 0 = rdF (nw l) m A := by rw [← hσ]; rfl
  have v1 : σ 1 = rdF (nw l) m x2 := by rw [← hσ]; rfl
  have v8 : σ 8 = fp2neg (tables l) (fp2add (tables l) (rdF (nw l) m x2) (rdF (nw l) m x2)) := by
    rw [← hσ]
    simp [evals, Op.dst, Op.val, Function.update, start]
  clear hσ
  obtain ⟨c1, c2⟩ := solveQuadraticM_effect (l := l) m1 (hL.call 3 [8, 9, 10] (by decide) rfl)
  rw [a1.val (i := 8) (by simp), v8] at c1 c2
  have a2 := a1.call hL [(9, _), (10, _)] (by simp) rfl c2
  have e : modelsAtM l A x2 I s m = if (solveQuadraticM l (loc (nw l) s 0) (loc (nw l) s 1) (loc (nw l) s 3) m1).1 = 2 then
      some (modelAtM l A x2 (loc (nw l) s 0) (loc (nw l) s 2) J (loc (nw l) s 3)
        (modelAtM l A x2 (loc (nw l) s 0) (loc (nw l) s 1) I (loc (nw l) s 3)
          (solveQuadraticM l (loc (nw l) s 0) (loc (nw l) s 1) (loc (nw l) s 3) m1).2)) else none := by
    rw [← hm1, hJ]
    rfl
  rw [e]
  have c1' : (solveQuadraticM l (loc (nw l) s 0) (loc (nw l) s 1) (loc (nw l) s 3) m1).1 = _ := c1
  rw [c1']
  simp only [WCurve.modelsAt]
  generalize hq : WCurve.solveQuadratic l (fp2neg (tables l) (fp2add (tables l) (rdF (nw l) m x2) (rdF (nw l) m x2))) = q at a2
  by_cases h2 : q.2.2 = 2
  · rw [if_pos h2, if_pos h2]
    have a2' : At (nw l) s _ 3 m (solveQuadraticM l (loc (nw l) s 0) (loc (nw l) s 1) (loc (nw l) s 3) m1).2 _ := a2
    generalize (solveQuadraticM l (loc (nw l) s 0) (loc (nw l) s 1) (loc (nw l) s 3) m1).2 = m2 at a2'
    generalize hσ : setAll σ _ = τ at a2'
    have t0 : τ 0 = rdF (nw l) m A := by rw [← hσ, ← v0]; rfl
    have t1 : τ 1 = rdF (nw l) m x2 := by rw [← hσ, ← v1]; rfl
    have t8 : τ 8 = fp2neg (tables l) (fp2add (tables l) (rdF (nw l) m x2) (rdF (nw l) m x2)) := by rw [← hσ, ← v8]; rfl
    have t9 : τ 9 = q.1 := by rw [← hσ]; simp [setAll, Function.update]
    have t10 : τ 10 = q.2.1 := by rw [← hσ]; simp [setAll, Function.update]
    clear hσ
    have c3 := modelAtM_effect (l := l) m2 (hL.call 3 [0, 1, 8, 9, 2, 3, 4] (by decide) rfl)
    rw [a2'.val (i := 0) (by simp), a2'.val (i := 1) (by simp), a2'.val (i := 8) (by simp), a2'.val (i := 9) (by simp), t0, t1, t8, t9] at c3
    have a3 : At (nw l) s _ 3 m (modelAtM l A x2 (loc (nw l) s 0) (loc (nw l) s 1) I (loc (nw l) s 3) m2) _ :=
      a2'.call hL [(2, _), (3, _), (4, _)] (by simp) rfl c3
    generalize modelAtM l A x2 (loc (nw l) s 0) (loc (nw l) s 1) I (loc (nw l) s 3) m2 = m3 at a3
    have c4 := modelAtM_effect (l := l) m3 (hL.call 3 [0, 1, 8, 10, 5, 6, 7] (by decide) rfl)
    rw [a3.val (i := 0) (by simp), a3.val (i := 1) (by simp), a3.val (i := 8) (by simp), a3.val (i := 10) (by simp)] at c4
    simp only [setAll, List.foldl_cons, List.foldl_nil, Function.update, Nat.reduceEqDiff, OfNat.zero_ne_ofNat,
      OfNat.one_ne_ofNat, t0, t1, t8, t10] at c4
    have a4 : At (nw l) s _ 3 m (modelAtM l A x2 (loc (nw l) s 0) (loc (nw l) s 2) J (loc (nw l) s 3) m3) _ :=
      a3.call hL [(5, _), (6, _), (7, _)] (by simp) rfl c4
    refine ⟨_, _, rfl, a4.holds.effect a4.frame [(2, _), (3, _), (4, _), (5, _), (6, _), (7, _)] [0, 1] rfl rfl ?_ ?_⟩
    · simp only [List.forall_mem_cons]
      refine ⟨?_, ?_, ?_, ?_, ?_, ?_, by simp⟩ <;> simp [setAll, Function.update]
    · simp only [List.forall_mem_cons]
      exact ⟨t0, t1, by simp⟩
  · rw [if_neg h2, if_neg h2]
    trivial

/-- The address of the `i`th entry of the array of `mont_iso` at `I` -/
def isoAt (n I : ℕ) : ℕ → ℕ
  | 0 => I
  | i + 1 => isoAt n I i + 2 * n + 2 * n + 2 * n

/-- The addresses of the three variables of a `mont_iso` -/
def isoAddr (n I : ℕ) : List ℕ := [I, I + 2 * n, I + 2 * n + 2 * n]

/-- The addresses of the variables of an array `mont_iso iso[6]` -/
def isosAddr (n I : ℕ) : List ℕ :=
  isoAddr n (isoAt n I 0) ++ isoAddr n (isoAt n I 1) ++ isoAddr n (isoAt n I 2) ++ isoAddr n (isoAt n I 3) ++ isoAddr n (isoAt n I 4) ++
    isoAddr n (isoAt n I 5)

/-- The variables of an array `mont_iso iso[6]`, with values -/
def isosVars (n I : ℕ) (x : List (Iso F2)) : List (ℕ × F2) :=
  (List.range x.length).flatMap fun i => (x[i]?).elim [] (isoVars n (isoAt n I i))

/-- `all_models` (`poik.c:407-447`) with `assert` compiled out; `none` if the outer loop runs beyond `x2` or an inner one beyond `x4`. -/
def allModelsM (l : Level) (E iso sp : ℕ) (m : Mem) : Option Mem :=
  let I := isoAt (nw l) iso
  let A := loc (nw l) sp 0
  let x2 := loc (nw l) sp 1
  let sp := loc (nw l) sp 3
  let m := divM (portable l) E (E + 2 * nw l) A sp m
  let m := (portable l).runs sp [.zero (I 0 + 2 * nw l), .one (I 0 + 2 * nw l + 2 * nw l), .copy A (I 0)] m
  let m := copyIsoM (nw l) (I 0) (I 1) m
  let m := (portable l).runs sp [.neg (I 1 + 2 * nw l + 2 * nw l), .neg (I 1)] m
  let r := solveQuadraticM l A x2 sp m
  if r.1 = 2 then (modelsAtM l A x2 (I 2) sp r.2).bind (modelsAtM l A (x2 + 2 * nw l) (I 4) sp) else none

theorem allModelsM_effect {E I : ℕ} (m : Mem) (hL : Layout (nw l) s ([E, E + 2 * nw l] ++ isosAddr (nw l) I)) :
    Res (WCurve.allModels l (rdC (nw l) m E)) (allModelsM l E I s m) fun is m' =>
      ∃ i0 i1 i2 i3 i4 i5, is = [i0, i1, i2, i3, i4, i5] ∧ Effect (nw l) s m m' (isosVars (nw l) I is) := by
  have c1 := divM_effect (portable l) m (hL.call 3 [0, 1, 20] (by decide) rfl)
  have a1 : At (nw l) s _ 3 m (divM (portable l) E (E + 2 * nw l) (loc (nw l) s 0) (loc (nw l) s 3) m) _ :=
    (At.start (k := 3) m).call hL [(20, _)] (by simp) rfl c1
  generalize hm1 : divM (portable l) E (E + 2 * nw l) (loc (nw l) s 0) (loc (nw l) s 3) m = m1 at a1
  have a2 := a1.sim (Sim.ops (portable l) (k := 3) hL [.zero 3, .one 4, .copy 20 2] rfl)
  generalize hm2 : (portable l).runs (loc (nw l) s 3) _ m1 = m2 at a2
  generalize hA : WCurve.div l (rdF (nw l) m E) (rdF (nw l) m (E + 2 * nw l)) = A
  generalize hσ : evals l _ _ = σ at a2
  have v0 : σ 0 = rdF (nw l) m E := by rw [← hσ]; rfl
  have v1 : σ 1 = rdF (nw l) m (E + 2 * nw l) := by rw [← hσ]; rfl
  have v20 : σ 20 = A := by rw [← hσ, ← hA]; rfl
  have v2 : σ 2 = A := by rw [← hσ, ← hA]; rfl
  have v3 : σ 3 = fp2zero (tables l) := by rw [← hσ]; rfl
  have v4 : σ 4 = fp2one (tables l) := by rw [← hσ]; rfl
  clear hσ
  have c3 := copyIsoM_effect (n := nw l) (s := loc (nw l) s 3) (I := isoAt (nw l) I 0) (J := isoAt (nw l) I 1) m2
    (Or.inl (by simp only [isoAt]; omega))
  have w : rdI (nw l) m2 (isoAt (nw l) I 0) = ⟨A, fp2zero (tables l), fp2one (tables l)⟩ := by
    have e2 := a2.val (i := 2) (by simp [isosAddr, isoAddr])
    have e3 := a2.val (i := 3) (by simp [isosAddr, isoAddr])
    have e4 := a2.val (i := 4) (by simp [isosAddr, isoAddr])
    rw [v2] at e2
    rw [v3] at e3
    rw [v4] at e4
    exact congr (congr (congrArg Iso.mk e2) e3) e4
  rw [w] at c3
  have a3 := a2.call hL [(5, A), (6, fp2zero (tables l)), (7, fp2one (tables l))] (by simp) rfl c3
  generalize hm3 : copyIsoM (nw l) (isoAt (nw l) I 0) (isoAt (nw l) I 1) m2 = m3 at a3
  have a4 := a3.sim (Sim.ops (portable l) (k := 3) hL [.neg 7, .neg 5] rfl)
  generalize hm4 : (portable l).runs (loc (nw l) s 3) _ m3 = m4 at a4
  generalize hσ : evals l _ _ = τ at a4
  have t0 : τ 0 = rdF (nw l) m E := by rw [← hσ, ← v0]; rfl
  have t1 : τ 1 = rdF (nw l) m (E + 2 * nw l) := by rw [← hσ, ← v1]; rfl
  have t20 : τ 20 = A := by rw [← hσ, ← v20]; rfl
  have t2 : τ 2 = A := by rw [← hσ, ← v2]; rfl
  have t3 : τ 3 = fp2zero (tables l) := by rw [← hσ, ← v3]; rfl
  have t4 : τ 4 = fp2one (tables l) := by rw [← hσ, ← v4]; rfl
  have t5 : τ 5 = fp2neg (tables l) A := by rw [← hσ]; rfl
  have t6 : τ 6 = fp2zero (tables l) := by rw [← hσ]; rfl
  have t7 : τ 7 = fp2neg (tables l) (fp2one (tables l)) := by rw [← hσ]; rfl
  clear hσ
  obtain ⟨d1, d2⟩ := solveQuadraticM_effect (l := l) m4 (hL.call 3 [20, 21, 22] (by decide) rfl)
  rw [a4.val (i := 20) (by simp [isosAddr, isoAddr]), t20] at d1 d2
  have a5 := a4.call hL [(21, _), (22, _)] (by simp) rfl d2
  have e : allModelsM l E I s m = if (solveQuadraticM l (loc (nw l) s 0) (loc (nw l) s 1) (loc (nw l) s 3) m4).1 = 2 then
      (modelsAtM l (loc (nw l) s 0) (loc (nw l) s 1) (isoAt (nw l) I 2) (loc (nw l) s 3)
        (solveQuadraticM l (loc (nw l) s 0) (loc (nw l) s 1) (loc (nw l) s 3) m4).2).bind
        (modelsAtM l (loc (nw l) s 0) (loc (nw l) s 2) (isoAt (nw l) I 4) (loc (nw l) s 3)) else none := by
    rw [← hm4, ← hm3, ← hm2, ← hm1]
    rfl
  rw [e]
  have d1' : (solveQuadraticM l (loc (nw l) s 0) (loc (nw l) s 1) (loc (nw l) s 3) m4).1 = _ := d1
  rw [d1']
  have hA' : WCurve.div l (rdC (nw l) m E).A (rdC (nw l) m E).C = A := hA
  simp only [WCurve.allModels, hA']
  generalize WCurve.solveQuadratic l A = q at a5
  by_cases h2 : q.2.2 = 2
  · rw [if_pos h2, if_pos h2]
    have a5' : At (nw l) s _ 3 m (solveQuadraticM l (loc (nw l) s 0) (loc (nw l) s 1) (loc (nw l) s 3) m4).2 _ := a5
    generalize (solveQuadraticM l (loc (nw l) s 0) (loc (nw l) s 1) (loc (nw l) s 3) m4).2 = m5 at a5'
    have r1 := modelsAtM_effect (l := l) m5 rfl (hL.call 3 [20, 21, 8, 9, 10, 11, 12, 13] (by decide) rfl)
    rw [a5'.val (i := 20) (by simp [isosAddr, isoAddr]), a5'.val (i := 21) (by simp [isosAddr, isoAddr])] at r1
    have x20 : setAll τ [(21, q.1), (22, q.2.1)] 20 = A := by rw [← t20]; rfl
    have x21 : setAll τ [(21, q.1), (22, q.2.1)] 21 = q.1 := rfl
    rw [x20, x21] at r1
    have r1' : Res (WCurve.modelsAt l A q.1) (modelsAtM l (loc (nw l) s 0) (loc (nw l) s 1) (isoAt (nw l) I 2) (loc (nw l) s 3) m5) _ := r1
    generalize modelsAtM l (loc (nw l) s 0) (loc (nw l) s 1) (isoAt (nw l) I 2) (loc (nw l) s 3) m5 = o at r1'
    rcases hq1 : WCurve.modelsAt l A q.1 with is | _ | _ | _ <;> rcases o with _ | m6 <;> simp only [hq1, Res] at r1'
    · obtain ⟨i2, i3, rfl, e6⟩ := r1'
      have a6 := a5'.call hL [(8, i2.B), (9, i2.r), (10, i2.u2), (11, i3.B), (12, i3.r), (13, i3.u2)] (by simp) rfl e6
      have r2 := modelsAtM_effect (l := l) m6 rfl (hL.call 3 [20, 22, 14, 15, 16, 17, 18, 19] (by decide) rfl)
      rw [a6.val (i := 20) (by simp [isosAddr, isoAddr]), a6.val (i := 22) (by simp [isosAddr, isoAddr])] at r2
      have x20 : setAll (setAll τ [(21, q.1), (22, q.2.1)])
        [(8, i2.B), (9, i2.r), (10, i2.u2), (11, i3.B), (12, i3.r), (13, i3.u2)] 20 = A := by rw [← t20]; rfl
      have x22 : setAll (setAll τ [(21, q.1), (22, q.2.1)])
        [(8, i2.B), (9, i2.r), (10, i2.u2), (11, i3.B), (12, i3.r), (13, i3.u2)] 22 = q.2.1 := rfl
      rw [x20, x22] at r2
      have r2' : Res (WCurve.modelsAt l A q.2.1)
        (modelsAtM l (loc (nw l) s 0) (loc (nw l) s 2) (isoAt (nw l) I 4) (loc (nw l) s 3) m6) _ := r2
      rw [Option.bind_some]
      generalize modelsAtM l (loc (nw l) s 0) (loc (nw l) s 2) (isoAt (nw l) I 4) (loc (nw l) s 3) m6 = o at r2'
      rcases hq2 : WCurve.modelsAt l A q.2.1 with is | _ | _ | _ <;> rcases o with _ | m7 <;> simp only [hq2, Res] at r2'
      · obtain ⟨i4, i5, rfl, e7⟩ := r2'
        have a7 := a6.call hL [(14, i4.B), (15, i4.r), (16, i4.u2), (17, i5.B), (18, i5.r), (19, i5.u2)] (by simp) rfl e7
        refine ⟨_, _, _, _, _, _, rfl, a7.holds.effect a7.frame [(2, _), (3, _), (4, _), (5, _), (6, _), (7, _), (8, _), (9, _),
          (10, _), (11, _), (12, _), (13, _), (14, _), (15, _), (16, _), (17, _), (18, _), (19, _)] [0, 1] rfl rfl ?_ ?_⟩
        · simp only [List.forall_mem_cons]
          exact ⟨t2, t3, t4, t5, t6, t7, rfl, rfl, rfl, rfl, rfl, rfl, rfl, rfl, rfl, rfl, rfl, rfl, by simp⟩
        · simp only [List.forall_mem_cons]
          exact ⟨t0, t1, by simp⟩
      · trivial
    · trivial
  · rw [if_neg h2, if_neg h2]
    trivial

/-! ## `change_model`, `canonical_model` -/

/-- `change_model` (`poik.c:505-513`) with `identity` given -/
def changeModelM (l : Level) (E iso identity sp : ℕ) (m : Mem) : Option Mem :=
  let all := loc (nw l) sp 0
  let sp := loc (nw l) sp 18
  match allModelsM l E all sp m with
  | some m =>
    let m := copyIsoM (nw l) (isoAt (nw l) all 2) iso m
    some (copyIsoM (nw l) all identity m)
  | none => none

theorem changeModelM_effect {E I J : ℕ} (m : Mem) (hL : Layout (nw l) s ([E, E + 2 * nw l] ++ isoAddr (nw l) I ++ isoAddr (nw l) J)) :
    Res (WCurve.changeModel l (rdC (nw l) m E)) (changeModelM l E I J s m) fun r m' =>
      Effect (nw l) s m m' (isoVars (nw l) I r.1 ++ isoVars (nw l) J r.2) := by
  have r1 := allModelsM_effect (l := l) (I := loc (nw l) s 0) (E := E) m
    (hL.call 18 [0, 1, 8, 9, 10, 11, 12, 13, 14, 15, 16, 17, 18, 19, 20, 21, 22, 23, 24, 25] (by decide) rfl)
  simp only [changeModelM, WCurve.changeModel]
  generalize allModelsM l E (loc (nw l) s 0) (loc (nw l) s 18) m = o at r1
  rcases hq : WCurve.allModels l (rdC (nw l) m E) with is | _ | _ | _ <;> rcases o with _ | m1 <;> simp only [hq, Res] at r1
  · obtain ⟨i0, i1, i2, i3, i4, i5, rfl, e1⟩ := r1
    show Effect (nw l) s m (copyIsoM (nw l) (loc (nw l) s 0) J (copyIsoM (nw l) (isoAt (nw l) (loc (nw l) s 0) 2) I m1))
      (isoVars (nw l) I i2 ++ isoVars (nw l) J i0)
    have a1 := (At.start (k := 18) m).call hL [(8, i0.B), (9, i0.r), (10, i0.u2), (11, i1.B), (12, i1.r), (13, i1.u2), (14, i2.B), (15, i2.r),
      (16, i2.u2), (17, i3.B), (18, i3.r), (19, i3.u2), (20, i4.B), (21, i4.r), (22, i4.u2), (23, i5.B), (24, i5.r), (25, i5.u2)] (by simp)
      rfl e1
    have hb : ∀ a ∈ isoAddr (nw l) I ++ isoAddr (nw l) J, a + 2 * nw l ≤ s := fun a ha => hL.below a (by
      rw [List.append_assoc]; exact List.mem_append_right _ ha)
    simp only [isoAddr, List.cons_append, List.nil_append, List.forall_mem_cons] at hb
    have l0 : isoAt (nw l) (loc (nw l) s 0) 2 = s + 12 * nw l := by simp only [isoAt, loc]; omega
    have c2 := copyIsoM_effect (n := nw l) (s := loc (nw l) s 18) (I := isoAt (nw l) (loc (nw l) s 0) 2) (J := I) m1 (Or.inr (by omega))
    have w2 : rdI (nw l) m1 (isoAt (nw l) (loc (nw l) s 0) 2) = i2 :=
      congr (congr (congrArg Iso.mk (a1.val (i := 14) (by simp [isoAddr]))) (a1.val (i := 15) (by simp [isoAddr])))
        (a1.val (i := 16) (by simp [isoAddr]))
    rw [w2] at c2
    have a2 := a1.call hL [(2, i2.B), (3, i2.r), (4, i2.u2)] (by simp) rfl c2
    generalize copyIsoM (nw l) (isoAt (nw l) (loc (nw l) s 0) 2) I m1 = m2 at a2
    have c3 := copyIsoM_effect (n := nw l) (s := loc (nw l) s 18) (I := loc (nw l) s 0) (J := J) m2 (Or.inr (by simp only [loc]; omega))
    have w3 : rdI (nw l) m2 (loc (nw l) s 0) = i0 :=
      congr (congr (congrArg Iso.mk (a2.val (i := 8) (by simp [isoAddr]))) (a2.val (i := 9) (by simp [isoAddr])))
        (a2.val (i := 10) (by simp [isoAddr]))
    rw [w3] at c3
    have a3 := a2.call hL [(5, i0.B), (6, i0.r), (7, i0.u2)] (by simp) rfl c3
    refine a3.holds.effect a3.frame [(2, i2.B), (3, i2.r), (4, i2.u2), (5, i0.B), (6, i0.r), (7, i0.u2)] [0, 1] rfl rfl ?_ ?_
    · simp only [List.forall_mem_cons]
      exact ⟨rfl, rfl, rfl, rfl, rfl, rfl, by simp⟩
    · simp only [List.forall_mem_cons]
      exact ⟨rfl, rfl, by simp⟩
  · trivial

/-- The body of the loop in `canonical_model` (`poik.c:491-501`), `c` pointing to `all[i]` -/
def selectStepM (l : Level) (iso sp c : ℕ) (m : Mem) : Mem :=
  let re0 := loc (nw l) sp 0
  let im0 := loc (nw l) sp 0 + nw l
  let re := loc (nw l) sp 1
  let im := loc (nw l) sp 1 + nw l
  let sp := loc (nw l) sp 2
  let m := fromMontM (tables l) iso re0 sp m
  let m := fromMontM (tables l) (iso + nw l) im0 sp m
  let m := fromMontM (tables l) c re sp m
  let m := fromMontM (tables l) (c + nw l) im sp m
  let ltRe := fpLt (rd m (nw l) re) (rd m (nw l) re0)
  let gtRe := fpLt (rd m (nw l) re0) (rd m (nw l) re)
  let ltIm := fpLt (rd m (nw l) im) (rd m (nw l) im0)
  let eqRe := ~~~ ltRe &&& ~~~ gtRe
  let lt := ltRe ||| (eqRe &&& ltIm)
  cmovIsoM (nw l) lt iso c m

theorem selectStepM_effect {I J : ℕ} (m : Mem) (hL : Layout (nw l) s (isoAddr (nw l) I ++ isoAddr (nw l) J)) :
    Effect (nw l) s m (selectStepM l I s J m) (isoVars (nw l) I
      (WCurve.cmovIso l (WCurve.modelLt l (rdI (nw l) m J).B (rdI (nw l) m I).B) (rdI (nw l) m I) (rdI (nw l) m J))) := by
  have hIJ : I + 6 * nw l ≤ J ∨ J + 6 * nw l ≤ I := by
    have D := hL.disj
    simp only [isoAddr, List.cons_append, List.nil_append, List.pairwise_cons, List.forall_mem_cons] at D
    omega
  have hbI := hL.below I (by simp [isoAddr])
  have hbI2 := hL.below (I + 2 * nw l + 2 * nw l) (by simp [isoAddr])
  have hbJ := hL.below J (by simp [isoAddr])
  have hbJ2 := hL.below (J + 2 * nw l + 2 * nw l) (by simp [isoAddr])
  have e0 : loc (nw l) s 0 = s := rfl
  have e1 : loc (nw l) s 1 = s + 2 * nw l := rfl
  have e2 : loc (nw l) s 2 = s + 2 * nw l + 2 * nw l := rfl
  have hn : (tables l).n = nw l := rfl
  have len : ∀ x : F2, Len (nw l) x → Len (nw l) (fromFp2mont (tables l) x) := fun x hx => ⟨fromMont_length (good l) hx.c0, fromMont_length (good l) hx.c1⟩
  have f1 := fromFp2montM_step (s := loc (nw l) s 2) (a := I) (c := loc (nw l) s 0) (good l) (Agree.refl _ m) (by omega) (by omega)
    (Or.inr (Or.inl (by omega)))
  have f2 := fromFp2montM_step (s := loc (nw l) s 2) (a := J) (c := loc (nw l) s 1) (good l) f1 (by omega) (by omega)
    (Or.inr (Or.inl (by omega)))
  rw [hn] at f1 f2
  have lI := len (rdF (nw l) m I) ⟨rd_length _ _ _, rd_length _ _ _⟩
  have lJ := len (rdF (nw l) m J) ⟨rd_length _ _ _, rd_length _ _ _⟩
  rw [rdF_wrF_disj lI (Or.inr (by omega))] at f2
  generalize hm2 : fromFp2montM (tables l) J (loc (nw l) s 1) (loc (nw l) s 2)
    (fromFp2montM (tables l) I (loc (nw l) s 0) (loc (nw l) s 2) m) = m2 at f2
  have r1 : rdF (nw l) m2 (loc (nw l) s 1) = fromFp2mont (tables l) (rdF (nw l) m J) := by rw [f2.rdF (by omega), rdF_wrF_same lJ]
  have r0 : rdF (nw l) m2 (loc (nw l) s 0) = fromFp2mont (tables l) (rdF (nw l) m I) := by
    rw [f2.rdF (by omega), rdF_wrF_disj lJ (Or.inr (by omega)), rdF_wrF_same lI]
  have hag : Agree s m2 m := fun x hx => by
    rw [f2 x (by omega), wrF, wr_of_lt (by omega), wr_of_lt (by omega), wrF, wr_of_lt (by omega), wr_of_lt (by omega)]
  have hI : rdI (nw l) m2 I = rdI (nw l) m I := by
    simp only [rdI]
    rw [hag.rdF hbI, hag.rdF (by omega), hag.rdF hbI2]
  have hJ : rdI (nw l) m2 J = rdI (nw l) m J := by
    simp only [rdI]
    rw [hag.rdF hbJ, hag.rdF (by omega), hag.rdF hbJ2]
  have e : selectStepM l I s J m = cmovIsoM (nw l) (WCurve.modelLt l (rdI (nw l) m J).B (rdI (nw l) m I).B) I J m2 := by
    have z0 := congrArg F2.c0 r0
    have z1 := congrArg F2.c1 r0
    have z2 := congrArg F2.c0 r1
    have z3 := congrArg F2.c1 r1
    simp only [rdF] at z0 z1 z2 z3
    simp only [selectStepM]
    rw [show fromMontM (tables l) (J + nw l) (loc (nw l) s 1 + nw l) (loc (nw l) s 2) (fromMontM (tables l) J (loc (nw l) s 1) (loc (nw l) s 2)
      (fromMontM (tables l) (I + nw l) (loc (nw l) s 0 + nw l) (loc (nw l) s 2) (fromMontM (tables l) I (loc (nw l) s 0) (loc (nw l) s 2) m))) = m2
      from hm2, z0, z1, z2, z3]
    rfl
  rw [e]
  have := cmovIsoM_effect l (s := s) (WCurve.modelLt l (rdI (nw l) m J).B (rdI (nw l) m I).B) m2 hIJ
  rw [hI, hJ] at this
  exact ⟨this.out, fun x hx hx' => (this.frame x hx hx').trans (hag x hx)⟩

/-- `canonical_model` (`poik.c:485-503`) -/
def canonicalModelM (l : Level) (E iso sp : ℕ) (m : Mem) : Option Mem :=
  let all := loc (nw l) sp 0
  let sp := loc (nw l) sp 18
  match allModelsM l E all sp m with
  | some m =>
    let m := copyIsoM (nw l) all iso m
    some ([1, 2, 3, 4, 5].foldl (fun m i => selectStepM l iso sp (isoAt (nw l) all i) m) m)
  | none => none

theorem canonicalModelM_effect {E I : ℕ} (m : Mem) (hL : Layout (nw l) s ([E, E + 2 * nw l] ++ isoAddr (nw l) I)) :
    Res (WCurve.canonicalModel l (rdC (nw l) m E)) (canonicalModelM l E I s m) fun r m' => Effect (nw l) s m m' (isoVars (nw l) I r) := by
  have r1 := allModelsM_effect (l := l) (I := loc (nw l) s 0) (E := E) m
    (hL.call 18 [0, 1, 5, 6, 7, 8, 9, 10, 11, 12, 13, 14, 15, 16, 17, 18, 19, 20, 21, 22] (by decide) rfl)
  simp only [canonicalModelM, WCurve.canonicalModel]
  generalize allModelsM l E (loc (nw l) s 0) (loc (nw l) s 18) m = o at r1
  rcases hq : WCurve.allModels l (rdC (nw l) m E) with is | _ | _ | _ <;> rcases o with _ | m1 <;> simp only [hq, Res] at r1
  · obtain ⟨i0, i1, i2, i3, i4, i5, rfl, e1⟩ := r1
    have a1 := (At.start (k := 18) m).call hL [(5, i0.B), (6, i0.r), (7, i0.u2), (8, i1.B), (9, i1.r), (10, i1.u2), (11, i2.B), (12, i2.r),
      (13, i2.u2), (14, i3.B), (15, i3.r), (16, i3.u2), (17, i4.B), (18, i4.r), (19, i4.u2), (20, i5.B), (21, i5.r), (22, i5.u2)] (by simp)
      rfl e1
    have hb := hL.below (I + 2 * nw l + 2 * nw l) (by simp [isoAddr])
    have c2 := copyIsoM_effect (n := nw l) (s := loc (nw l) s 18) (I := loc (nw l) s 0) (J := I) m1 (Or.inr (by simp only [loc]; omega))
    have w2 : rdI (nw l) m1 (loc (nw l) s 0) = i0 :=
      congr (congr (congrArg Iso.mk (a1.val (i := 5) (by simp [isoAddr]))) (a1.val (i := 6) (by simp [isoAddr])))
        (a1.val (i := 7) (by simp [isoAddr]))
    rw [w2] at c2
    have a2 := a1.call hL [(2, i0.B), (3, i0.r), (4, i0.u2)] (by simp) rfl c2
    generalize hm2 : copyIsoM (nw l) (loc (nw l) s 0) I m1 = m2 at a2
    have e : ∀ P : Mem → Prop, P ([1, 2, 3, 4, 5].foldl (fun m i => selectStepM l I (loc (nw l) s 18) (isoAt (nw l) (loc (nw l) s 0) i) m) m2) →
        P ([1, 2, 3, 4, 5].foldl (fun m i => selectStepM l I (loc (nw l) s 18) (isoAt (nw l) (loc (nw l) s 0) i) m)
          (copyIsoM (nw l) (loc (nw l) s 0) I m1)) := fun P h => by rw [hm2]; exact h
    refine e (fun m' => Effect (nw l) s m m' (isoVars (nw l) I (WCurve.selectModel l i0 [i1, i2, i3, i4, i5]))) ?_
    have step : ∀ {m' : Mem} {σ : ℕ → F2} (b J : ℕ) {cur c : Iso F2}, At (nw l) s ([E, E + 2 * nw l] ++ isoAddr (nw l) I) 18 m m' σ →
        4 < b → b + 2 < 23 → [b, b + 1, b + 2].map (addr (nw l) s ([E, E + 2 * nw l] ++ isoAddr (nw l) I)) = isoAddr (nw l) J →
        Iso.mk (σ 2) (σ 3) (σ 4) = cur → Iso.mk (σ b) (σ (b + 1)) (σ (b + 2)) = c →
        At (nw l) s ([E, E + 2 * nw l] ++ isoAddr (nw l) I) 18 m (selectStepM l I (loc (nw l) s 18) J m')
          (setAll σ [(2, (WCurve.cmovIso l (WCurve.modelLt l c.B cur.B) cur c).B), (3, (WCurve.cmovIso l (WCurve.modelLt l c.B cur.B) cur c).r),
            (4, (WCurve.cmovIso l (WCurve.modelLt l c.B cur.B) cur c).u2)]) := by
      intro m' σ b J cur c ha h4 h23 hJ hcur hc
      have hlay := hL.call 18 ([2, 3, 4] ++ [b, b + 1, b + 2]) (by simp; omega) (by simp [isoAddr]; omega)
      rw [List.map_append, hJ] at hlay
      have c3 := selectStepM_effect (l := l) (I := I) m' hlay
      have wI : rdI (nw l) m' I = cur := by
        rw [← hcur]
        exact congr (congr (congrArg Iso.mk (ha.val (i := 2) (by simp [isoAddr]))) (ha.val (i := 3) (by simp [isoAddr])))
          (ha.val (i := 4) (by simp [isoAddr]))
      have wJ : rdI (nw l) m' J = c := by
        simp only [isoAddr, List.map_cons, List.map_nil, List.cons.injEq, and_true] at hJ
        obtain ⟨j0, j1, j2⟩ := hJ
        rw [← hc, rdI, ← j2, ← j1, ← j0]
        exact congr (congr (congrArg Iso.mk (ha.val (i := b) (by simp [isoAddr]; omega))) (ha.val (i := b + 1) (by simp [isoAddr]; omega)))
          (ha.val (i := b + 2) (by simp [isoAddr]; omega))
      rw [wI, wJ] at c3
      exact ha.call hL _ (by simp) rfl c3
    have a3 := step 8 (isoAt (nw l) (loc (nw l) s 0) 1) (cur := i0) (c := i1) a2 (by decide) (by decide) rfl rfl rfl
    have a4 := step 11 (isoAt (nw l) (loc (nw l) s 0) 2) (c := i2) a3 (by decide) (by decide) rfl rfl rfl
    have a5 := step 14 (isoAt (nw l) (loc (nw l) s 0) 3) (c := i3) a4 (by decide) (by decide) rfl rfl rfl
    have a6 := step 17 (isoAt (nw l) (loc (nw l) s 0) 4) (c := i4) a5 (by decide) (by decide) rfl rfl rfl
    have a7 := step 20 (isoAt (nw l) (loc (nw l) s 0) 5) (c := i5) a6 (by decide) (by decide) rfl rfl rfl
    refine a7.holds.effect a7.frame [(2, _), (3, _), (4, _)] [0, 1] rfl rfl ?_ ?_
    · simp only [List.forall_mem_cons]
      exact ⟨rfl, rfl, rfl, by simp⟩
    · simp only [List.forall_mem_cons]
      exact ⟨rfl, rfl, by simp⟩
  · trivial

end Secuer.CMem
