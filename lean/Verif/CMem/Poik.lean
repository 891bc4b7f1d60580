import Verif.CMem.Ladder

/-!
# Functions of `poik.c` on memory, and `LADDER3PT`

The functions of `poik.c` that consist of calls of field functions only, and the three-point ladder of the key exchange.
-/

namespace Secuer.CMem

open Secuer.Word Secuer.Field
open Secuer.Curve (Pt Crv Iso)

variable {l : Level} [Arith] (X : Exec l)

/-- The `curve_proj` at address `E`: `A`, then `C` -/
def rdC (n : ℕ) (m : Mem) (E : ℕ) : Crv F2 := ⟨rdF n m E, rdF n m (E + 2 * n)⟩

/-- The two variables of the `curve_proj` at address `E`, with values -/
def crvVars (n E : ℕ) (x : Crv F2) : List (ℕ × F2) := [(E, x.A), (E + 2 * n, x.C)]

/-- The `mont_iso` at address `I`: `B`, `r`, `u2` -/
def rdI (n : ℕ) (m : Mem) (I : ℕ) : Iso F2 := ⟨rdF n m I, rdF n m (I + 2 * n), rdF n m (I + 2 * n + 2 * n)⟩

/-- The calls in `fp2div` (`poik.c:115-122`); local variable: `inv` -/
def divops (X Z x inv : ℕ) : List Op := [.copy Z inv, .inv inv, .mul X inv x]

/-- `fp2div` (`poik.c:115-122`), with `assert` compiled out -/
def divM (N D x sp : ℕ) (m : Mem) : Mem := X.runs (loc (nw l) sp 1) (divops N D x (loc (nw l) sp 0)) m

/-- `fp2div`, for a result disjoint from the inputs -/
theorem divM_effect (m : Mem) {N D x s : ℕ} (hL : Layout (nw l) s [N, D, x]) :
    Effect (nw l) s m (divM X N D x s m) [(x, WCurve.div l (rdF (nw l) m N) (rdF (nw l) m D))] := by
  refine X.prog m hL (k := 1) (divops 0 1 2 3) [(2, _)] rfl rfl rfl ?_
  simp only [divops]
  values

/-- `fp2div(X, Z, X)` (`poik.c:442`) -/
theorem divM_effect_inplace (m : Mem) {N D s : ℕ} (hL : Layout (nw l) s [N, D]) :
    Effect (nw l) s m (divM X N D N s m) [(N, WCurve.div l (rdF (nw l) m N) (rdF (nw l) m D))] := by
  refine X.prog m hL (k := 1) (divops 0 1 0 2) [(0, _)] rfl rfl rfl ?_
  simp only [divops]
  values

/-- The calls in `AC_to_AAC24` (`poik.c:246-255`) without the last one -/
def acToAac24ops (EA EC A24plus CC : ℕ) : List Op := [.add EC EC CC, .add EA CC A24plus, .add CC CC CC]

/-- `AC_to_AAC24` (`poik.c:246-255`) with `A24minus` and `C24` given -/
def acToAac24M (E A24plus A24minus C24 sp : ℕ) (m : Mem) : Mem :=
  X.runs (loc (nw l) sp 1) (acToAac24ops E (E + 2 * nw l) A24plus C24 ++ [.sub A24plus C24 A24minus]) m

/-- `AC_to_AAC24(E, A24plus, NULL, C24)` -/
def acToAc24M (E A24plus C24 sp : ℕ) (m : Mem) : Mem :=
  X.runs (loc (nw l) sp 1) (acToAac24ops E (E + 2 * nw l) A24plus C24) m

/-- `AC_to_AAC24(E, A24plus, A24minus, NULL)`: `CC` is the local variable `c`. -/
def acToAa24M (E A24plus A24minus sp : ℕ) (m : Mem) : Mem :=
  X.runs (loc (nw l) sp 1) (acToAac24ops E (E + 2 * nw l) A24plus (loc (nw l) sp 0) ++ [.sub A24plus (loc (nw l) sp 0) A24minus]) m

theorem acToAac24M_effect (m : Mem) {E A24plus A24minus C24 s : ℕ} (hL : Layout (nw l) s [E, E + 2 * nw l, A24plus, A24minus, C24]) :
    Effect (nw l) s m (acToAac24M X E A24plus A24minus C24 s m) [(A24plus, (WCurve.acToAac24 l (rdC (nw l) m E)).1),
      (A24minus, (WCurve.acToAac24 l (rdC (nw l) m E)).2.1), (C24, (WCurve.acToAac24 l (rdC (nw l) m E)).2.2)] := by
  refine X.prog m hL (k := 1) (acToAac24ops 0 1 2 4 ++ [.sub 2 4 3]) [(2, _), (3, _), (4, _)] rfl rfl rfl ?_
  simp only [acToAac24ops, List.cons_append, List.nil_append]
  values

theorem acToAc24M_effect (m : Mem) {E A24plus C24 s : ℕ} (hL : Layout (nw l) s [E, E + 2 * nw l, A24plus, C24]) :
    Effect (nw l) s m (acToAc24M X E A24plus C24 s m) [(A24plus, (WCurve.acToAac24 l (rdC (nw l) m E)).1),
      (C24, (WCurve.acToAac24 l (rdC (nw l) m E)).2.2)] := by
  refine X.prog m hL (k := 1) (acToAac24ops 0 1 2 3) [(2, _), (3, _)] rfl rfl rfl ?_
  simp only [acToAac24ops]
  values

theorem acToAa24M_effect (m : Mem) {E A24plus A24minus s : ℕ} (hL : Layout (nw l) s [E, E + 2 * nw l, A24plus, A24minus]) :
    Effect (nw l) s m (acToAa24M X E A24plus A24minus s m) [(A24plus, (WCurve.acToAac24 l (rdC (nw l) m E)).1),
      (A24minus, (WCurve.acToAac24 l (rdC (nw l) m E)).2.1)] := by
  refine X.prog m hL (k := 1) (acToAac24ops 0 1 2 4 ++ [.sub 2 4 3]) [(2, _), (3, _)] rfl rfl rfl ?_
  simp only [acToAac24ops, List.cons_append, List.nil_append]
  values

/-- The calls in `AC24_to_AC` (`poik.c:257-263`) -/
def ac24ToAcops (A24plus C24 EA EC : ℕ) : List Op := [.add A24plus A24plus EA, .sub EA C24 EA, .add EA EA EA, .copy C24 EC]

/-- `AC24_to_AC` (`poik.c:257-263`) -/
def ac24ToAcM (A24plus C24 E sp : ℕ) (m : Mem) : Mem := X.runs (loc (nw l) sp 0) (ac24ToAcops A24plus C24 E (E + 2 * nw l)) m

theorem ac24ToAcM_effect (m : Mem) {E A24plus C24 s : ℕ} (hL : Layout (nw l) s [A24plus, C24, E, E + 2 * nw l]) :
    Effect (nw l) s m (ac24ToAcM X A24plus C24 E s m)
      (crvVars (nw l) E (WCurve.ac24ToAc l (rdF (nw l) m A24plus) (rdF (nw l) m C24))) := by
  refine X.prog m hL (k := 0) (ac24ToAcops 0 1 2 3) [(2, _), (3, _)] rfl rfl rfl ?_
  simp only [ac24ToAcops]
  values

/-- The calls in `AA24_to_AC` (`poik.c:265-271`) -/
def aa24ToAcops (A24minus A24plus EA EC : ℕ) : List Op :=
  [.add A24plus A24minus EA, .add A24minus A24minus EC, .sub EA EC EC, .add EA EA EA]

/-- `AA24_to_AC` (`poik.c:265-271`) -/
def aa24ToAcM (A24minus A24plus E sp : ℕ) (m : Mem) : Mem :=
  X.runs (loc (nw l) sp 0) (aa24ToAcops A24minus A24plus E (E + 2 * nw l)) m

theorem aa24ToAcM_effect (m : Mem) {E A24minus A24plus s : ℕ} (hL : Layout (nw l) s [A24minus, A24plus, E, E + 2 * nw l]) :
    Effect (nw l) s m (aa24ToAcM X A24minus A24plus E s m)
      (crvVars (nw l) E (WCurve.aa24ToAc l (rdF (nw l) m A24minus) (rdF (nw l) m A24plus))) := by
  refine X.prog m hL (k := 0) (aa24ToAcops 0 1 2 3) [(2, _), (3, _)] rfl rfl rfl ?_
  simp only [aa24ToAcops]
  values

/-- The calls in `eval_iso` (`poik.c:361-367`); local variable: `rz` -/
def evalIsoops (r u2 PX PZ QX QZ rz : ℕ) : List Op := [.mul r PZ rz, .sub PX rz QX, .mul u2 PZ QZ]

/-- `eval_iso` (`poik.c:361-367`) -/
def evalIsoM (iso P Q sp : ℕ) (m : Mem) : Mem :=
  X.runs (loc (nw l) sp 1) (evalIsoops (iso + 2 * nw l) (iso + 2 * nw l + 2 * nw l) P (P + 2 * nw l) Q (Q + 2 * nw l) (loc (nw l) sp 0)) m

theorem evalIsoM_effect (m : Mem) {iso P Q s : ℕ}
    (hL : Layout (nw l) s [iso + 2 * nw l, iso + 2 * nw l + 2 * nw l, P, P + 2 * nw l, Q, Q + 2 * nw l]) :
    Effect (nw l) s m (evalIsoM X iso P Q s m) (ptVars (nw l) Q (WCurve.evalIso l (rdI (nw l) m iso) (rdP (nw l) m P))) := by
  refine X.prog m hL (k := 1) (evalIsoops 0 1 2 3 4 5 6) [(4, _), (5, _)] rfl rfl rfl ?_
  simp only [evalIsoops]
  values

/-- `eval_iso(iso, P, P)` (`poik.c:581, 582, 1049, 1073`) -/
theorem evalIsoM_effect_inplace (m : Mem) {iso P s : ℕ}
    (hL : Layout (nw l) s [iso + 2 * nw l, iso + 2 * nw l + 2 * nw l, P, P + 2 * nw l]) :
    Effect (nw l) s m (evalIsoM X iso P P s m) (ptVars (nw l) P (WCurve.evalIso l (rdI (nw l) m iso) (rdP (nw l) m P))) := by
  refine X.prog m hL (k := 1) (evalIsoops 0 1 2 3 2 3 4) [(2, _), (3, _)] rfl rfl rfl ?_
  simp only [evalIsoops]
  values

/-! ## `LADDER3PT` -/

/-- Two calls one after the other -/
theorem Effect.comp {n s : ℕ} {m m' m'' : Mem} {W W' W'' : List (ℕ × F2)} (h : Effect n s m m' W) (h' : Effect n s m' m'' W')
    (hv : ∀ w ∈ W'', rdF n m'' w.1 = w.2) (h1 : ∀ w ∈ W, w.1 ∈ W''.map Prod.fst) (h2 : ∀ w ∈ W', w.1 ∈ W''.map Prod.fst) :
    Effect n s m m'' W'' := by
  have aux : ∀ {x a : ℕ}, a ∈ W''.map Prod.fst → (∀ w ∈ W'', ¬ (w.1 ≤ x ∧ x < w.1 + 2 * n)) → ¬ (a ≤ x ∧ x < a + 2 * n) := by
    intro x a ha hx
    obtain ⟨v, hv, rfl⟩ := List.mem_map.1 ha
    exact hx v hv
  exact ⟨hv, fun x hx hx' => (h'.frame x hx fun w hw => aux (h2 w hw) hx').trans (h.frame x hx fun w hw => aux (h1 w hw) hx')⟩

/-- The main loop of `LADDER3PT` (`ec_isogeny.c:352-364`), from index `i` on with `k` iterations left, and the final exchange -/
def ladder3LoopM (sc A24 R0 R2 R sp : ℕ) : (k i : ℕ) → (prevbit : UInt) → Mem → Mem
  | 0, _, prevbit, m => swapM (nw l) (- prevbit.setWidth 64) R R2 m
  | k + 1, i, prevbit, m =>
    let bit : UInt := ((m (sc + i / 64) >>> (i % 64)) &&& 1).setWidth 32
    let mask : Digit := - (bit ^^^ prevbit).setWidth 64
    let m := swapM (nw l) mask R R2 m
    let m := xDBLADDM X R0 R2 R (R + 2 * nw l) A24 sp m
    ladder3LoopM sc A24 R0 R2 R sp k (i + 1) bit m

theorem ladder3LoopM_effect {sc w A24 R0 R2 R s : ℕ} (hL : Layout (nw l) s [R0, R0 + 2 * nw l, R2, R2 + 2 * nw l, R, R + 2 * nw l, A24])
    (hsc : sc + w ≤ s) (hd : ∀ P ∈ [R0, R0 + 2 * nw l, R2, R2 + 2 * nw l, R, R + 2 * nw l], P + 2 * nw l ≤ sc ∨ sc + w ≤ P) {r : Pt F2} :
    ∀ (k i : ℕ) (prevbit : UInt) (m : Mem),
      WSidh.ladder3Loop l (rd m w sc) (rdF (nw l) m A24) k i prevbit (rdP (nw l) m R0) (rdP (nw l) m R2) (rdP (nw l) m R) = some r →
      ∃ r0 r2, Effect (nw l) s m (ladder3LoopM X sc A24 R0 R2 R s k i prevbit m)
        (ptVars (nw l) R0 r0 ++ ptVars (nw l) R2 r2 ++ ptVars (nw l) R r) := by
  have hsw : Layout (nw l) s [R, R + 2 * nw l, R2, R2 + 2 * nw l] := hL.call 0 [4, 5, 2, 3] (by decide) rfl
  have hb := hL.below
  have D := fun i j h => addr_disj (i := i) (j := j) hL h
  simp only [List.forall_mem_cons] at hb hd
  obtain ⟨b0, b1, -, -, b4, b5, b6, -⟩ := hb
  obtain ⟨d0, d1, d2, d3, d4, d5, -⟩ := hd
  have hrest : ∀ {m m1 : Mem} {x y : Pt F2}, Effect (nw l) s m m1 (ptVars (nw l) R x ++ ptVars (nw l) R2 y) →
      rdP (nw l) m1 R0 = rdP (nw l) m R0 ∧ rdF (nw l) m1 A24 = rdF (nw l) m A24 ∧ rd m1 w sc = rd m w sc := fun {m m1 x y} e => by
    have k : ∀ z, (∀ P ∈ [R, R + 2 * nw l, R2, R2 + 2 * nw l], P + 2 * nw l ≤ z ∨ z + 2 * nw l ≤ P) → z + 2 * nw l ≤ s →
        rdF (nw l) m1 z = rdF (nw l) m z := fun z hz hs => e.keep hs (ptVars2_addr hz)
    simp only [List.forall_mem_cons] at k
    refine ⟨?_, ?_, ?_⟩
    · rw [rdP, rdP, k R0 ⟨D 4 0 (by simp), D 5 0 (by simp), D 2 0 (by simp), D 3 0 (by simp), by simp⟩ b0,
        k (R0 + 2 * nw l) ⟨D 4 1 (by simp), D 5 1 (by simp), D 2 1 (by simp), D 3 1 (by simp), by simp⟩ b1]
    · exact k A24 ⟨D 4 6 (by simp), D 5 6 (by simp), D 2 6 (by simp), D 3 6 (by simp), by simp⟩ b6
    · refine e.keep_rd hsc (ptVars2_addr ?_)
      simp only [List.forall_mem_cons]
      exact ⟨d4, d5, d2, d3, by simp⟩
  intro k
  induction k with
  | zero =>
    intro i prevbit m h
    rw [WSidh.ladder3Loop, Option.some.injEq] at h
    subst h
    have e1 := swapM_effect (s := s) m (- prevbit.setWidth 64) hsw
    rw [ladder3LoopM]
    obtain ⟨v0, v1⟩ := rdP_of_effect2 e1
    obtain ⟨q, -, -⟩ := hrest e1
    refine ⟨rdP (nw l) m R0, (WCurve.swapPoints (- prevbit.setWidth 64) (rdP (nw l) m R) (rdP (nw l) m R2)).2, Effect.comp (W := []) ⟨by simp, fun _ _ _ => rfl⟩ e1 ?_ (by simp) ?_⟩
    · rw [rdP, rdP, Pt.mk.injEq] at q
      have := e1.out
      simp only [ptVars, List.cons_append, List.nil_append, List.forall_mem_cons] at this ⊢
      exact ⟨q.1, q.2, this.2.2.1, this.2.2.2.1, this.1, this.2.1, by simp⟩
    · simp [ptVars]
  | succ k ih =>
    intro i prevbit m h
    rw [WSidh.ladder3Loop, rd_getElem?] at h
    by_cases hi : i / 64 < w
    · simp only [if_pos hi, Option.bind_eq_bind, Option.bind_some] at h
      rw [ladder3LoopM]
      generalize hbit : (((m (sc + i / 64) >>> (i % 64)) &&& 1).setWidth 32 : UInt) = bit at *
      have e1 := swapM_effect (s := s) m (- (bit ^^^ prevbit).setWidth 64) hsw
      generalize swapM (nw l) (- (bit ^^^ prevbit).setWidth 64) R R2 m = m1 at *
      obtain ⟨v0, v1⟩ := rdP_of_effect2 e1
      obtain ⟨q0, q1, q2⟩ := hrest e1
      have e2 := xDBLADDM_effect X m1 hL
      generalize xDBLADDM X R0 R2 R (R + 2 * nw l) A24 s m1 = m2 at *
      obtain ⟨v0', v1'⟩ := rdP_of_effect2 e2
      have kk : ∀ z, (∀ P ∈ [R0, R0 + 2 * nw l, R2, R2 + 2 * nw l], P + 2 * nw l ≤ z ∨ z + 2 * nw l ≤ P) → z + 2 * nw l ≤ s →
          rdF (nw l) m2 z = rdF (nw l) m1 z := fun z hz hs => e2.keep hs (ptVars2_addr hz)
      simp only [List.forall_mem_cons] at kk
      have hR : rdP (nw l) m2 R = rdP (nw l) m1 R := by
        rw [rdP, rdP, kk R ⟨D 0 4 (by simp), D 1 4 (by simp), D 2 4 (by simp), D 3 4 (by simp), by simp⟩ b4,
          kk (R + 2 * nw l) ⟨D 0 5 (by simp), D 1 5 (by simp), D 2 5 (by simp), D 3 5 (by simp), by simp⟩ b5]
      have hA : rdF (nw l) m2 A24 = rdF (nw l) m1 A24 := 
        kk A24 ⟨D 0 6 (by simp), D 1 6 (by simp), D 2 6 (by simp), D 3 6 (by simp), by simp⟩ b6
      have hS : rd m2 w sc = rd m1 w sc := by
        refine e2.keep_rd hsc (ptVars2_addr ?_)
        simp only [List.forall_mem_cons]
        exact ⟨d0, d1, d2, d3, by simp⟩
      obtain ⟨r0, r2, e3⟩ := ih (i + 1) bit m2 (by
        rw [v0', v1', hR, hA, hS, q0, q1, q2, v1, v0,
          show rdF (nw l) m1 R = (rdP (nw l) m1 R).X from rfl, show rdF (nw l) m1 (R + 2 * nw l) = (rdP (nw l) m1 R).Z from rfl, v0]
        exact h)
      refine ⟨r0, r2, (Effect.comp (W'' := ptVars (nw l) R0 (rdP (nw l) m2 R0) ++ ptVars (nw l) R2 (rdP (nw l) m2 R2) ++
        ptVars (nw l) R (rdP (nw l) m2 R)) e1 e2 ?_ ?_ ?_).trans e3 rfl⟩ <;> simp [ptVars, rdP]
    · simp [if_neg hi] at h

/-- `LADDER3PT` (`ec_isogeny.c:323-365`); local variables: `R0`, `R2`, `A24`.  The initialisers with zeros are taken together with the copies
of `Montgomery_one`. -/
def ladder3ptM (xP xQ xPQ sc nbits R A sp : ℕ) (m : Mem) : Mem :=
  let n := nw l
  let R0 := loc n sp 0
  let R2 := loc n sp 2
  let A24 := loc n sp 4
  let m := X.runs (loc n sp 5) [.one A24, .mpadd A24 A24 A24, .mpadd A A24 A24, .div2 A24 A24, .div2 A24 A24,
    .copy xQ R0, .one (R0 + 2 * n), .copy xPQ R2, .one (R2 + 2 * n), .copy xP R, .one (R + 2 * n)] m
  ladder3LoopM X sc A24 R0 R2 R (loc n sp 5) nbits 0 0 m

/-- `LADDER3PT`, for a scalar of `w` digits at `sc` -/
theorem ladder3ptM_effect (m : Mem) {xP xQ xPQ sc w A R s nbits : ℕ} (hL : Layout (nw l) s [xP, xQ, xPQ, R, R + 2 * nw l, A])
    (hsc : sc + w ≤ s) (hd : ∀ P ∈ [R, R + 2 * nw l], P + 2 * nw l ≤ sc ∨ sc + w ≤ P) {r : Pt F2}
    (h : WSidh.ladder3pt l (rdF (nw l) m xP) (rdF (nw l) m xQ) (rdF (nw l) m xPQ) (rd m w sc) nbits (rdF (nw l) m A) = some r) :
    Effect (nw l) s m (ladder3ptM X xP xQ xPQ sc nbits R A s m) (ptVars (nw l) R r) := by
  have hs : ∀ i, s ≤ loc (nw l) s i := fun i => by rw [loc_eq]; omega
  have s1 := Sim.ops X (k := 5) hL [.one 10, .mpadd 10 10 10, .mpadd 5 10 10, .div2 10 10, .div2 10 10,
    .copy 1 6, .one 7, .copy 2 8, .one 9, .copy 0 3, .one 4] rfl
  have h1 := s1.val m _ (holds_start m)
  have f1 := s1.frame m
  generalize hm1 : X.runs (loc (nw l) s 5) _ m = m1 at h1 f1
  have e1 : Effect (nw l) s m m1 (ptVars (nw l) R ⟨rdF (nw l) m xP, fp2one (tables l)⟩) :=
    h1.effect f1 [(3, rdF (nw l) m xP), (4, fp2one (tables l))] [0, 1, 2, 5] rfl rfl
      (by simp [evals, Op.dst, Op.val, Function.update, start]) (by
      simp only [List.forall_mem_cons]
      simp [evals, Op.dst, Function.update])
  have vR0 : rdF (nw l) m1 (loc (nw l) s 0) = _ := h1 6 (by simp)
  have vR0Z : rdF (nw l) m1 (loc (nw l) s 0 + 2 * nw l) = _ := h1 7 (by simp)
  have vR2 : rdF (nw l) m1 (loc (nw l) s 2) = _ := h1 8 (by simp)
  have vR2Z : rdF (nw l) m1 (loc (nw l) s 2 + 2 * nw l) = _ := h1 9 (by simp)
  have vA24 : rdF (nw l) m1 (loc (nw l) s 4) = _ := h1 10 (by simp)
  simp [evals, Op.dst, Op.val, Function.update, start] at vA24 vR0 vR0Z vR2 vR2Z
  have hdd : ∀ P ∈ [loc (nw l) s 0, loc (nw l) s 0 + 2 * nw l, loc (nw l) s 2, loc (nw l) s 2 + 2 * nw l, R, R + 2 * nw l],
      P + 2 * nw l ≤ sc ∨ sc + w ≤ P := by
    have := hs 0
    have := hs 2
    simp only [List.forall_mem_cons] at hd ⊢
    exact ⟨by omega, by omega, by omega, by omega, hd.1, hd.2.1, by simp⟩
  obtain ⟨r0, r2, e2⟩ := ladder3LoopM_effect X (w := w) (sc := sc) (hL.call 5 [6, 7, 8, 9, 3, 4, 10] (by decide) rfl)
    (by have := hs 5; omega) hdd nbits 0 0 m1 (r := r) (by
      show WSidh.ladder3Loop l (rd m1 w sc) (rdF (nw l) m1 (loc (nw l) s 4)) nbits 0 0 (rdP (nw l) m1 (loc (nw l) s 0))
        (rdP (nw l) m1 (loc (nw l) s 2)) (rdP (nw l) m1 R) = some r
      rw [rdP_of_effect e1, e1.keep_rd hsc]
      · simp only [rdP, vA24, vR0, vR0Z, vR2, vR2Z]
        exact h
      · simp only [ptVars, List.forall_mem_cons]
        exact ⟨hd _ (by simp), hd _ (by simp), by simp⟩)
  generalize hm2 : ladder3LoopM X _ _ _ _ _ _ nbits 0 0 m1 = m2 at e2
  have hm : ladder3ptM X xP xQ xPQ sc nbits R A s m = m2 := by
    rw [← hm2, ← hm1]
    rfl
  rw [hm]
  have e2' : Effect (nw l) (loc (nw l) s 5) m1 m2 (ptVars (nw l) (loc (nw l) s 0) r0 ++ ptVars (nw l) (loc (nw l) s 2) r2 ++
    ptVars (nw l) R r) := e2
  refine ⟨fun v hv => e2'.out v (List.mem_append_right _ hv), fun x hx hx' => ?_⟩
  rw [e2'.frame x (by have := hs 5; omega) fun v hv hx2 => ?_, e1.frame x hx ?_]
  · simpa [ptVars] using hx'
  · rcases List.mem_append.1 hv with hv | hv
    · have : s ≤ v.1 := by
        simp only [ptVars, List.cons_append, List.nil_append, List.mem_cons, List.not_mem_nil, or_false] at hv
        rcases hv with rfl | rfl | rfl | rfl
        exacts [hs 0, hs 1, hs 2, hs 3]
      omega
    · exact hx' v hv hx2

end Secuer.CMem
