import Verif.CMem.Sim

/-!
# Repeated doublings and triplings, ladders, on memory
-/

namespace Secuer.CMem

open Secuer.Word Secuer.Field
open Secuer.Curve (Pt Crv Iso)

/-! ## Copies of structures -/

section
variable {n s : ℕ} {m : Mem}

theorem rd_shift {m' : Mem} {a c : ℕ} (h : ∀ i < n, m' (c + i) = m (a + i)) : rd m' n c = rd m n a := by
  apply List.ext_getElem?
  intro i
  rw [rd_getElem?, rd_getElem?]
  split
  · rename_i hi
    rw [h i hi]
  · rfl

theorem rdF_shift {m' : Mem} {a c : ℕ} (h : ∀ i < 2 * n, m' (c + i) = m (a + i)) : rdF n m' c = rdF n m a := by
  have e0 : rd m' n c = rd m n a := rd_shift fun i hi => h i (by omega)
  have e1 : rd m' n (c + n) = rd m n (a + n) := rd_shift fun i hi => by
    rw [Nat.add_assoc, Nat.add_assoc]
    exact h (n + i) (by omega)
  rw [rdF, rdF, e0, e1]

theorem copyMem_at {N a c i : ℕ} (h : Ok N a c) (hi : i < N) : copyMem N a c m (c + i) = m (a + i) := by
  rw [copyMem_eq m h, wr_at, rd_getElem?, if_pos hi]
  rfl

theorem copyMem_out {N a c x : ℕ} (h : Ok N a c) (hx : x < c ∨ c + N ≤ x) : copyMem N a c m x = m x := by
  rw [copyMem_eq m h]
  rcases hx with hx | hx
  · exact wr_of_lt hx
  · exact wr_of_ge (by rw [rd_length]; exact hx)

/-- The copy of a `point_proj` (`copy_words` of `2*2*NWORDS_FIELD` digits; assignment of a structure) or a `curve_proj` -/
def copyPtM (n P Q : ℕ) (m : Mem) : Mem := copyMem (4 * n) P Q m

theorem copyPtM_effect_ok {P Q : ℕ} (h : Ok (4 * n) P Q) : Effect n s m (copyPtM n P Q m) (ptVars n Q (rdP n m P)) := by
  refine ⟨?_, fun x _ hx => copyMem_out h ?_⟩
  · simp only [ptVars, List.forall_mem_cons, rdP, copyPtM]
    refine ⟨rdF_shift fun i hi => copyMem_at h (by omega), rdF_shift fun i hi => ?_, by simp⟩
    have := copyMem_at (m := m) (i := 2 * n + i) h (by omega)
    rwa [← Nat.add_assoc, ← Nat.add_assoc] at this
  · simp only [ptVars, List.forall_mem_cons] at hx
    omega

theorem copyPtM_effect {P Q : ℕ} (hL : Layout n s [P, P + 2 * n, Q, Q + 2 * n]) :
    Effect n s m (copyPtM n P Q m) (ptVars n Q (rdP n m P)) := by
  have h := hL.disj
  simp only [List.pairwise_cons, List.forall_mem_cons] at h
  exact copyPtM_effect_ok (by unfold Ok; omega)

theorem copyPtM_effect_inplace {P : ℕ} : Effect n s m (copyPtM n P P m) (ptVars n P (rdP n m P)) := copyPtM_effect_ok Ok.refl

end

section
variable {l : Level} [Arith] (X : Exec l)

theorem wrP_vars (P : ℕ) (x : Pt F2) : ptVars (nw l) P x = [(P, x.X), (P + 2 * nw l, x.Z)] := rfl

/-! ## `xDBLe`, `xTPLe` -/

/-- `xDBLe` (`ec_isogeny.c:31-41`) -/
def xDBLeM (P Q A24plus C24 e sp : ℕ) (m : Mem) : Mem := (xDBLM X Q Q A24plus C24 sp)^[e] (copyPtM (nw l) P Q m)

/-- `xTPLe` (`ec_isogeny.c:149-159`) -/
def xTPLeM (P Q A24minus A24plus e sp : ℕ) (m : Mem) : Mem := (xTPLM X Q Q A24minus A24plus sp)^[e] (copyPtM (nw l) P Q m)

/-- `xTPLe_fast` (`ec_isogeny.c:399-410`) -/
def xTPLefastM (P Q A2 e sp : ℕ) (m : Mem) : Mem := (xTPLfastM X Q Q A2 sp)^[e] (copyPtM (nw l) P Q m)

/-- Two calls one after the other, the second of which writes all that the first writes -/
theorem Effect.trans {n s : ℕ} {m m' m'' : Mem} {W W' : List (ℕ × F2)} (h : Effect n s m m' W) (h' : Effect n s m' m'' W')
    (hW : W.map Prod.fst = W'.map Prod.fst) : Effect n s m m'' W' := by
  refine ⟨h'.out, fun x hx hx' => (h'.frame x hx hx').trans (h.frame x hx fun w hw => ?_)⟩
  have : w.1 ∈ W'.map Prod.fst := hW ▸ List.mem_map.2 ⟨w, hw, rfl⟩
  obtain ⟨v, hv, e⟩ := List.mem_map.1 this
  rw [← e]
  exact hx' v hv

/-- What a call does not write keeps its value. -/
theorem Effect.keep {n s : ℕ} {m m' : Mem} {W : List (ℕ × F2)} (h : Effect n s m m' W) {y : ℕ} (hy : y + 2 * n ≤ s)
    (hd : ∀ w ∈ W, w.1 + 2 * n ≤ y ∨ y + 2 * n ≤ w.1) : rdF n m' y = rdF n m y :=
  rdF_congr fun x h1 h2 => h.frame x (by omega) fun w hw => by have := hd w hw; omega

/-- Repeating in place a function that updates the point at `Q` and reads the variables at `ys` -/
theorem iter_effect {n s Q : ℕ} {step : Mem → Mem} {f : Pt F2 → Pt F2} (ys : List ℕ) (hQ : Layout n s ([Q, Q + 2 * n] ++ ys)) (m₀ : Mem)
    (hstep : ∀ m, (∀ y ∈ ys, rdF n m y = rdF n m₀ y) → Effect n s m (step m) (ptVars n Q (f (rdP n m Q)))) :
    ∀ (e : ℕ) (m : Mem), (∀ y ∈ ys, rdF n m y = rdF n m₀ y) → Effect n s m (step^[e] m) (ptVars n Q (f^[e] (rdP n m Q)))
  | 0, m, _ => ⟨by simp [ptVars, rdP], fun _ _ _ => rfl⟩
  | e + 1, m, hm => by
    have h1 := hstep m hm
    have hv : rdP n (step m) Q = f (rdP n m Q) := by
      have := h1.out
      simp only [ptVars, List.forall_mem_cons] at this
      rw [rdP, this.1, this.2.1]
    have hk : ∀ y ∈ ys, rdF n (step m) y = rdF n m₀ y := fun y hy => by
      rw [h1.keep (hQ.below y (by simp [hy])), hm y hy]
      have hd := (List.pairwise_append.1 hQ.disj).2.2
      simp only [ptVars, List.forall_mem_cons]
      refine ⟨hd _ (by simp) y hy, hd _ (by simp) y hy, by simp⟩
    have h2 := iter_effect ys hQ m₀ hstep e (step m) hk
    rw [hv, ← Function.iterate_succ_apply f] at h2
    exact h1.trans h2 rfl

theorem xDBLe_iter (P : Pt F2) (A C : F2) : ∀ e, WCurve.xDBLe l P A C e = (fun P => WCurve.xDBL l P A C)^[e] P := by
  intro e
  induction e generalizing P with
  | zero => rfl
  | succ e ih => rw [WCurve.xDBLe, ih, Function.iterate_succ_apply]

theorem xTPLe_iter (P : Pt F2) (A C : F2) : ∀ e, WCurve.xTPLe l P A C e = (fun P => WCurve.xTPL l P A C)^[e] P := by
  intro e
  induction e generalizing P with
  | zero => rfl
  | succ e ih => rw [WCurve.xTPLe, ih, Function.iterate_succ_apply]

theorem xTPLeFast_iter (P : Pt F2) (A : F2) : ∀ e, WSidh.xTPLeFast l P A e = (fun P => WSidh.xTPLfast l P A)^[e] P := by
  intro e
  induction e generalizing P with
  | zero => rfl
  | succ e ih => rw [WSidh.xTPLeFast, ih, Function.iterate_succ_apply]

theorem rdP_of_effect {n s Q : ℕ} {m m' : Mem} {x : Pt F2} (h : Effect n s m m' (ptVars n Q x)) : rdP n m' Q = x := by
  have := h.out
  simp only [ptVars, List.forall_mem_cons] at this
  rw [rdP, this.1, this.2.1]

/-- `xDBLe`, after the copy -/
theorem xDBLM_iter {m m₀ : Mem} {Q A C s : ℕ} (hL : Layout (nw l) s [Q, Q + 2 * nw l, A, C]) {x : Pt F2} (e : ℕ)
    (h : Effect (nw l) s m₀ m (ptVars (nw l) Q x)) :
    Effect (nw l) s m₀ ((xDBLM X Q Q A C s)^[e] m) (ptVars (nw l) Q (WCurve.xDBLe l x (rdF (nw l) m₀ A) (rdF (nw l) m₀ C) e)) := by
  have hd := (List.pairwise_append.1 (show List.Pairwise _ ([Q, Q + 2 * nw l] ++ [A, C]) from hL.disj)).2.2
  have := iter_effect (n := nw l) (s := s) (Q := Q) [A, C] hL m₀ (f := fun P => WCurve.xDBL l P (rdF (nw l) m₀ A) (rdF (nw l) m₀ C))
    (fun m hm => by
      have := xDBLM_effect_inplace X m hL
      rwa [hm A (by simp), hm C (by simp)] at this) e m
    (fun y hy => h.keep (hL.below y (by simp at hy ⊢; tauto)) (by
      simp only [ptVars, List.forall_mem_cons]
      exact ⟨hd _ (by simp) y hy, hd _ (by simp) y hy, by simp⟩))
  rw [rdP_of_effect h, ← xDBLe_iter] at this
  exact h.trans this rfl

/-- `xTPLe`, after the copy -/
theorem xTPLM_iter {m m₀ : Mem} {Q A C s : ℕ} (hL : Layout (nw l) s [Q, Q + 2 * nw l, A, C]) {x : Pt F2} (e : ℕ)
    (h : Effect (nw l) s m₀ m (ptVars (nw l) Q x)) :
    Effect (nw l) s m₀ ((xTPLM X Q Q A C s)^[e] m) (ptVars (nw l) Q (WCurve.xTPLe l x (rdF (nw l) m₀ A) (rdF (nw l) m₀ C) e)) := by
  have hd := (List.pairwise_append.1 (show List.Pairwise _ ([Q, Q + 2 * nw l] ++ [A, C]) from hL.disj)).2.2
  have := iter_effect (n := nw l) (s := s) (Q := Q) [A, C] hL m₀ (f := fun P => WCurve.xTPL l P (rdF (nw l) m₀ A) (rdF (nw l) m₀ C))
    (fun m hm => by
      have := xTPLM_effect_inplace X m hL
      rwa [hm A (by simp), hm C (by simp)] at this) e m
    (fun y hy => h.keep (hL.below y (by simp at hy ⊢; tauto)) (by
      simp only [ptVars, List.forall_mem_cons]
      exact ⟨hd _ (by simp) y hy, hd _ (by simp) y hy, by simp⟩))
  rw [rdP_of_effect h, ← xTPLe_iter] at this
  exact h.trans this rfl

/-- `xTPLe_fast`, after the copy -/
theorem xTPLfastM_iter {m m₀ : Mem} {Q A s : ℕ} (hL : Layout (nw l) s [Q, Q + 2 * nw l, A]) {x : Pt F2} (e : ℕ)
    (h : Effect (nw l) s m₀ m (ptVars (nw l) Q x)) :
    Effect (nw l) s m₀ ((xTPLfastM X Q Q A s)^[e] m) (ptVars (nw l) Q (WSidh.xTPLeFast l x (rdF (nw l) m₀ A) e)) := by
  have hd := (List.pairwise_append.1 (show List.Pairwise _ ([Q, Q + 2 * nw l] ++ [A]) from hL.disj)).2.2
  have := iter_effect (n := nw l) (s := s) (Q := Q) [A] hL m₀ (f := fun P => WSidh.xTPLfast l P (rdF (nw l) m₀ A))
    (fun m hm => by
      have := xTPLfastM_effect_inplace X m hL
      rwa [hm A (by simp)] at this) e m
    (fun y hy => h.keep (hL.below y (by simp at hy ⊢; tauto)) (by
      simp only [ptVars, List.forall_mem_cons]
      exact ⟨hd _ (by simp) y hy, hd _ (by simp) y hy, by simp⟩))
  rw [rdP_of_effect h, ← xTPLeFast_iter] at this
  exact h.trans this rfl

theorem Layout.sub {n s : ℕ} {L L' : List ℕ} (h : Layout n s L) (hs : L'.Sublist L) : Layout n s L' :=
  ⟨fun x hx => h.below x (hs.subset hx), h.disj.sublist hs⟩

/-- `xDBLe`, for `P` and `Q` disjoint -/
theorem xDBLeM_effect (m : Mem) {P Q A24plus C24 s : ℕ} (e : ℕ)
    (hL : Layout (nw l) s [P, P + 2 * nw l, Q, Q + 2 * nw l, A24plus, C24]) :
    Effect (nw l) s m (xDBLeM X P Q A24plus C24 e s m)
      (ptVars (nw l) Q (WCurve.xDBLe l (rdP (nw l) m P) (rdF (nw l) m A24plus) (rdF (nw l) m C24) e)) :=
  xDBLM_iter X (hL.sub (by simp)) e (copyPtM_effect (hL.sub (by simp)))

/-- `xDBLe(P, P, …)` -/
theorem xDBLeM_effect_inplace (m : Mem) {P A24plus C24 s : ℕ} (e : ℕ) (hL : Layout (nw l) s [P, P + 2 * nw l, A24plus, C24]) :
    Effect (nw l) s m (xDBLeM X P P A24plus C24 e s m)
      (ptVars (nw l) P (WCurve.xDBLe l (rdP (nw l) m P) (rdF (nw l) m A24plus) (rdF (nw l) m C24) e)) :=
  xDBLM_iter X hL e copyPtM_effect_inplace

/-- `xTPLe`, for `P` and `Q` disjoint -/
theorem xTPLeM_effect (m : Mem) {P Q A24minus A24plus s : ℕ} (e : ℕ)
    (hL : Layout (nw l) s [P, P + 2 * nw l, Q, Q + 2 * nw l, A24minus, A24plus]) :
    Effect (nw l) s m (xTPLeM X P Q A24minus A24plus e s m)
      (ptVars (nw l) Q (WCurve.xTPLe l (rdP (nw l) m P) (rdF (nw l) m A24minus) (rdF (nw l) m A24plus) e)) :=
  xTPLM_iter X (hL.sub (by simp)) e (copyPtM_effect (hL.sub (by simp)))

/-- `xTPLe(P, P, …)` -/
theorem xTPLeM_effect_inplace (m : Mem) {P A24minus A24plus s : ℕ} (e : ℕ) (hL : Layout (nw l) s [P, P + 2 * nw l, A24minus, A24plus]) :
    Effect (nw l) s m (xTPLeM X P P A24minus A24plus e s m)
      (ptVars (nw l) P (WCurve.xTPLe l (rdP (nw l) m P) (rdF (nw l) m A24minus) (rdF (nw l) m A24plus) e)) :=
  xTPLM_iter X hL e copyPtM_effect_inplace

/-- `xTPLe_fast`, for `P` and `Q` disjoint -/
theorem xTPLefastM_effect (m : Mem) {P Q A2 s : ℕ} (e : ℕ) (hL : Layout (nw l) s [P, P + 2 * nw l, Q, Q + 2 * nw l, A2]) :
    Effect (nw l) s m (xTPLefastM X P Q A2 e s m) (ptVars (nw l) Q (WSidh.xTPLeFast l (rdP (nw l) m P) (rdF (nw l) m A2) e)) :=
  xTPLfastM_iter X (hL.sub (by simp)) e (copyPtM_effect (hL.sub (by simp)))

/-- `xTPLe_fast(P, P, …)` -/
theorem xTPLefastM_effect_inplace (m : Mem) {P A2 s : ℕ} (e : ℕ) (hL : Layout (nw l) s [P, P + 2 * nw l, A2]) :
    Effect (nw l) s m (xTPLefastM X P P A2 e s m) (ptVars (nw l) P (WSidh.xTPLeFast l (rdP (nw l) m P) (rdF (nw l) m A2) e)) :=
  xTPLfastM_iter X hL e copyPtM_effect_inplace

end

/-! ## `swap_points` -/

/-- The three assignments `temp = option & (P[i] ^ Q[i]); P[i] = temp ^ P[i]; Q[i] = temp ^ Q[i];` at distance `d` from the start of the
two structures -/
def swapCell (option : Digit) (P Q : ℕ) (m : Mem) (d : ℕ) : Mem :=
  let temp := option &&& (m (P + d) ^^^ m (Q + d))
  let m := upd m (P + d) (temp ^^^ m (P + d))
  upd m (Q + d) (temp ^^^ m (Q + d))

/-- The distances from the start of the structure, in the order of the loop: `X[0][i]`, `X[1][i]`, `Z[0][i]`, `Z[1][i]` -/
def swapOrder (n : ℕ) : List ℕ := (List.range n).flatMap fun i => [i, n + i, 2 * n + i, 3 * n + i]

/-- `swap_points` (`ec_isogeny.c:300-320`) -/
def swapM (n : ℕ) (option : Digit) (P Q : ℕ) (m : Mem) : Mem := (swapOrder n).foldl (swapCell option P Q) m

theorem swapOrder_mem {n d : ℕ} : d ∈ swapOrder n ↔ d < 4 * n := by
  simp only [swapOrder, List.mem_flatMap, List.mem_range, List.mem_cons, List.not_mem_nil, or_false]
  constructor
  · rintro ⟨i, hi, h⟩
    omega
  · intro h
    by_cases h1 : d < n
    · exact ⟨d, h1, by omega⟩
    by_cases h2 : d < 2 * n
    · exact ⟨d - n, by omega, by omega⟩
    by_cases h3 : d < 3 * n
    · exact ⟨d - 2 * n, by omega, by omega⟩
    · exact ⟨d - 3 * n, by omega, by omega⟩

theorem swapOrder_nodup (n : ℕ) : (swapOrder n).Nodup := by
  rw [swapOrder, List.nodup_flatMap]
  refine ⟨fun i hi => ?_, ?_⟩
  · rw [List.mem_range] at hi
    simp only [List.nodup_cons, List.mem_cons, List.not_mem_nil, or_false, not_or, List.nodup_nil, not_false_eq_true, and_true]
    omega
  · refine (List.nodup_range (n := n)).imp_of_mem fun hi hj hij => ?_
    rw [List.mem_range] at hi hj
    simp only [List.disjoint_left, List.mem_cons, List.not_mem_nil, or_false, Function.onFun]
    omega

theorem swap_fold {option : Digit} {P Q N : ℕ} (hPQ : P + N ≤ Q ∨ Q + N ≤ P) : ∀ (ds : List ℕ) (m : Mem), ds.Nodup → (∀ d ∈ ds, d < N) →
    (∀ d ∈ ds, ds.foldl (swapCell option P Q) m (P + d) = (option &&& (m (P + d) ^^^ m (Q + d))) ^^^ m (P + d) ∧
      ds.foldl (swapCell option P Q) m (Q + d) = (option &&& (m (P + d) ^^^ m (Q + d))) ^^^ m (Q + d)) ∧
    ∀ x, (∀ d ∈ ds, x ≠ P + d ∧ x ≠ Q + d) → ds.foldl (swapCell option P Q) m x = m x
  | [], m, _, _ => ⟨by simp, fun _ _ => rfl⟩
  | c :: ds, m, hn, hb => by
    rw [List.nodup_cons] at hn
    obtain ⟨h1, h2⟩ := swap_fold hPQ ds (swapCell option P Q m c) hn.2 fun d hd => hb d (by simp [hd])
    have hc := hb c (by simp)
    have other : ∀ x, x ≠ P + c → x ≠ Q + c → swapCell option P Q m c x = m x := fun x hp hq => by
      simp only [swapCell, upd, if_neg hp, if_neg hq]
    have hne : P + c ≠ Q + c := by omega
    rw [List.foldl_cons]
    refine ⟨fun d hd => ?_, fun x hx => ?_⟩
    · rcases List.mem_cons.1 hd with rfl | hd
      · have ne : ∀ d' ∈ ds, d ≠ d' := fun d' hd' e => hn.1 (e ▸ hd')
        rw [h2 (P + d) fun d' hd' => ⟨by have := ne d' hd'; omega, by have := hb d' (by simp [hd']); omega⟩,
          h2 (Q + d) fun d' hd' => ⟨by have := hb d' (by simp [hd']); omega, by have := ne d' hd'; omega⟩]
        simp only [swapCell, upd, if_neg hne, if_neg hne.symm, if_true]
        exact ⟨trivial, trivial⟩
      · have ne : d ≠ c := fun e => hn.1 (e ▸ hd)
        have hd' := hb d (by simp [hd])
        have e1 := other (P + d) (by omega) (by omega)
        have e2 := other (Q + d) (by omega) (by omega)
        have := h1 d hd
        rwa [e1, e2] at this
    · rw [h2 x fun d hd => hx d (by simp [hd]), other x (hx c (by simp)).1 (hx c (by simp)).2]

theorem swapM_rd {n : ℕ} {option : Digit} {P Q o : ℕ} (m : Mem) (hPQ : P + 4 * n ≤ Q ∨ Q + 4 * n ≤ P) (ho : o + n ≤ 4 * n) :
    rd (swapM n option P Q m) n (P + o) = (WCurve.swapWords option (rd m n (P + o)) (rd m n (Q + o))).1 ∧
    rd (swapM n option P Q m) n (Q + o) = (WCurve.swapWords option (rd m n (P + o)) (rd m n (Q + o))).2 := by
  obtain ⟨h, -⟩ := swap_fold (option := option) hPQ (swapOrder n) m (swapOrder_nodup n) fun d hd => swapOrder_mem.1 hd
  constructor
  all_goals
    apply List.ext_getElem?
    intro i
    rw [rd_getElem?, WCurve.swapWords, List.getElem?_zipWith, rd_getElem?, rd_getElem?]
    by_cases hi : i < n
    · have := h (o + i) (swapOrder_mem.2 (by omega))
      simp only [← Nat.add_assoc] at this
      simp only [if_pos hi, swapM, this.1, this.2]
    · simp only [if_neg hi]

/-- `swap_points` -/
theorem swapM_effect {n s : ℕ} (m : Mem) (option : Digit) {P Q : ℕ} (hL : Layout n s [P, P + 2 * n, Q, Q + 2 * n]) :
    Effect n s m (swapM n option P Q m) (ptVars n P (WCurve.swapPoints option (rdP n m P) (rdP n m Q)).1 ++
      ptVars n Q (WCurve.swapPoints option (rdP n m P) (rdP n m Q)).2) := by
  have h := hL.disj
  simp only [List.pairwise_cons, List.forall_mem_cons] at h
  have hPQ : P + 4 * n ≤ Q ∨ Q + 4 * n ≤ P := by omega
  have r0 := swapM_rd (option := option) (o := 0) m hPQ (by omega)
  have r1 := swapM_rd (option := option) (o := n) m hPQ (by omega)
  have r2 := swapM_rd (option := option) (o := 2 * n) m hPQ (by omega)
  have r3 := swapM_rd (option := option) (o := 2 * n + n) m hPQ (by omega)
  simp only [Nat.add_zero, ← Nat.add_assoc] at r0 r1 r2 r3
  refine ⟨?_, fun x _ hx => ?_⟩
  · simp only [ptVars, List.cons_append, List.nil_append, List.forall_mem_cons, rdP, WCurve.swapPoints, rdF, r0.1, r0.2, r1.1, r1.2, r2.1, r2.2,
      r3.1, r3.2, true_and]
    simp
  · simp only [ptVars, List.cons_append, List.nil_append, List.forall_mem_cons] at hx
    refine (swap_fold hPQ (swapOrder n) m (swapOrder_nodup n) fun d hd => swapOrder_mem.1 hd).2 x fun d hd => ?_
    have := swapOrder_mem.1 hd
    omega

end Secuer.CMem
