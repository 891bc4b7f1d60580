import Verif.CMem.Loops

/-!
# The ladders on memory
-/

namespace Secuer.CMem

open Secuer.Word Secuer.Field
open Secuer.Curve (Pt Crv Iso)

variable {l : Level} [Arith] (X : Exec l)

/-- Digits outside what a call writes -/
theorem Effect.keep_rd {n s : ℕ} {m m' : Mem} {W : List (ℕ × F2)} (h : Effect n s m m' W) {a w : ℕ} (hy : a + w ≤ s)
    (hd : ∀ v ∈ W, v.1 + 2 * n ≤ a ∨ a + w ≤ v.1) : rd m' w a = rd m w a :=
  rd_congr fun x h1 h2 => h.frame x (by omega) fun v hv => by have := hd v hv; omega

theorem rdP_of_effect2 {n s P Q : ℕ} {m m' : Mem} {x y : Pt F2} (h : Effect n s m m' (ptVars n P x ++ ptVars n Q y)) :
    rdP n m' P = x ∧ rdP n m' Q = y := by
  have := h.out
  simp only [ptVars, List.cons_append, List.nil_append, List.forall_mem_cons] at this
  exact ⟨by rw [rdP, this.1, this.2.1], by rw [rdP, this.2.2.1, this.2.2.2.1]⟩

theorem ptVars2_addr {n a w P Q : ℕ} {x y : Pt F2} (h : ∀ R ∈ [P, P + 2 * n, Q, Q + 2 * n], R + 2 * n ≤ a ∨ a + w ≤ R) :
    ∀ v ∈ ptVars n P x ++ ptVars n Q y, v.1 + 2 * n ≤ a ∨ a + w ≤ v.1 := by
  simp only [ptVars, List.cons_append, List.nil_append, List.forall_mem_cons] at h ⊢
  exact ⟨h.1, h.2.1, h.2.2.1, h.2.2.2.1, by simp⟩

/-! ## `Ladder` -/

/-- The main loop of `Ladder` (`poik.c:533-545`), `i` iterations left, and the final exchange -/
def ladderLoopM (P sc A24 R0 R1 sp : ℕ) : ℕ → (prevbit : UInt) → Mem → Mem
  | 0, prevbit, m => swapM (nw l) (- prevbit.setWidth 64) R0 R1 m
  | i + 1, prevbit, m =>
    let bit : UInt := ((m (sc + i / 64) >>> (i % 64)) &&& 1).setWidth 32
    let mask : Digit := - (bit ^^^ prevbit).setWidth 64
    let m := swapM (nw l) mask R0 R1 m
    let m := xDBLADDM X R0 R1 P (P + 2 * nw l) A24 sp m
    ladderLoopM P sc A24 R0 R1 sp i bit m

theorem ladderLoopM_effect {P sc w A24 R0 R1 s : ℕ} (hL : Layout (nw l) s [R0, R0 + 2 * nw l, R1, R1 + 2 * nw l, P, P + 2 * nw l, A24])
    (hsc : sc + w ≤ s) (hd : ∀ R ∈ [R0, R0 + 2 * nw l, R1, R1 + 2 * nw l], R + 2 * nw l ≤ sc ∨ sc + w ≤ R) {r : Pt F2} :
    ∀ (i : ℕ) (prevbit : UInt) (m : Mem),
      WCurve.ladderLoop l (rdP (nw l) m P) (rd m w sc) (rdF (nw l) m A24) i prevbit (rdP (nw l) m R0) (rdP (nw l) m R1) = some r →
      ∃ r1, Effect (nw l) s m (ladderLoopM X P sc A24 R0 R1 s i prevbit m) (ptVars (nw l) R0 r ++ ptVars (nw l) R1 r1)
  | 0, prevbit, m, h => by
    rw [WCurve.ladderLoop, Option.some.injEq] at h
    subst h
    exact ⟨_, swapM_effect m _ (hL.sub (by simp))⟩
  | i + 1, prevbit, m, h => by
    rw [WCurve.ladderLoop, rd_getElem?] at h
    by_cases hi : i / 64 < w
    · simp only [if_pos hi, Option.bind_eq_bind, Option.bind_some] at h
      rw [ladderLoopM]
      generalize hbit : (((m (sc + i / 64) >>> (i % 64)) &&& 1).setWidth 32 : UInt) = bit at *
      have e1 := swapM_effect (s := s) m (- (bit ^^^ prevbit).setWidth 64) (P := R0) (Q := R1) (hL.sub (by simp))
      generalize swapM (nw l) (- (bit ^^^ prevbit).setWidth 64) R0 R1 m = m1 at *
      have e2 := xDBLADDM_effect X m1 hL
      generalize xDBLADDM X R0 R1 P (P + 2 * nw l) A24 s m1 = m2 at *
      have hb := hL.below
      have hdj := (List.pairwise_append.1 (show List.Pairwise _ ([R0, R0 + 2 * nw l, R1, R1 + 2 * nw l] ++ [P, P + 2 * nw l, A24]) from
        hL.disj)).2.2
      have k : ∀ y ∈ [P, P + 2 * nw l, A24], rdF (nw l) m1 y = rdF (nw l) m y := fun y hy => e1.keep (hb y (by simp at hy ⊢; tauto)) (by
        simp only [ptVars, List.cons_append, List.nil_append, List.forall_mem_cons]
        exact ⟨hdj _ (by simp) y hy, hdj _ (by simp) y hy, hdj _ (by simp) y hy, hdj _ (by simp) y hy, by simp⟩)
      have k' : ∀ y ∈ [P, P + 2 * nw l, A24], rdF (nw l) m2 y = rdF (nw l) m1 y := fun y hy => e2.keep (hb y (by simp at hy ⊢; tauto)) (by
        simp only [ptVars, List.cons_append, List.nil_append, List.forall_mem_cons]
        exact ⟨hdj _ (by simp) y hy, hdj _ (by simp) y hy, hdj _ (by simp) y hy, hdj _ (by simp) y hy, by simp⟩)
      have ks : rd m2 w sc = rd m w sc := by
        rw [e2.keep_rd hsc (ptVars2_addr hd),
          e1.keep_rd hsc (ptVars2_addr hd)]
      simp only [List.forall_mem_cons] at k k'
      obtain ⟨kP, kPZ, kA, -⟩ := k
      obtain ⟨kP', kPZ', kA', -⟩ := k'
      obtain ⟨v0, v1⟩ := rdP_of_effect2 e1
      obtain ⟨v0', v1'⟩ := rdP_of_effect2 e2
      have hP : rdP (nw l) m2 P = rdP (nw l) m P := by rw [rdP, rdP, kP', kPZ', kP, kPZ]
      obtain ⟨r1, e3⟩ := ladderLoopM_effect hL hsc hd i bit m2 (by
        rw [v0', v1', hP, ks, kA', kA, v0, v1, kP, kPZ]
        exact h)
      exact ⟨r1, (e1.trans e2 rfl).trans e3 rfl⟩
    · simp [if_neg hi] at h

/-- `Ladder` (`poik.c:518-547`); local variables: `A24`, `R0`, `R1` -/
def ladderM (P sc A orderBits R sp : ℕ) (m : Mem) : Mem :=
  let n := nw l
  let A24 := loc n sp 0
  let R0 := loc n sp 1
  let R1 := loc n sp 3
  let m := X.runs (loc n sp 5) [.one A24, .dbl0 A24, .add A A24 A24, .div2 A24 A24, .div2 A24 A24] m
  let m := copyPtM n P R1 m
  let m := X.runs (loc n sp 5) [.one R0, .zero (R0 + 2 * n)] m
  let m := ladderLoopM X P sc A24 R0 R1 (loc n sp 5) orderBits 0 m
  copyPtM n R0 R m

/-- `Ladder`, for a scalar of `w` digits at `sc` -/
theorem ladderM_effect (m : Mem) {P sc w A R s orderBits : ℕ} (hL : Layout (nw l) s [P, P + 2 * nw l, A, R, R + 2 * nw l])
    (hsc : sc + w ≤ s) {r : Pt F2} (h : WCurve.ladder l (rdP (nw l) m P) (rd m w sc) (rdF (nw l) m A) orderBits = some r) :
    Effect (nw l) s m (ladderM X P sc A orderBits R s m) (ptVars (nw l) R r) := by
  have hs : ∀ i, s ≤ loc (nw l) s i := fun i => by rw [loc_eq]; omega
  -- the constant
  have s1 := Sim.ops X (k := 5) hL [.one 5, .dbl0 5, .add 2 5 5, .div2 5 5, .div2 5 5] rfl
  have h1 := s1.val m _ (holds_start m)
  have f1 := s1.frame m
  generalize hm1 : X.runs (loc (nw l) s 5) _ m = m1 at h1 f1
  -- `R1 = *P`
  have e2 := copyPtM_effect (m := m1) (hL.call 5 [0, 1, 8, 9] (by decide) rfl)
  have h2 := h1.call (W := [(8, _), (9, _)]) hL (by simp) e2
  have f2 := f1.trans (e2.toFrame (W := [(8, _), (9, _)]) rfl)
  generalize hm2 : copyPtM (nw l) _ _ m1 = m2 at h2 f2
  -- `R0`
  have s3 := Sim.ops X (k := 5) hL [.one 6, .zero 7] rfl
  have h3 := s3.val m2 _ h2
  have f3 := f2.trans (s3.frame m2)
  generalize hm3 : X.runs (loc (nw l) s 5) _ m2 = m3 at h3 f3
  have e3 : Effect (nw l) s m m3 [] := h3.effect f3 [] [0, 1, 2, 3, 4] rfl rfl (by simp) (by
    simp only [List.forall_mem_cons]
    simp [evals, setAll, Op.dst, Function.update])
  have wP : rdF (nw l) m1 P = rdF (nw l) m P := (h1 0 (by simp)).trans (by simp [evals, Op.dst, Function.update, start])
  have wPZ : rdF (nw l) m1 (P + 2 * nw l) = rdF (nw l) m (P + 2 * nw l) :=
    (h1 1 (by simp)).trans (by simp [evals, Op.dst, Function.update, start])
  have vA24 : rdF (nw l) m3 (loc (nw l) s 0) = _ := h3 5 (by simp)
  have vR0 : rdF (nw l) m3 (loc (nw l) s 1) = _ := h3 6 (by simp)
  have vR0Z : rdF (nw l) m3 (loc (nw l) s 1 + 2 * nw l) = _ := h3 7 (by simp)
  have vR1 : rdF (nw l) m3 (loc (nw l) s 3) = rdF (nw l) m1 P := h3 8 (by simp)
  have vR1Z : rdF (nw l) m3 (loc (nw l) s 3 + 2 * nw l) = rdF (nw l) m1 (P + 2 * nw l) := h3 9 (by simp)
  simp [evals, setAll, Op.dst, Op.val, Function.update, start] at vA24 vR0 vR0Z
  have hb := hL.below
  simp only [List.forall_mem_cons] at hb
  have none : ∀ y, y + 2 * nw l ≤ s → rdF (nw l) m3 y = rdF (nw l) m y := fun y hy => e3.keep hy (by simp)
  obtain ⟨r1, e4⟩ := ladderLoopM_effect X (w := w) (sc := sc) (hL.call 5 [6, 7, 8, 9, 0, 1, 5] (by decide) rfl) (by have := hs 5; omega)
    (fun R hR => Or.inr (by
      have : s ≤ R := by
        simp only [List.mem_cons, List.not_mem_nil, or_false] at hR
        rcases hR with rfl | rfl | rfl | rfl
        exacts [hs 1, hs 2, hs 3, hs 4]
      omega)) orderBits 0 m3 (r := r) (by
    show WCurve.ladderLoop l (rdP (nw l) m3 P) (rd m3 w sc) (rdF (nw l) m3 (loc (nw l) s 0)) orderBits 0
      (rdP (nw l) m3 (loc (nw l) s 1)) (rdP (nw l) m3 (loc (nw l) s 3)) = some r
    simp only [rdP, none P hb.1, none _ hb.2.1, vA24, vR0, vR0Z, vR1, vR1Z, wP, wPZ]
    rw [e3.keep_rd hsc (by simp)]
    exact h)
  generalize hm4 : ladderLoopM X _ _ _ _ _ _ orderBits 0 m3 = m4 at e4
  have e5 := copyPtM_effect (m := m4) (hL.call 5 [6, 7, 3, 4] (by decide) rfl)
  generalize hm5 : copyPtM (nw l) _ _ m4 = m5 at e5
  have hm : ladderM X P sc A orderBits R s m = m5 := by
    rw [← hm5, ← hm4, ← hm3, ← hm2, ← hm1]
    rfl
  rw [hm]
  have e5' : Effect (nw l) (loc (nw l) s 5) m4 m5 (ptVars (nw l) R r) := by
    have := e5
    rw [(rdP_of_effect2 e4).1] at this
    exact this
  refine ⟨e5'.out, fun x hx hx' => ?_⟩
  rw [e5'.frame x (by have := hs 5; omega) hx', e4.frame x (by have := hs 5; omega) (fun v hv hx2 => ?_), e3.frame x hx (by simp)]
  have : s ≤ v.1 := by
    simp only [ptVars, List.cons_append, List.nil_append, List.mem_cons, List.not_mem_nil, or_false] at hv
    rcases hv with rfl | rfl | rfl | rfl
    exacts [hs 1, hs 2, hs 3, hs 4]
  omega

end Secuer.CMem
