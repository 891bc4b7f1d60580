import Verif.CMem.Models
import Verif.Props.MemProps
import Verif.Sage.Library

/-!
# Square roots and Montgomery models on memory (C96)

`fp2sqrt`, the comparisons, the selection with masks and the choice of the model in `poik.c`, executed on memory digit by digit (the copies
of isomorphisms byte by byte), in the portable build.
-/

set_option maxRecDepth 100000

namespace Secuer.MemProps

open Secuer.Word Secuer.Field Secuer.CMem
open Secuer.WCurve (V VC VI)
open Secuer.Curve (Pt Crv Iso ModelOK)
open Secuer.ChainProps (RightOrder rightOrder_iff rightOrder_zero)

variable {l : Level}

theorem only_of_effect1 {s Q : ℕ} {m m' : Mem} {x : F2} {n : ℕ} (h : Effect n s m m' [(Q, x)]) : Only s Q (2 * n) m m' :=
  fun y hy hy' => h.frame y hy (by
    simp only [List.forall_mem_cons]
    exact ⟨by omega, by simp⟩)

theorem only_of_effectI {s I : ℕ} {m m' : Mem} {x : Iso F2} {n : ℕ} (h : Effect n s m m' (isoVars n I x)) : Only s I (6 * n) m m' :=
  fun y hy hy' => h.frame y hy (by
    simp only [isoVars, List.forall_mem_cons]
    exact ⟨by omega, by omega, by omega, by simp⟩)

theorem rdI_of_effect {s I : ℕ} {m m' : Mem} {x : Iso F2} {n : ℕ} {W : List (ℕ × F2)} (h : Effect n s m m' W)
    (hW : ∀ w ∈ isoVars n I x, w ∈ W) : rdI n m' I = x := by
  have h1 := h.out _ (hW (I, x.B) (by simp [isoVars]))
  have h2 := h.out _ (hW (I + 2 * n, x.r) (by simp [isoVars]))
  have h3 := h.out _ (hW (I + 2 * n + 2 * n, x.u2) (by simp [isoVars]))
  exact congr (congr (congrArg Iso.mk h1) h2) h3

/-- `fp2_equal` decides equality of the elements of GF(p^2) and leaves the arguments alone. -/
theorem C96_equal (m : Mem) {x y s : ℕ} (hx : x + 2 * nw l ≤ s) (hy : y + 2 * nw l ≤ s) {u v : l.F} (hu : V l 2 (rdF (nw l) m x) u)
    (hv : V l 2 (rdF (nw l) m y) v) :
    (fp2EqualM (tables l) x y s m).1 = (if u = v then 255#8 else 0#8) ∧ ∀ a < s, (fp2EqualM (tables l) x y s m).2 a = m a := by
  obtain ⟨h1, h2⟩ := fp2EqualM_spec (s := s) (m := m) (good l) hx hy
  refine ⟨?_, h2⟩
  have e : fp2equal (tables l) (rdF (nw l) m x) (rdF (nw l) m y) = _ := fp2equal_spec (good l) hu.rng hv.n.rng
  rw [hu.val, hv.val] at e
  exact h1.trans e

/-- `fp2_iszero` -/
theorem C96_iszero (m : Mem) {x s : ℕ} (hx : x + 2 * nw l ≤ s) {u : l.F} (hu : V l 2 (rdF (nw l) m x) u) :
    (fp2IszeroM (tables l) x s m).1 = (if u = 0 then 255#8 else 0#8) ∧ ∀ a < s, (fp2IszeroM (tables l) x s m).2 a = m a := by
  obtain ⟨h1, h2⟩ := fp2IszeroM_spec (s := s) (m := m) (good l) hx
  exact ⟨h1.trans (WCurve.iszero_cases hu), h2⟩

/-- `fp2sqrt(x, y, false)` (`poik.c:142-217`) reports whether `x` is a square, in which case `y` is a root. -/
theorem C96_sqrt (m : Mem) {x y s : ℕ} (hL : Layout (nw l) s [x, y]) {u : l.F} (hu : V l 2 (rdF (nw l) m x) u) :
    ((fp2sqrtM l false x y s m).1 = true ↔ IsSquare u) ∧
    (IsSquare u → ∃ v, V l 2 (rdF (nw l) (fp2sqrtM l false x y s m).2 y) v ∧ v * v = u) ∧
    Only s y (2 * nw l) m (fp2sqrtM l false x y s m).2 := by
  obtain ⟨h1, h2⟩ := fp2sqrtM_effect (l := l) false m hL
  refine ⟨?_, fun hs => ⟨_, ?_, l.setting.sqrt u hs⟩, only_of_effect1 h2⟩
  · rw [h1, WCurve.sqrt_bool hu]
    exact ⟨fun h => ⟨_, h.symm⟩, l.setting.sqrt u⟩
  · rw [h2.out _ (List.mem_cons_self ..)]
    exact WCurve.sqrt_v hu

/-- The same root comes out if the caller declares `x` to be a square (`fp2sqrt(x, y, true)`). -/
theorem C96_sqrt_known (m : Mem) {x y s : ℕ} (hL : Layout (nw l) s [x, y]) {u : l.F} (hu : V l 2 (rdF (nw l) m x) u) (hs : IsSquare u) :
    ∃ v, V l 2 (rdF (nw l) (fp2sqrtM l true x y s m).2 y) v ∧ v * v = u ∧
      rdF (nw l) (fp2sqrtM l true x y s m).2 y = rdF (nw l) (fp2sqrtM l false x y s m).2 y := by
  obtain ⟨-, h2⟩ := fp2sqrtM_effect (l := l) true m hL
  obtain ⟨-, h3⟩ := fp2sqrtM_effect (l := l) false m hL
  have e := h2.out _ (List.mem_cons_self ..)
  refine ⟨_, ?_, l.setting.sqrt u hs, ?_⟩
  · rw [e]
    exact WCurve.sqrt_v hu
  · rw [e, h3.out _ (List.mem_cons_self ..)]
    rfl

/-- `ct_cmov` on isomorphisms, byte by byte: with the mask 0xff a copy, with 0 nothing. -/
theorem C96_cmov (c : Prop) [Decidable c] (m : Mem) {I J s : ℕ} (h : I + 6 * nw l ≤ J ∨ J + 6 * nw l ≤ I) :
    rdI (nw l) (cmovIsoM (nw l) (if c then 255#8 else 0#8) I J m) I = (if c then rdI (nw l) m J else rdI (nw l) m I) ∧
      Only s I (6 * nw l) m (cmovIsoM (nw l) (if c then 255#8 else 0#8) I J m) := by
  have e := cmovIsoM_effect (s := s) l (if c then 255#8 else 0#8) m h
  have hlen : ∀ a, WCurve.IsoLen l (rdI (nw l) m a) := fun a => ⟨rd_length _ _ _, rd_length _ _ _, rd_length _ _ _, rd_length _ _ _, rd_length _ _ _,
    rd_length _ _ _⟩
  rw [WCurve.cmovIso_eq (hlen I) (hlen J)] at e
  exact ⟨rdI_of_effect e fun _ h => h, only_of_effectI e⟩

/-- `canonical_model` (`poik.c:485-503`) on a curve with (p+1)^2 points: the access to the arrays stays within bounds, and at `iso` there is
afterwards an isomorphism to the model with the least coefficient. -/
theorem C96_canonical (m : Mem) {E I s : ℕ} (hL : Layout (nw l) s ([E, E + 2 * nw l] ++ isoAddr (nw l) I)) {E' : Crv l.F}
    (hE : VC l (rdC (nw l) m E) E') (h0 : RightOrder l (E'.A / E'.C)) :
    ∃ m' i, canonicalModelM l E I s m = some m' ∧ VI l (rdI (nw l) m' I) i ∧ ModelOK (E'.A / E'.C) i ∧ Sage.Least l i.B ∧
      Only s I (6 * nw l) m m' := by
  have h := canonicalModelM_effect m hL
  obtain ⟨e, hm⟩ := Curve.canonicalModelM_ok l.setting ((rightOrder_iff l).1 h0)
  have r := WCurve.canonicalModel_ref hE
  rw [e] at r
  generalize canonicalModelM l E I s m = o at h ⊢
  generalize WCurve.canonicalModel l (rdC (nw l) m E) = c at h r
  cases r with
  | ok r =>
    rcases o with _ | m'
    · exact h.elim
    · exact ⟨m', _, rfl, by rw [rdI_of_effect h fun _ h => h]; exact r, hm, Sage.least_canonical ((rightOrder_iff l).1 h0), only_of_effectI h⟩

/-- `canonical_model` reads beyond its arrays exactly if one of the quadratic equations has a double root. -/
theorem C96_canonical_ub (m : Mem) {E I s : ℕ} (hL : Layout (nw l) s ([E, E + 2 * nw l] ++ isoAddr (nw l) I)) {E' : Crv l.F}
    (hE : VC l (rdC (nw l) m E) E') : canonicalModelM l E I s m = none ↔ Curve.allModelsUB l.env E' = true := by
  have h := canonicalModelM_effect m hL
  have r := WCurve.canonicalModel_ref hE
  rw [Curve.canonicalModelM] at r
  generalize canonicalModelM l E I s m = o at h ⊢
  generalize WCurve.canonicalModel l (rdC (nw l) m E) = c at h r
  by_cases hu : Curve.allModelsUB l.env E' = true
  · rw [if_pos hu] at r
    cases r
    rcases o with _ | m'
    · simp [hu]
    · exact h.elim
  · rw [if_neg hu] at r
    cases r
    rcases o with _ | m'
    · exact h.elim
    · simp [hu]

/-- `change_model` (`poik.c:505-513`): another model and the identity -/
theorem C96_change (m : Mem) {E I J s : ℕ} (hL : Layout (nw l) s ([E, E + 2 * nw l] ++ isoAddr (nw l) I ++ isoAddr (nw l) J)) {E' : Crv l.F}
    (hE : VC l (rdC (nw l) m E) E') (hu : Curve.allModelsUB l.env E' = false) :
    ∃ m', changeModelM l E I J s m = some m' ∧ VI l (rdI (nw l) m' I) (Curve.changeModel l.env E').1 ∧
      VI l (rdI (nw l) m' J) ⟨E'.A / E'.C, 0, 1⟩ ∧
      ∀ x < s, (x < I ∨ I + 6 * nw l ≤ x) → (x < J ∨ J + 6 * nw l ≤ x) → m' x = m x := by
  have h := changeModelM_effect m hL
  obtain ⟨i, j, e, hi, hj⟩ := (WCurve.changeModel_ref hE).2 hu
  rw [e] at h
  generalize changeModelM l E I J s m = o at h ⊢
  rcases o with _ | m'
  · exact h.elim
  have h : Effect (nw l) s m m' (isoVars (nw l) I i ++ isoVars (nw l) J j) := h
  refine ⟨m', rfl, by rw [rdI_of_effect h fun _ h => List.mem_append_left _ h]; exact hi,
    by rw [rdI_of_effect h fun _ h => List.mem_append_right _ h]; exact hj, fun x hx h1 h2 => h.frame x hx ?_⟩
  simp only [isoVars, List.cons_append, List.nil_append, List.forall_mem_cons]
  exact ⟨by omega, by omega, by omega, by omega, by omega, by omega, by simp⟩

/-! The hypotheses can be met: the curve with coefficients `(0 : 1)` at 46, one at 0, 14 and 30 -/

/-- Memory with the curve `(0 : 1)` at 46 -/
def exMemE : Mem := wr exMem 60 (tables .l434).one

theorem exE : VC .l434 (rdC (nw .l434) exMemE 46) ⟨0, 1⟩ := by
  rw [show rdC (nw .l434) exMemE 46 = ⟨fp2zero (tables .l434), fp2one (tables .l434)⟩ by decide +kernel]
  exact ⟨WCurve.zero_v.n, WCurve.one_v⟩

theorem exE_right : RightOrder .l434 ((0 : Level.l434.F) / 1) := by rw [zero_div]; exact rightOrder_zero _

example : ∃ m' i, canonicalModelM .l434 46 100 200 exMemE = some m' ∧ VI .l434 (rdI (nw .l434) m' 100) i ∧
    ModelOK ((0 : Level.l434.F) / 1) i ∧ Sage.Least .l434 i.B ∧ Only 200 100 (6 * nw .l434) exMemE m' :=
  C96_canonical (l := .l434) exMemE ⟨by decide, by decide⟩ exE exE_right

example : ∃ m', changeModelM .l434 46 100 150 200 exMemE = some m' ∧ VI .l434 (rdI (nw .l434) m' 150) ⟨0 / 1, 0, 1⟩ := by
  obtain ⟨m', h, -, h', -⟩ := C96_change (l := .l434) (E := 46) (I := 100) (J := 150) (s := 200) exMemE ⟨by decide, by decide⟩ exE (by
    have h := (Curve.canonicalModelM_ok Level.l434.setting (E := ⟨0, 1⟩) ((rightOrder_iff .l434).1 exE_right)).1
    rw [Curve.canonicalModelM] at h
    by_contra hc
    rw [if_pos (by simpa using hc)] at h
    cases h)
  exact ⟨m', h, h'⟩

example : (fp2sqrtM .l434 false 30 100 200 exMem).1 = true :=
  (C96_sqrt (l := .l434) (x := 30) (y := 100) exMem ⟨by decide, by decide⟩ (by rw [ex30]; exact WCurve.one_v)).1.2 ⟨1, by simp⟩

example : (fp2EqualM (tables .l434) 30 46 200 exMem).1 = 0#8 := by
  refine (C96_equal (l := .l434) (x := 30) (y := 46) (s := 200) exMem (by decide) (by decide) (by rw [ex30]; exact WCurve.one_v)
    (by rw [ex46]; exact WCurve.zero_v)).1.trans ?_
  simp

end Secuer.MemProps
