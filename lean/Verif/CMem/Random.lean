import Verif.CMem.IsogA

/-!
# Random points on memory

`fprand`, `random_point`, `random_point_with_order`, `point_equal` and `Random_Point_AB` of `poik.c` with `assert` compiled out, in the
portable build.  The random bytes come from a tape, as in `Verif.WCurve.Model`.
-/

namespace Secuer.CMem

open Secuer.Word Secuer.Field
open Secuer.Curve (Pt Crv Iso Out Tape)
open Secuer.WCurve (Draw)

variable {l : Level}

/-! ## `fprand` -/

/-- `fprand` (`poik.c:108-113`): the bytes delivered by `randombytes` are stored digit by digit, then the last digit is masked. -/
def fprandM (T : Tables) (bytes : List UInt8) (el : ℕ) (m : Mem) : Mem :=
  let m := fillMem (digitsOf T.n bytes) el m
  upd m (el + (T.n - 1)) (m (el + (T.n - 1)) &&& ((-1 : Digit) >>> (T.nbits % 64)))

theorem fprandM_eq {T : Tables} (hn : 0 < T.n) (b : List UInt8) (el : ℕ) (m : Mem) : fprandM T b el m = wr m el (fprand T b) := by
  have hl := digitsOf_length T.n b
  funext x
  simp only [fprandM, fprand, fillMem_eq, upd, wr]
  generalize digitsOf T.n b = d at hl ⊢
  by_cases hx : el ≤ x
  · rw [if_pos hx, if_pos (by omega : el ≤ el + (T.n - 1)), List.getElem?_modify, show el + (T.n - 1) - el = T.n - 1 by omega,
      List.getElem?_eq_getElem (by omega : T.n - 1 < d.length)]
    by_cases h : x = el + (T.n - 1)
    · subst h
      rw [if_pos rfl, show el + (T.n - 1) - el = T.n - 1 by omega, List.getElem?_eq_getElem (by omega : T.n - 1 < d.length)]
      simp
    · rw [if_neg h, if_pos hx]
      simp only [if_neg (show ¬ T.n - 1 = x - el by omega)]
      cases d[x - el]? <;> rfl
  · rw [if_neg hx, if_neg (by omega), if_neg hx]

theorem fprand_length {T : Tables} (b : List UInt8) : (fprand T b).length = T.n := by
  rw [fprand, List.length_modify, digitsOf_length]

/-- The two calls of `fprand` -/
theorem fprandM_effect {x s : ℕ} (d : Draw) (m : Mem) :
    Effect (nw l) s m (fprandM (tables l) d.2 (x + nw l) (fprandM (tables l) d.1 x m)) [(x, WCurve.candidate l d)] := by
  have hn : 0 < (tables l).n := (good l).n_pos
  rw [fprandM_eq hn, fprandM_eq hn]
  have h1 := fprand_length (T := tables l) d.1
  have h2 := fprand_length (T := tables l) d.2
  refine ⟨?_, fun y hy h => ?_⟩
  · simp only [List.forall_mem_singleton, rdF]
    rw [rd_wr_same h2, rd_wr_disj (Or.inr (le_refl _)), rd_wr_same h1]
    rfl
  · rw [List.forall_mem_singleton] at h
    simp only at h
    by_cases hy' : y < x
    · rw [wr_of_lt (by omega), wr_of_lt (by omega)]
    · have e : (tables l).n = nw l := rfl
      rw [wr_of_ge (by rw [h2]; omega), wr_of_ge (by rw [h1]; omega)]

/-! ## `random_point` -/

/-- The loop of `random_point` (`poik.c:279-292`); `x`, `rhs`, `y` are `v 0`, `v 1`, `v 2`, and `v 3` stands for the constant
`Montgomery_one`.  `none` if the tape ends. -/
def randomPointLoopM (l : Level) (A : ℕ) (v : ℕ → ℕ) (sp : ℕ) : List Draw → Mem → Option (List Draw × Mem)
  | [], _ => none
  | d :: ds, m =>
    let m := fprandM (tables l) d.1 (v 0) m
    let m := fprandM (tables l) d.2 (v 0 + nw l) m
    let m := (portable l).runs sp [.one (v 3), .add A (v 0) (v 1), .mul (v 1) (v 0) (v 1)] m
    let m := fruns l (hAt (nw l) v) sp [.add (1, false) (3, false) (1, false)] m
    let m := (portable l).runs sp [.mul (v 1) (v 0) (v 1)] m
    let r := fp2sqrtM l false (v 1) (v 2) sp m
    if r.1 then some (ds, r.2) else randomPointLoopM l A v sp ds r.2

/-- `random_point` (`poik.c:276-296`) -/
def randomPointM (l : Level) (A P sp : ℕ) (t : Tape Draw) (m : Mem) : Out (Mem × Tape Draw) :=
  let v := loc (nw l) sp
  match randomPointLoopM l A v (v 4) t.pts m with
  | none => .starved
  | some (ds, m) => .ok ((portable l).runs (v 4) [.copy (v 0) P, .one (P + 2 * nw l)] m, { t with pts := ds })

theorem randomPointLoopM_rel {A P s : ℕ} (hL : Layout (nw l) s [A, P, P + 2 * nw l]) {m₀ : Mem} : ∀ (ds : List Draw) {m : Mem} {σ : ℕ → F2},
    At (nw l) s [A, P, P + 2 * nw l] 4 m₀ m σ →
      match WCurve.randomPointAux l (σ 0) ds, randomPointLoopM l A (loc (nw l) s) (loc (nw l) s 4) ds m with
      | none, none => True
      | some (x, ds'), some (ds'', m') => ds' = ds'' ∧ ∃ σ', At (nw l) s [A, P, P + 2 * nw l] 4 m₀ m' σ' ∧ σ' 3 = x ∧ ∀ i < 3, σ' i = σ i
      | _, _ => False
  | [], m, σ, _ => by simp [WCurve.randomPointAux, randomPointLoopM]
  | d :: ds, m, σ, ha => by
    have c1 := fprandM_effect (l := l) (x := loc (nw l) s 0) (s := loc (nw l) s 4) d m
    have a1 := ha.call hL [(3, _)] (by simp) rfl c1
    generalize hm1 : fprandM (tables l) d.2 _ _ = m1 at a1
    have a2 := a1.sim (Sim.ops (portable l) (k := 4) hL [.one 6, .add 0 3 4, .mul 4 3 4] rfl)
    generalize hm2 : (portable l).runs _ _ m1 = m2 at a2
    have a3 := a2.sim (Sim.fops (k := 4) hL [.add (4, false) (6, false) (4, false)] rfl)
    generalize hm3 : fruns l _ _ _ m2 = m3 at a3
    have a4 := a3.sim (Sim.ops (portable l) (k := 4) hL [.mul 4 3 4] rfl)
    generalize hm4 : (portable l).runs _ _ m3 = m4 at a4
    generalize hσ : evals l _ _ = σ4 at a4
    have v3 : σ4 3 = WCurve.candidate l d := by rw [← hσ]; rfl
    have v4 : σ4 4 = WCurve.rhsOf l (σ 0) (WCurve.candidate l d) := by rw [← hσ]; rfl
    have vlt : ∀ i < 3, σ4 i = σ i := by
      intro i hi
      rw [← hσ]
      simp [evals, fevals, FOp.eval, FOp.dst, Op.dst, setAll, Function.update, show i ≠ 3 by omega, show i ≠ 4 by omega, show i ≠ 6 by omega]
    clear hσ
    obtain ⟨q1, q2⟩ := fp2sqrtM_effect false m4 (hL.call 4 [4, 5] (by decide) rfl)
    rw [a4.val (i := 4) (by simp), v4] at q1 q2
    have a5 := a4.call hL [(5, _)] (by simp) rfl q2
    generalize hr : fp2sqrtM l false _ _ _ m4 = r at q1 a5
    have e : randomPointLoopM l A (loc (nw l) s) (loc (nw l) s 4) (d :: ds) m =
        if r.1 then some (ds, r.2) else randomPointLoopM l A (loc (nw l) s) (loc (nw l) s 4) ds r.2 := by
      rw [← hr, ← hm4, ← hm3, ← hm2, ← hm1]
      rfl
    rw [e, WCurve.randomPointAux, q1]
    have hlt : ∀ i < 3, setAll σ4 [(5, (fp2sqrt (tables l) l.chain l.iso.e2 l.iso.e3 false
        (WCurve.rhsOf l (σ 0) (WCurve.candidate l d))).1)] i = σ i := fun i hi => by
      rw [setAll_of_not_mem _ _ (by simp; omega), vlt i hi]
    by_cases hb : (fp2sqrt (tables l) l.chain l.iso.e2 l.iso.e3 false (WCurve.rhsOf l (σ 0) (WCurve.candidate l d))).2 = true
    · rw [if_pos hb, if_pos hb]
      exact ⟨rfl, _, a5, v3, hlt⟩
    · rw [if_neg hb, if_neg hb]
      have ih := randomPointLoopM_rel hL ds a5
      rw [hlt 0 (by decide)] at ih
      generalize WCurve.randomPointAux l (σ 0) ds = o at ih ⊢
      generalize randomPointLoopM l A _ _ ds r.2 = o' at ih ⊢
      rcases o with _ | o <;> rcases o' with _ | o' <;> simp only at ih ⊢
      exact ⟨ih.1, ih.2.imp fun σ' h => ⟨h.1, h.2.1, fun i hi => (h.2.2 i hi).trans (hlt i hi)⟩⟩

/-- Both runs end in the same way and have read the same part of the tape; the results correspond. -/
def ResT {α γ : Type} (P : α → γ → Prop) : Out (α × Tape Draw) → Out (γ × Tape Draw) → Prop
  | .ok (a, t), .ok (m, t') => t = t' ∧ P a m
  | .abort, .abort => True
  | .ub, .ub => True
  | .starved, .starved => True
  | _, _ => False

/-- The continuation of a run -/
def bindT {γ β : Type} (r : Out (γ × Tape Draw)) (k : γ → Tape Draw → Out β) : Out β :=
  match r with
  | .ok (m, t) => k m t
  | .abort => .abort
  | .ub => .ub
  | .starved => .starved

theorem ResT.bind {α β γ δ : Type} {P : α → γ → Prop} {P' : β → δ → Prop} {f : Curve.M Draw α} {g : α → Curve.M Draw β} {t : Tape Draw}
    {r : Out (γ × Tape Draw)} {k : γ → Tape Draw → Out (δ × Tape Draw)} (h : ResT P (f t) r)
    (hg : ∀ a m t, P a m → ResT P' (g a t) (k m t)) : ResT P' (Curve.M.bind f g t) (bindT r k) := by
  simp only [Curve.M.bind, bindT]
  generalize f t = o at h ⊢
  rcases o with ⟨a, t1⟩ | _ | _ | _ <;> rcases r with ⟨m, t2⟩ | _ | _ | _ <;> simp only [ResT] at h ⊢
  obtain ⟨rfl, h⟩ := h
  exact hg _ _ _ h

theorem ResT.mono {α γ : Type} {P P' : α → γ → Prop} {o : Out (α × Tape Draw)} {r : Out (γ × Tape Draw)} (h : ResT P o r)
    (hP : ∀ a m, P a m → P' a m) : ResT P' o r := by
  rcases o with ⟨a, t1⟩ | _ | _ | _ <;> rcases r with ⟨m, t2⟩ | _ | _ | _ <;> simp only [ResT] at h ⊢
  exact ⟨h.1, hP _ _ h.2⟩

/-- `random_point` on memory -/
theorem randomPointM_spec {A P s : ℕ} (hL : Layout (nw l) s [A, P, P + 2 * nw l]) (t : Tape Draw) (m : Mem) :
    ResT (fun x m' => Effect (nw l) s m m' (ptVars (nw l) P x)) (WCurve.randomPoint l (rdF (nw l) m A) t) (randomPointM l A P s t m) := by
  have h := randomPointLoopM_rel hL t.pts (At.start m)
  rw [show start (nw l) m [A, P, P + 2 * nw l] _ 0 = rdF (nw l) m A from rfl] at h
  unfold WCurve.randomPoint randomPointM
  simp only
  generalize WCurve.randomPointAux l (rdF (nw l) m A) t.pts = o at h ⊢
  generalize randomPointLoopM l A _ _ t.pts m = o' at h ⊢
  rcases o with _ | ⟨x, ds⟩ <;> rcases o' with _ | ⟨ds', m'⟩ <;> simp only at h
  · trivial
  · obtain ⟨rfl, σ', a1, h3, hlt⟩ := h
    have a2 := a1.sim (Sim.ops (portable l) (k := 4) hL [.copy 3 1, .one 2] rfl)
    refine ⟨rfl, a2.holds.effect a2.frame [(1, x), (2, fp2one (tables l))] [0] rfl rfl ?_ ?_⟩
    · simp only [List.forall_mem_cons]
      exact ⟨h3, rfl, by simp⟩
    · simp only [List.forall_mem_cons]
      exact ⟨hlt 0 (by decide), by simp⟩

/-! ## `random_point_with_order` -/

/-- The first loop of `random_point_with_order` (`poik.c:312-325`), `n` iterations left; `A24plus`, `A24minus`, `C24` are `v 0`, `v 1`, `v 2`. -/
def cofLoopM (l : Level) (q A P : ℕ) (v : ℕ → ℕ) (sp : ℕ) : (n : ℕ) → Tape Draw → Mem → Out (Mem × Tape Draw)
  | 0, _, _ => .abort
  | n + 1, t, m =>
    bindT (randomPointM l A P sp t m) fun m t =>
      let m := if q = 2 then xTPLeM (portable l) P P (v 1) (v 0) l.iso.e3 sp m else xDBLeM (portable l) P P (v 0) (v 2) l.iso.e2 sp m
      let r := fp2IszeroM (tables l) (P + 2 * nw l) sp m
      if r.1 ≠ 0 then cofLoopM l q A P v sp n t r.2 else .ok (r.2, t)

/-- The second loop of `random_point_with_order` (`poik.c:330-345`), `n` iterations left; `T` is at `v 3`. -/
def orderLoopM (l : Level) (q Q : ℕ) (v : ℕ → ℕ) (sp : ℕ) : (n e : ℕ) → Mem → Out (ℕ × Mem)
  | 0, _, _ => .abort
  | n + 1, e, m =>
    let m := if q = 2 then xDBLM (portable l) Q (v 3) (v 0) (v 2) sp m else xTPLM (portable l) Q (v 3) (v 1) (v 0) sp m
    let r := fp2IszeroM (tables l) (v 4) sp m
    if r.1 ≠ 0 then .ok (e, r.2) else orderLoopM l q Q v sp n (e + 1) (copyPtM (nw l) (v 3) Q r.2)

/-- `random_point_with_order(A, q, P, e, Q)` (`poik.c:299-345`), `q` 2 or 3; the value left in `*e` and the memory -/
def randomPointWithOrderM (l : Level) (q A P Q sp : ℕ) (t : Tape Draw) (m : Mem) : Out ((ℕ × Mem) × Tape Draw) :=
  let v := loc (nw l) sp
  let sp := v 5
  let m := (portable l).runs sp [.one (v 2), .add (v 2) (v 2) (v 2), .add A (v 2) (v 0), .sub A (v 2) (v 1), .add (v 2) (v 2) (v 2)] m
  bindT (cofLoopM l q A P v sp 9998 t m) fun m t =>
    match orderLoopM l q Q v sp 9998 1 (copyPtM (nw l) P Q m) with
    | .ok r => .ok (r, t)
    | .abort => .abort
    | .ub => .ub
    | .starved => .starved

/-- The arguments of `random_point_with_order` -/
abbrev argO (l : Level) (A P Q : ℕ) : List ℕ := [A, P, P + 2 * nw l, Q, Q + 2 * nw l]

section
variable {q A P Q s : ℕ} {m₀ : Mem}

theorem cofLoopM_spec (hL : Layout (nw l) s (argO l A P Q)) {a p c : F2} {A' : F2} {cof : Pt F2 → Pt F2}
    (hcof : ∀ x, (if q = 2 then WCurve.xTPLe l x a p l.iso.e3 else WCurve.xDBLe l x p c l.iso.e2) = cof x) : ∀ (n : ℕ) {m : Mem} {σ : ℕ → F2} (t : Tape Draw),
    At (nw l) s (argO l A P Q) 5 m₀ m σ → σ 0 = A' → σ 5 = p → σ 6 = a → σ 7 = c →
    ResT (fun (x : Pt F2) m' => ∃ σ', At (nw l) s (argO l A P Q) 5 m₀ m' σ' ∧ ptOf σ' 1 = x ∧ ∀ i, i ≠ 1 → i ≠ 2 → σ' i = σ i)
      (WCurve.randomPointCof l A' cof n t)
      (cofLoopM l q A P (loc (nw l) s) (loc (nw l) s 5) n t m)
  | 0, _, _, _, _, _, _, _, _ => trivial
  | n + 1, m, σ, t, ha, h0, h5, h6, h7 => by
    have r1 := randomPointM_spec (hL.call 5 [0, 1, 2] (by decide) rfl) t m
    rw [ha.val (i := 0) (by simp), h0] at r1
    refine ResT.bind r1 fun x m1 t h1 => ?_
    have a1 := ha.call hL [(1, x.X), (2, x.Z)] (by simp) rfl h1
    have hP1 : rdP (nw l) m1 P = x := rdP_of_effect h1
    have v5 : rdF (nw l) m1 (loc (nw l) s 0) = p := (a1.val (i := 5) (by simp)).trans h5
    have v6 : rdF (nw l) m1 (loc (nw l) s 1) = a := (a1.val (i := 6) (by simp)).trans h6
    have v7 : rdF (nw l) m1 (loc (nw l) s 2) = c := (a1.val (i := 7) (by simp)).trans h7
    have c2 : Effect (nw l) (loc (nw l) s 5) m1 (if q = 2 then xTPLeM (portable l) P P (loc (nw l) s 1) (loc (nw l) s 0) l.iso.e3 (loc (nw l) s 5) m1
        else xDBLeM (portable l) P P (loc (nw l) s 0) (loc (nw l) s 2) l.iso.e2 (loc (nw l) s 5) m1)
        (ptVars (nw l) P (if q = 2 then WCurve.xTPLe l x a p l.iso.e3 else WCurve.xDBLe l x p c l.iso.e2)) := by
      by_cases hq : q = 2
      · rw [if_pos hq, if_pos hq]
        have := xTPLeM_effect_inplace (portable l) m1 l.iso.e3 (hL.call 5 [1, 2, 6, 5] (by decide) rfl)
        have e : Effect (nw l) (loc (nw l) s 5) m1 (xTPLeM (portable l) P P (loc (nw l) s 1) (loc (nw l) s 0) l.iso.e3 (loc (nw l) s 5) m1)
          (ptVars (nw l) P (WCurve.xTPLe l (rdP (nw l) m1 P) (rdF (nw l) m1 (loc (nw l) s 1)) (rdF (nw l) m1 (loc (nw l) s 0)) l.iso.e3)) := this
        rwa [hP1, v5, v6] at e
      · rw [if_neg hq, if_neg hq]
        have := xDBLeM_effect_inplace (portable l) m1 l.iso.e2 (hL.call 5 [1, 2, 5, 7] (by decide) rfl)
        have e : Effect (nw l) (loc (nw l) s 5) m1 (xDBLeM (portable l) P P (loc (nw l) s 0) (loc (nw l) s 2) l.iso.e2 (loc (nw l) s 5) m1)
          (ptVars (nw l) P (WCurve.xDBLe l (rdP (nw l) m1 P) (rdF (nw l) m1 (loc (nw l) s 0)) (rdF (nw l) m1 (loc (nw l) s 2)) l.iso.e2)) := this
        rwa [hP1, v5, v7] at e
    change ResT _ ((if WCurve.iszero l (cof x).Z ≠ 0 then WCurve.randomPointCof l A' cof n else Curve.M.pure (cof x)) t) _
    rw [hcof] at c2
    generalize cof x = y at c2 ⊢
    simp only
    generalize (if q = 2 then xTPLeM (portable l) P P _ _ _ _ m1 else _) = m2 at c2 ⊢
    have a2 := a1.call hL [(1, y.X), (2, y.Z)] (by simp) rfl c2
    obtain ⟨q1, q2⟩ := fp2IszeroM_spec (s := loc (nw l) s 5) (m := m2) (a := P + 2 * nw l) (good l)
      (addr_below (i := 2) (k := 5) hL (by simp))
    have w2 : rdF (tables l).n m2 (P + 2 * nw l) = y.Z := a2.val (i := 2) (by simp)
    rw [w2] at q1
    have a3 := a2.agree hL q2
    have q1' : (fp2IszeroM (tables l) (P + 2 * nw l) (loc (nw l) s 5) m2).1 = WCurve.iszero l y.Z := q1
    rw [q1']
    have keep : ∀ i, i ≠ 1 → i ≠ 2 → setAll (setAll σ [(1, x.X), (2, x.Z)]) [(1, y.X), (2, y.Z)] i = σ i := fun i h1 h2 => by
      rw [setAll_of_not_mem _ _ (by simp; omega), setAll_of_not_mem _ _ (by simp; omega)]
    by_cases hz : WCurve.iszero l y.Z ≠ 0
    · rw [if_pos hz, if_pos hz]
      refine (cofLoopM_spec hL hcof n t a3 h0 h5 h6 h7).mono fun x m' h => h.imp fun σ' h => ⟨h.1, h.2.1, fun i h1 h2 => ?_⟩
      rw [h.2.2 i h1 h2, keep i h1 h2]
    · rw [if_neg hz, if_neg hz]
      exact ⟨rfl, _, a3, rfl, keep⟩

theorem orderLoopM_spec (hL : Layout (nw l) s (argO l A P Q)) {a p c : F2} : ∀ (n e : ℕ) {m : Mem} {σ : ℕ → F2},
    At (nw l) s (argO l A P Q) 5 m₀ m σ → σ 5 = p → σ 6 = a → σ 7 = c →
    match WCurve.orderLoop l (fun Q => if q = 2 then WCurve.xDBL l Q p c else WCurve.xTPL l Q a p) n e (ptOf σ 3),
      orderLoopM l q Q (loc (nw l) s) (loc (nw l) s 5) n e m with
    | .ok (e, x), .ok (e', m') => e = e' ∧ ∃ σ', At (nw l) s (argO l A P Q) 5 m₀ m' σ' ∧ ptOf σ' 3 = x ∧ ∀ i < 3, σ' i = σ i
    | .abort, .abort => True
    | _, _ => False
  | 0, _, _, _, _, _, _, _ => trivial
  | n + 1, e, m, σ, ha, h5, h6, h7 => by
    have hQ1 : rdP (nw l) m Q = ptOf σ 3 := by
      change _ = Pt.mk (σ 3) (σ 4)
      exact congr (congrArg Pt.mk (ha.val (i := 3) (by simp))) (ha.val (i := 4) (by simp))
    have v5 : rdF (nw l) m (loc (nw l) s 0) = p := (ha.val (i := 5) (by simp)).trans h5
    have v6 : rdF (nw l) m (loc (nw l) s 1) = a := (ha.val (i := 6) (by simp)).trans h6
    have v7 : rdF (nw l) m (loc (nw l) s 2) = c := (ha.val (i := 7) (by simp)).trans h7
    have c2 : Effect (nw l) (loc (nw l) s 5) m (if q = 2 then xDBLM (portable l) Q (loc (nw l) s 3) (loc (nw l) s 0) (loc (nw l) s 2) (loc (nw l) s 5) m
        else xTPLM (portable l) Q (loc (nw l) s 3) (loc (nw l) s 1) (loc (nw l) s 0) (loc (nw l) s 5) m)
        (ptVars (nw l) (loc (nw l) s 3) (if q = 2 then WCurve.xDBL l (ptOf σ 3) p c else WCurve.xTPL l (ptOf σ 3) a p)) := by
      by_cases hq : q = 2
      · rw [if_pos hq, if_pos hq]
        have := xDBLM_effect (portable l) m (hL.call 5 [3, 4, 8, 9, 5, 7] (by decide) rfl)
        have e : Effect (nw l) (loc (nw l) s 5) m (xDBLM (portable l) Q (loc (nw l) s 3) (loc (nw l) s 0) (loc (nw l) s 2) (loc (nw l) s 5) m)
          (ptVars (nw l) (loc (nw l) s 3) (WCurve.xDBL l (rdP (nw l) m Q) (rdF (nw l) m (loc (nw l) s 0)) (rdF (nw l) m (loc (nw l) s 2)))) := this
        rwa [hQ1, v5, v7] at e
      · rw [if_neg hq, if_neg hq]
        have := xTPLM_effect (portable l) m (hL.call 5 [3, 4, 8, 9, 6, 5] (by decide) rfl)
        have e : Effect (nw l) (loc (nw l) s 5) m (xTPLM (portable l) Q (loc (nw l) s 3) (loc (nw l) s 1) (loc (nw l) s 0) (loc (nw l) s 5) m)
          (ptVars (nw l) (loc (nw l) s 3) (WCurve.xTPL l (rdP (nw l) m Q) (rdF (nw l) m (loc (nw l) s 1)) (rdF (nw l) m (loc (nw l) s 0)))) := this
        rwa [hQ1, v5, v6] at e
    rw [orderLoopM, WCurve.orderLoop]
    generalize (if q = 2 then WCurve.xDBL l (ptOf σ 3) p c else WCurve.xTPL l (ptOf σ 3) a p) = y at c2 ⊢
    generalize (if q = 2 then xDBLM (portable l) Q _ _ _ _ m else _) = m2 at c2 ⊢
    have a2 := ha.call hL [(8, y.X), (9, y.Z)] (by simp) rfl c2
    obtain ⟨q1, q2⟩ := fp2IszeroM_spec (s := loc (nw l) s 5) (m := m2) (a := loc (nw l) s 4) (good l)
      (addr_below (i := 9) (k := 5) hL (by simp))
    have w2 : rdF (tables l).n m2 (loc (nw l) s 4) = y.Z := a2.val (i := 9) (by simp)
    rw [w2] at q1
    have a3 := a2.agree hL q2
    have q1' : (fp2IszeroM (tables l) (loc (nw l) s 4) (loc (nw l) s 5) m2).1 = WCurve.iszero l y.Z := q1
    rw [q1']
    generalize (fp2IszeroM (tables l) (loc (nw l) s 4) (loc (nw l) s 5) m2).2 = m3 at a3 ⊢
    by_cases hz : WCurve.iszero l y.Z ≠ 0
    · rw [if_pos hz, if_pos hz]
      exact ⟨rfl, _, a3, rfl, fun i hi => setAll_of_not_mem _ _ (by simp; omega)⟩
    · rw [if_neg hz, if_neg hz]
      have c4 : Effect (nw l) (loc (nw l) s 5) m3 (copyPtM (nw l) (loc (nw l) s 3) Q m3) (ptVars (nw l) Q (rdP (nw l) m3 (loc (nw l) s 3))) :=
        copyPtM_effect (hL.call 5 [8, 9, 3, 4] (by decide) rfl)
      have e3 : rdP (nw l) m3 (loc (nw l) s 3) = y := congr (congrArg Pt.mk (a3.val (i := 8) (by simp))) (a3.val (i := 9) (by simp))
      rw [e3] at c4
      have a4 := a3.call hL [(3, y.X), (4, y.Z)] (by simp) rfl c4
      have ih := orderLoopM_spec hL n (e + 1) a4 h5 h6 h7
      have ey : ptOf (setAll (setAll σ [(8, y.X), (9, y.Z)]) [(3, y.X), (4, y.Z)]) 3 = y := rfl
      rw [ey] at ih
      generalize WCurve.orderLoop l _ n (e + 1) y = o at ih ⊢
      generalize orderLoopM l q Q _ _ n (e + 1) _ = o' at ih ⊢
      rcases o with ⟨e1, x1⟩ | _ | _ | _ <;> rcases o' with ⟨e2, m4⟩ | _ | _ | _ <;> simp only at ih ⊢
      refine ⟨ih.1, ih.2.imp fun σ' h => ⟨h.1, h.2.1, fun i hi => ?_⟩⟩
      rw [h.2.2 i hi, setAll_of_not_mem _ _ (by simp; omega), setAll_of_not_mem _ _ (by simp; omega)]

/-- `random_point_with_order` on memory -/
theorem randomPointWithOrderM_spec (hL : Layout (nw l) s (argO l A P Q)) (t : Tape Draw) (m : Mem) :
    ResT (fun x r => x.2.1 = r.1 ∧ Effect (nw l) s m r.2 (ptVars (nw l) P x.1 ++ ptVars (nw l) Q x.2.2))
      (WCurve.randomPointWithOrder l (rdF (nw l) m A) q t) (randomPointWithOrderM l q A P Q s t m) := by
  have a1 := (At.start (k := 5) m).sim (Sim.ops (portable l) (k := 5) hL [.one 7, .add 7 7 7, .add 0 7 5, .sub 0 7 6, .add 7 7 7] rfl)
  generalize hm1 : (portable l).runs _ _ m = m1 at a1
  generalize hσ : evals l _ _ = σ1 at a1
  have v0 : σ1 0 = rdF (nw l) m A := by rw [← hσ]; rfl
  have e : randomPointWithOrderM l q A P Q s t m = bindT (cofLoopM l q A P (loc (nw l) s) (loc (nw l) s 5) 9998 t m1) fun m t =>
      match orderLoopM l q Q (loc (nw l) s) (loc (nw l) s 5) 9998 1 (copyPtM (nw l) P Q m) with
      | .ok r => .ok (r, t)
      | .abort => .abort
      | .ub => .ub
      | .starved => .starved := by
    rw [← hm1]
    rfl
  rw [e]
  have e5 : σ1 5 = fp2add (tables l) (rdF (nw l) m A) (fp2add (tables l) (fp2one (tables l)) (fp2one (tables l))) := by rw [← hσ]; rfl
  have e6 : σ1 6 = fp2sub (tables l) (rdF (nw l) m A) (fp2add (tables l) (fp2one (tables l)) (fp2one (tables l))) := by rw [← hσ]; rfl
  have e7 : σ1 7 = fp2add (tables l) (fp2add (tables l) (fp2one (tables l)) (fp2one (tables l)))
    (fp2add (tables l) (fp2one (tables l)) (fp2one (tables l))) := by rw [← hσ]; rfl
  have r2 := cofLoopM_spec hL (q := q) (fun _ => rfl) 9998 t a1 v0 rfl rfl rfl
  rw [e5, e6, e7] at r2
  refine ResT.bind r2 fun x m2 t h2 => ?_
  obtain ⟨σ2, a2, p2, k2⟩ := h2
  have c3 : Effect (nw l) (loc (nw l) s 5) m2 (copyPtM (nw l) P Q m2) (ptVars (nw l) Q (rdP (nw l) m2 P)) :=
    copyPtM_effect (hL.call 5 [1, 2, 3, 4] (by decide) rfl)
  have eP : rdP (nw l) m2 P = x := by
    rw [← p2]
    change _ = Pt.mk (σ2 1) (σ2 2)
    exact congr (congrArg Pt.mk (a2.val (i := 1) (by simp))) (a2.val (i := 2) (by simp))
  rw [eP] at c3
  have a3 := a2.call hL [(3, x.X), (4, x.Z)] (by simp) rfl c3
  have r4 := orderLoopM_spec hL (q := q) 9998 1 a3 ((k2 5 (by decide) (by decide)).trans e5) ((k2 6 (by decide) (by decide)).trans e6)
    ((k2 7 (by decide) (by decide)).trans e7)
  have ey : ptOf (setAll σ2 [(3, x.X), (4, x.Z)]) 3 = x := rfl
  rw [ey] at r4
  change ResT _ (Curve.M.bind (Curve.M.lift (WCurve.orderLoop l _ 9998 1 x)) _ t) _
  generalize WCurve.orderLoop l _ 9998 1 x = o at r4 ⊢
  generalize orderLoopM l q Q _ _ 9998 1 _ = o' at r4 ⊢
  rcases o with ⟨e1, x1⟩ | _ | _ | _ <;> rcases o' with ⟨e2, m4⟩ | _ | _ | _ <;> simp only at r4 ⊢
  · obtain ⟨rfl, σ4, a4, p4, k4⟩ := r4
    refine ⟨rfl, rfl, a4.holds.effect a4.frame [(1, x.X), (2, x.Z), (3, x1.X), (4, x1.Z)] [0] rfl rfl ?_ ?_⟩
    · simp only [List.forall_mem_cons]
      rw [← p4, ← p2]
      exact ⟨k4 1 (by decide), k4 2 (by decide), rfl, rfl, by simp⟩
    · simp only [List.forall_mem_cons]
      exact ⟨(k4 0 (by decide)).trans ((k2 0 (by decide) (by decide)).trans v0), by simp⟩
  · trivial

end

end Secuer.CMem
