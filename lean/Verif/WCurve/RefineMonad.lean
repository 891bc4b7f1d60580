import Verif.WCurve.RefineAlgo

/-!
# The randomised algorithms on words refine those over the field
-/

namespace Secuer.WCurve

open Secuer.Word Secuer.Field Secuer.Scalar
open Secuer.Curve (Pt Crv Iso Out M Tape Chain stratRows)

variable {l : Level} [Arith] [ArithOK (tables l) l.p] [RandOK (tables l) l.p] [FpEq] [FpEqOK (tables l) l.p]

local notation "T" => tables l

variable {x y : F2} {u v : l.F} {P Q : Pt F2} {P' Q' : Pt l.F} {E : Crv F2} {E' : Crv l.F}

/-- The field elements that the bytes on the tape stand for -/
def fieldTape (l : Level) (t : Tape Draw) : Tape l.F :=
  ⟨t.pts.map (fun d => f2Val (tables l) l.p (candidate l d)), t.hide, t.scal⟩

/-- Every draw of a field element fills `2 * NWORDS_FIELD` words (`poik.c:108-113`). -/
def TapeLen (l : Level) (t : Tape Draw) : Prop :=
  ∀ d ∈ t.pts, d.1.length = 8 * (tables l).n ∧ d.2.length = 8 * (tables l).n

theorem candidate_v {d : Draw} (h1 : d.1.length = 8 * (tables l).n) (h2 : d.2.length = 8 * (tables l).n) :
    V l 2 (candidate l d) (f2Val T l.p (candidate l d)) := by
  exact ⟨⟨RandOK.rand _ h1, RandOK.rand _ h2⟩, rfl⟩

/-- Related results of related computations, with related tapes left -/
def Ref (l : Level) (R : α → β → Prop) (m : M Draw α) (m' : M l.F β) : Prop :=
  ∀ t, TapeLen l t → OR (fun a b => R a.1 b.1 ∧ TapeLen l a.2 ∧ b.2 = fieldTape l a.2) (m t) (m' (fieldTape l t))

omit [Arith] [ArithOK (tables l) l.p] [RandOK (tables l) l.p] [FpEq] [FpEqOK (tables l) l.p] in
/-- What a tape stands for depends on the build only through `fprand`. -/
theorem fieldTape_congr (i j : Arith) (h : i.rand = j.rand) : @fieldTape i l = @fieldTape j l := by
  funext t
  unfold fieldTape candidate
  rw [h]

omit [Arith] [ArithOK (tables l) l.p] [RandOK (tables l) l.p] [FpEq] [FpEqOK (tables l) l.p] in
theorem Ref.congr {i j : Arith} (h : i.rand = j.rand) {R : α → β → Prop} {m : M Draw α} {m' : M l.F β}
    (r : @Ref i α β l R m m') : @Ref j α β l R m m' := by
  unfold Ref at r ⊢
  rw [fieldTape_congr i j h] at r
  exact r

theorem Ref.pure {R : α → β → Prop} {a : α} {b : β} (h : R a b) : Ref l R (Pure.pure a : M Draw α) (Pure.pure b) :=
  fun _ ht => .ok ⟨h, ht, rfl⟩

theorem Ref.abort {R : α → β → Prop} : Ref l R (M.abort : M Draw α) M.abort := fun _ _ => .abort

theorem Ref.ub {R : α → β → Prop} : Ref l R (M.ub : M Draw α) M.ub := fun _ _ => .ub

theorem Ref.starved {R : α → β → Prop} : Ref l R (M.starved : M Draw α) M.starved := fun _ _ => .starved

theorem Ref.bind {R : α → β → Prop} {S : γ → δ → Prop} {m : M Draw α} {m' : M l.F β} {k : α → M Draw γ} {k' : β → M l.F δ}
    (h : Ref l R m m') (hk : ∀ a b, R a b → Ref l S (k a) (k' b)) : Ref l S (m >>= k) (m' >>= k') := by
  intro t ht
  have h1 := h t ht
  show OR _ (M.bind m k t) (M.bind m' k' (fieldTape l t))
  unfold M.bind
  generalize m t = o at h1 ⊢
  generalize m' (fieldTape l t) = o' at h1 ⊢
  cases h1 with
  | abort => exact .abort
  | ub => exact .ub
  | starved => exact .starved
  | ok h =>
    rename_i r s
    obtain ⟨a, t1⟩ := r
    obtain ⟨b, t2⟩ := s
    obtain ⟨h1, h2, h3⟩ := h
    dsimp only at h1 h2 h3 ⊢
    rw [h3]
    exact hk a b h1 t1 h2

theorem Ref.lift {R : α → β → Prop} {o : Out α} {o' : Out β} (h : OR R o o') : Ref l R (M.lift o) (M.lift o') := by
  cases h with
  | abort => exact .abort
  | ub => exact .ub
  | starved => exact .starved
  | ok h => exact Ref.pure h

theorem Ref.mono {R S : α → β → Prop} {m : M Draw α} {m' : M l.F β} (h : Ref l R m m') (hRS : ∀ a b, R a b → S a b) :
    Ref l S m m' := by
  intro t ht
  have h1 := h t ht
  generalize m t = o at h1 ⊢
  generalize m' (fieldTape l t) = o' at h1 ⊢
  cases h1 with
  | abort => exact .abort
  | ub => exact .ub
  | starved => exact .starved
  | ok h => exact .ok ⟨hRS _ _ h.1, h.2⟩

theorem Ref.ite {R : α → β → Prop} {c c' : Prop} [Decidable c] [Decidable c'] {m1 m2 : M Draw α} {m1' m2' : M l.F β} (hc : c ↔ c')
    (h1 : c' → Ref l R m1 m1') (h2 : ¬ c' → Ref l R m2 m2') : Ref l R (if c then m1 else m2) (if c' then m1' else m2') := by
  by_cases h : c'
  · rw [if_pos h, if_pos (hc.2 h)]
    exact h1 h
  · rw [if_neg h, if_neg (fun h' => h (hc.1 h'))]
    exact h2 h

/-! ### Random points -/

theorem rhsOf_ref {A : F2} {A' : l.F} (hA : V l 2 A A') (hx : V l 2 x u) : V l 2 (rhsOf l A x) (Curve.rhsOf A' u) := by
  have h1 := (hA.add hx).mul hx
  have h2 : V l 2 ⟨fpadd T (fp2mul T (fp2add T A x) x).c0 (tables l).one, (fp2mul T (fp2add T A x) x).c1⟩ ((A' + u) * u + 1) := by
    obtain ⟨r, e⟩ := fpadd_spec (good l) h1.rng.c0 one_rng.1 (by omega)
    refine ⟨⟨r, h1.rng.c1⟩, ?_⟩
    have hv := h1.val
    have e0 : fpVal T l.p (fp2mul T (fp2add T A x) x).c0 = ((A' + u) * u).re := by rw [← hv]; rfl
    have e1 : fpVal T l.p (fp2mul T (fp2add T A x) x).c1 = ((A' + u) * u).im := by rw [← hv]; rfl
    refine QuadraticAlgebra.ext (e.trans (by rw [e0, one_rng.2]; rfl)) (e1.trans ?_)
    show _ = ((A' + u) * u).im + 0
    rw [add_zero]
  exact h2.mul hx

theorem randomPointAux_ref {A : F2} {A' : l.F} (hA : V l 2 A A') : ∀ ds : List Draw,
    (∀ d ∈ ds, d.1.length = 8 * (tables l).n ∧ d.2.length = 8 * (tables l).n) →
    Option.Rel (fun a b => V l 2 a.1 b.1 ∧ (∀ d ∈ a.2, d.1.length = 8 * (tables l).n ∧ d.2.length = 8 * (tables l).n) ∧
      b.2 = a.2.map (fun d => f2Val T l.p (candidate l d)))
      (randomPointAux l A ds) (Curve.randomPointAux l.env A' (ds.map (fun d => f2Val T l.p (candidate l d))))
  | [], _ => .none
  | d :: ds, h => by
    have hd := h d (List.mem_cons_self)
    have hx := candidate_v hd.1 hd.2
    have hs := sqrt_bool (rhsOf_ref hA hx)
    rw [List.map_cons, randomPointAux, Curve.randomPointAux]
    have hds := fun e he => h e (List.mem_cons_of_mem _ he)
    by_cases hc : (fp2sqrt T l.chain l.iso.e2 l.iso.e3 false (rhsOf l A (candidate l d))).2 = true
    · rw [if_pos hc, if_pos (hs.1 hc)]
      exact .some ⟨hx, hds, rfl⟩
    · rw [if_neg hc, if_neg (fun h' => hc (hs.2 h'))]
      exact randomPointAux_ref hA ds hds

theorem randomPoint_ref {A : F2} {A' : l.F} (hA : V l 2 A A') : Ref l (VP l) (randomPoint l A) (Curve.randomPoint l.env A') := by
  intro t ht
  have h := randomPointAux_ref hA t.pts ht
  rw [randomPoint, Curve.randomPoint]
  rw [show (fieldTape l t).pts = t.pts.map (fun d => f2Val T l.p (candidate l d)) from rfl]
  generalize randomPointAux l A t.pts = o at h ⊢
  generalize Curve.randomPointAux l.env A' (t.pts.map (fun d => f2Val T l.p (candidate l d))) = o' at h ⊢
  cases h with
  | none => exact .starved
  | some h =>
    refine .ok ⟨⟨h.1, one_v⟩, h.2.1, ?_⟩
    dsimp only
    rw [h.2.2]
    rfl

theorem randomPointCof_ref {A : F2} {A' : l.F} (hA : V l 2 A A') {cof : Pt F2 → Pt F2} {cof' : Pt l.F → Pt l.F} (q : ℕ)
    (hc : ∀ P P', VP l P P' → VP l (cof P) (cof' P')) : ∀ n, Ref l (VP l) (randomPointCof l A cof n) (Curve.randomPointCof l.env A' q cof' n)
  | 0 => Ref.abort
  | n + 1 => by
    rw [randomPointCof, Curve.randomPointCof]
    refine (randomPoint_ref hA).bind fun P P' hP => ?_
    exact Ref.ite (iszero_ref (hc P P' hP).Z) (fun _ => randomPointCof_ref hA q hc n) (fun _ => Ref.pure (hc P P' hP))

theorem orderLoop_ref {mul : Pt F2 → Pt F2} {mul' : Pt l.F → Pt l.F} (hm : ∀ P P', VP l P P' → VP l (mul P) (mul' P')) :
    ∀ (n e : ℕ) {Q : Pt F2} {Q' : Pt l.F}, VP l Q Q' →
    OR (fun a b => a.1 = b.1 ∧ VP l a.2 b.2) (orderLoop l mul n e Q) (Curve.orderLoop mul' n e Q')
  | 0, _, _, _, _ => .abort
  | n + 1, e, Q, Q', hQ => by
    rw [orderLoop, Curve.orderLoop]
    have h := iszero_ref (hm _ _ hQ).Z
    by_cases hc : (mul' Q').Z = 0
    · rw [if_pos hc, if_pos (h.2 hc)]
      exact .ok ⟨rfl, hQ⟩
    · rw [if_neg hc, if_neg (fun h' => hc (h.1 h'))]
      exact orderLoop_ref hm n (e + 1) (hm _ _ hQ)

theorem randomPointWithOrder_ref {A : F2} {A' : l.F} (hA : V l 2 A A') (q : ℕ) :
    Ref l (fun a b => VP l a.1 b.1 ∧ a.2.1 = b.2.1 ∧ VP l a.2.2 b.2.2) (randomPointWithOrder l A q)
      (Curve.randomPointWithOrder l.env A' q) := by
  have one := one_v (l := l)
  have two := one.add one
  have four := two.add two
  have ap := hA.add two
  have am := hA.sub two
  rw [randomPointWithOrder, Curve.randomPointWithOrder]
  refine (randomPointCof_ref hA q ?_ 9998).bind fun P P' hP => ?_
  · intro P P' hP
    by_cases hq : q = 2
    · rw [if_pos hq, if_pos hq]
      exact xTPLe_ref am ap _ hP
    · rw [if_neg hq, if_neg hq]
      exact xDBLe_ref (ap.mono (by norm_num)) (four.mono (by norm_num)) _ hP
  · refine (Ref.lift (orderLoop_ref ?_ 9998 1 hP)).bind fun a b hab => Ref.pure ⟨hP, hab.1, hab.2⟩
    intro P P' hP
    by_cases hq : q = 2
    · rw [if_pos hq, if_pos hq]
      exact xDBL_ref hP (ap.mono (by norm_num)) (four.mono (by norm_num))
    · rw [if_neg hq, if_neg hq]
      exact xTPL_ref hP am ap

/-- Points to avoid that no other point can tell apart -/
def Avoid (l : Level) (a : Option (Pt F2)) (a' : Option (Pt l.F)) : Prop :=
  ∀ Q Q', VP l Q Q' → (a.any (fun a => pointEqual l Q a ≠ 0)) = a'.any (fun a => Curve.pointEqual Q' a)

theorem avoid_none : Avoid l none none := fun _ _ _ => rfl

theorem avoid_some (hP : VP l P P') : Avoid l (some P) (some P') := by
  intro Q Q' hQ
  have h := pointEqual_ref hQ hP
  show decide _ = Curve.pointEqual Q' P'
  by_cases hc : Curve.pointEqual Q' P' = true
  · rw [hc, decide_eq_true_iff]
    exact h.2 hc
  · rw [Bool.eq_false_of_not_eq_true hc, decide_eq_false_iff_not]
    exact fun h' => hc (h.1 h')

theorem avoid_rel {a : Option (Pt F2)} {a' : Option (Pt l.F)} (h : Option.Rel (VP l) a a') : Avoid l a a' := by
  cases h with
  | none => exact avoid_none
  | some h => exact avoid_some h

theorem randomPointABLoop_ref {A : F2} {A' : l.F} (hA : V l 2 A A') (q emax : ℕ) {a : Option (Pt F2)} {a' : Option (Pt l.F)}
    (ha : Avoid l a a') : ∀ n, Ref l (VP l) (randomPointABLoop l A q emax a n) (Curve.randomPointABLoop l.env A' q emax a' n)
  | 0 => Ref.abort
  | n + 1 => by
    rw [randomPointABLoop, Curve.randomPointABLoop]
    refine (randomPointWithOrder_ref hA q).bind fun r r' hr => ?_
    obtain ⟨P, e, Q⟩ := r
    obtain ⟨P', e', Q'⟩ := r'
    obtain ⟨h1, h2, h3⟩ := hr
    dsimp only at h1 h2 h3 ⊢
    subst h2
    refine Ref.ite Iff.rfl (fun _ => randomPointABLoop_ref hA q emax ha n) fun _ => ?_
    rw [ha Q Q' h3]
    exact Ref.ite Iff.rfl (fun _ => randomPointABLoop_ref hA q emax ha n) fun _ => Ref.pure h1

theorem VC.div (h : VC l E E') : V l 2 (div l E.A E.C) (Curve.fp2div E'.A E'.C) :=
  (h.A.wide.mono (by norm_num)).divN h.C

theorem randomPointAB_ref (hE : VC l E E') (q : ℕ) {a : Option (Pt F2)} {a' : Option (Pt l.F)} (ha : Avoid l a a') :
    Ref l (VP l) (randomPointAB l E q a) (Curve.randomPointAB l.env E' q a') :=
  randomPointABLoop_ref hE.div q _ ha 9999

theorem backLoop_ref {A : F2} {A' : l.F} (hA : V l 2 A A') {R : Pt F2} {R' : Pt l.F} (hR : VP l R R') : ∀ n,
    Ref l (VP l) (backLoop l A R n) (Curve.backLoop l.env A' R' n)
  | 0 => Ref.starved
  | n + 1 => by
    rw [backLoop, Curve.backLoop]
    refine (randomPointWithOrder_ref hA 3).bind fun r r' hr => ?_
    exact Ref.ite (pointEqual_ref hr.2.2 hR) (fun _ => backLoop_ref hA hR n) fun _ => Ref.pure hr.2.2

/-- What `Isogeny_B` returns -/
abbrev RB (l : Level) : Option (Crv F2 × Option (Pt F2) × Option (Pt F2)) → Option (Crv l.F × Option (Pt l.F) × Option (Pt l.F)) → Prop :=
  Option.Rel fun a b => VC l a.1 b.1 ∧ Option.Rel (VP l) a.2.1 b.2.1 ∧ Option.Rel (VP l) a.2.2 b.2.2

theorem isogenyB_ref {K : Pt F2} {K' : Pt l.F} {Q : Option (Pt F2)} {Q' : Option (Pt l.F)} (want : Bool)
    (hE : VC l E E') (hK : VP l K K') (hQ : Option.Rel (VP l) Q Q') :
    Ref l (RB l) (isogenyB l want E K Q) (Curve.isogenyB l.env want E' K' Q') := by
  obtain ⟨a, b, -⟩ := acToAac24_ref hE
  have hT := xTPLe_ref b a (l.iso.e3 - 1) hK
  have hO := xTPL_ref hT b a
  rw [isogenyB, Curve.isogenyB]
  rw [env_e3, env_maxB, env_ptsB, env_stratB]
  dsimp only
  refine Ref.ite (bad_ref hT.Z hO.Z) (fun _ => Ref.pure .none) fun _ => ?_
  have hs := stratRows_ref opsB_ref l.iso.ptsB (l.iso.maxB - 1) (s := ⟨((acToAac24 l E).2.1, (acToAac24 l E).1), K, Q, [], 0, l.iso.stratB⟩)
      (s' := ⟨((Curve.acToAac24 E').2.1, (Curve.acToAac24 E').1), K', Q', [], 0, l.iso.stratB⟩) ⟨⟨b, a⟩, hK, hQ, .nil, rfl, rfl⟩
  generalize stratRows (opsB l) l.iso.ptsB (l.iso.maxB - 1) ⟨((acToAac24 l E).2.1, (acToAac24 l E).1), K, Q, [], 0, l.iso.stratB⟩ = o at hs ⊢
  generalize stratRows Curve.opsB l.iso.ptsB (l.iso.maxB - 1)
    ⟨((Curve.acToAac24 E').2.1, (Curve.acToAac24 E').1), K', Q', [], 0, l.iso.stratB⟩ = o' at hs ⊢
  cases hs with
  | none => exact Ref.ub
  | some hs =>
    have hg := get3isog_ref hs.R
    have hc := opsB_ref.get2 hs.R
    have fin : ∀ {b : Option (Pt F2)} {b' : Option (Pt l.F)}, Option.Rel (VP l) b b' → Option.Rel (VP l) (b.map _) (b'.map _) :=
      fun hb => optMap_ref (fun _ _ h => opsB_ref.eval hc h) hb
    dsimp only
    refine Ref.ite Iff.rfl (fun _ => ?_) fun _ => ?_
    · refine Ref.bind (R := Option.Rel (VP l)) ?_ fun back back' hb => ?_
      · intro t ht
        have h := (backLoop_ref (aa24ToAc_ref hs.cv.1 hs.cv.2).2.div hs.R (t.pts.length + 1)).bind
          (S := Option.Rel (VP l)) (fun b b' hb => Ref.pure (.some hb)) t ht
        have e : (fieldTape l t).pts.length = t.pts.length := by rw [fieldTape, List.length_map]
        beta_reduce
        rw [e]
        exact h
      · exact Ref.pure (.some ⟨(aa24ToAc_ref hg.1 hg.2.1).2, fin hs.Q, fin hb⟩)
    · refine (Ref.pure (R := Option.Rel (VP l)) .none).bind fun back back' hb => ?_
      exact Ref.pure (.some ⟨(aa24ToAc_ref hg.1 hg.2.1).2, fin hs.Q, fin hb⟩)

/-! ### The curve check -/

theorem valLoop_ref {mul : Pt F2 → Pt F2} {mul' : Pt l.F → Pt l.F} (hm : ∀ P P', VP l P P' → VP l (mul P) (mul' P')) :
    ∀ (n h : ℕ) {A Q : Pt F2} {A' Q' : Pt l.F}, (h ≠ 0 → VP l A A') → VP l Q Q' →
    (valLoop l mul n h A Q).1 = (Curve.valLoop mul' n h A' Q').1 ∧
      ((Curve.valLoop mul' n h A' Q').1 ≠ 0 → VP l (valLoop l mul n h A Q).2.1 (Curve.valLoop mul' n h A' Q').2.1) ∧
      VP l (valLoop l mul n h A Q).2.2 (Curve.valLoop mul' n h A' Q').2.2
  | 0, h, A, Q, A', Q', hA, hQ => ⟨rfl, hA, hQ⟩
  | n + 1, h, A, Q, A', Q', hA, hQ => by
    rw [valLoop, Curve.valLoop]
    have hz := iszero_ref hQ.Z
    by_cases hc : Q'.Z = 0
    · rw [if_pos hc, if_pos (hz.2 hc)]
      exact ⟨rfl, hA, hQ⟩
    · rw [if_neg hc, if_neg (fun h' => hc (hz.1 h'))]
      exact valLoop_ref hm n (h + 1) (fun _ => hQ) (hm _ _ hQ)

theorem ord_ref {S M0 : Pt F2} {S' M0' : Pt l.F} {h m : ℕ} (hM : VP l M0 M0') (hS : h ≠ 0 → VP l S S') :
    (if pointEqual l S M0 ≠ 0 then m else m + h) = if Curve.pointEqual S' M0' = true then m else m + h := by
  by_cases h0 : h = 0
  · subst h0
    simp
  · have h1 := pointEqual_ref (hS h0) hM
    by_cases hc : Curve.pointEqual S' M0' = true
    · rw [if_pos hc, if_pos (h1.2 hc)]
    · rw [if_neg hc, if_neg (fun h' => hc (h1.1 h'))]

theorem checkCurveLoop_ref (junk : ℕ → Pt F2 × Pt F2) (junk' : ℕ → Pt l.F × Pt l.F) {A a b c : F2} {A' a' b' c' : l.F}
    (hA : V l 2 A A') (ha : V l 2 a a') (hb : V l 2 b b') (hc : V l 2 c c') : ∀ (n : ℕ) {m2 m3 : Pt F2 × ℕ} {m2' m3' : Pt l.F × ℕ},
    VP l m2.1 m2'.1 → m2.2 = m2'.2 → VP l m3.1 m3'.1 → m3.2 = m3'.2 →
    Ref l (· = ·) (checkCurveLoop l junk A a b c n m2 m3) (Curve.checkCurveLoop l.env l.po junk' A' a' b' c' n m2' m3')
  | 0, _, _, _, _, _, _, _, _ => Ref.abort
  | n + 1, m2, m3, m2', m3', h1, h2, h3, h4 => by
    rw [checkCurveLoop, Curve.checkCurveLoop]
    have ha4 := ha.mono (show 2 ≤ 4 by norm_num)
    have hc4 := hc.mono (show 2 ≤ 4 by norm_num)
    refine (randomPoint_ref hA).bind fun P P' hP => ?_
    have hQ := xTPLe_ref hb ha l.iso.e3 hP
    obtain ⟨v1, v2, v3⟩ := valLoop_ref (mul := fun Q => xDBL l Q a c) (mul' := fun Q => Curve.xDBL Q a' c')
      (fun _ _ h => xDBL_ref h ha4 hc4) l.iso.e2 0 (A := (junk n).1) (A' := (junk' n).1) (fun h => absurd rfl h) hQ
    rw [env_e2, env_e3]
    dsimp only
    generalize valLoop l (fun Q => xDBL l Q a c) l.iso.e2 0 (junk n).1 (xTPLe l P b a l.iso.e3) = r at v1 v2 v3 ⊢
    generalize Curve.valLoop (fun Q => Curve.xDBL Q a' c') l.iso.e2 0 (junk' n).1 (Curve.xTPLe P' b' a' l.iso.e3) = r' at v1 v2 v3 ⊢
    obtain ⟨e2, S2, R2⟩ := r
    obtain ⟨e2', S2', R2'⟩ := r'
    dsimp only at v1 v2 v3 ⊢
    subst v1
    refine Ref.ite (not_iff_not.1 ((iszero_ref v3.Z).trans not_not.symm)) (fun _ => Ref.pure rfl) fun _ => ?_
    rw [ord_ref h1 v2, h2, h4]
    refine Ref.ite Iff.rfl (fun _ => Ref.pure rfl) fun _ => ?_
    obtain ⟨w1, w2, w3⟩ := valLoop_ref (mul := fun Q => xTPL l Q b a) (mul' := fun Q => Curve.xTPL Q b' a')
      (fun _ _ h => xTPL_ref h hb ha) l.iso.e3 0 (A := (junk n).2) (A' := (junk' n).2) (fun h => absurd rfl h)
      (xDBLe_ref ha4 hc4 e2 hP)
    generalize valLoop l (fun Q => xTPL l Q b a) l.iso.e3 0 (junk n).2 (xDBLe l P a c e2) = r at w1 w2 w3 ⊢
    generalize Curve.valLoop (fun Q => Curve.xTPL Q b' a') l.iso.e3 0 (junk' n).2 (Curve.xDBLe P' a' c' e2) = r' at w1 w2 w3 ⊢
    obtain ⟨e3, S3, R3⟩ := r
    obtain ⟨e3', S3', R3'⟩ := r'
    dsimp only at w1 w2 w3 ⊢
    subst w1
    refine Ref.ite (not_iff_not.1 ((iszero_ref w3.Z).trans not_not.symm)) (fun _ => Ref.pure rfl) fun _ => ?_
    rw [ord_ref h3 w2]
    refine Ref.ite Iff.rfl (fun _ => Ref.pure rfl) fun _ => ?_
    have key : ∀ {e : ℕ} {S : Pt F2} {S' : Pt l.F} {m : Pt F2 × ℕ} {m' : Pt l.F × ℕ}, VP l m.1 m'.1 → m.2 = m'.2 → (e ≠ 0 → VP l S S') →
        VP l (if e > m'.2 then (S, e) else m).1 (if e > m'.2 then (S', e) else m').1 ∧
          (if e > m'.2 then (S, e) else m).2 = (if e > m'.2 then (S', e) else m').2 := by
      intro e S S' m m' hm hm' hS
      by_cases hg : e > m'.2
      · rw [if_pos hg, if_pos hg]
        exact ⟨hS (by omega), rfl⟩
      · rw [if_neg hg, if_neg hg]
        exact ⟨hm, hm'⟩
    have k2 := key h1 h2 v2
    have k3 := key h3 h4 w2
    exact checkCurveLoop_ref junk junk' hA ha hb hc n k2.1 k2.2 k3.1 k3.2

theorem checkCurve_ref (junk : ℕ → Pt F2 × Pt F2) (junk' : ℕ → Pt l.F × Pt l.F) (hE : VC l E E') (hA : V l 2 E.A E'.A) :
    Ref l (· = ·) (checkCurve l junk E) (Curve.checkCurve l.env l.po junk' E') := by
  obtain ⟨a, b, c⟩ := acToAac24_ref hE
  exact checkCurveLoop_ref junk junk' hA a b c 9999 ⟨zero_v, zero_v⟩ rfl ⟨zero_v, zero_v⟩ rfl

end Secuer.WCurve
