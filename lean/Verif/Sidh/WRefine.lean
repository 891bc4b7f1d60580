import Verif.Sidh.WModel
import Verif.WCurve.RefineAlgo
import Verif.WProtocol.Refine

/-!
# The key exchange on words refines the key exchange over the field

The constants of the curve are wider here than in the proof tools: `sidh.c` computes them without reduction.
-/

namespace Secuer.WSidh

open Secuer.Word Secuer.Field Secuer.Text Secuer.WCurve Secuer.Scalar
open Secuer.Curve (Pt StratOps StratState stratInner)
open Secuer.Sidh (Three keyRows aGen bGen obobBits skABytes skBBytes)
open Secuer.Protocol (params flat)

variable {l : Level} [Arith] [ok : ArithOK (tables l) l.p]

local notation "T" => tables l

variable {x y : F2} {u v : l.F} {B C D : ℕ} {P Q : Pt F2} {P' Q' : Pt l.F} {a b : F2} {a' b' : l.F}

/-! ### Field functions beyond their documented ranges -/

omit ok [Arith] in
theorem fpdiv2_wide {a : List Digit} (ha : Rng T (B * l.p) a) (h1 : 1 ≤ B) (h2 : B ≤ 100) :
    Rng T (B * l.p) (fpdiv2 T a) ∧ fpVal T l.p (fpdiv2 T a) = fpVal T l.p a / 2 := by
  have g := good l
  have h := ha.lt
  have hB := Nat.mul_le_mul_right l.p h2
  have hB1 := Nat.mul_le_mul_right l.p h1
  have := g.room
  have := g.pos
  have := g.odd
  obtain ⟨hl, hv⟩ := fpdiv2_val g ha.len (by omega)
  refine ⟨⟨hl, by rw [hv]; split <;> omega⟩, ?_⟩
  rw [eq_div_iff (two_ne g)]
  unfold fpVal
  rw [mul_right_comm, hv]
  congr 1
  have key : (if val a % 2 = 1 then (val a + l.p) / 2 else val a / 2) * 2 = if val a % 2 = 1 then val a + l.p else val a := by
    split <;> omega
  have := congrArg (Nat.cast : ℕ → ZMod l.p) key
  rw [Nat.cast_mul] at this
  have e2 : ((2 : ℕ) : ZMod l.p) = 2 := by norm_num
  rw [e2] at this
  rw [this]
  split
  · rw [Nat.cast_add, cast_p, add_zero]
  · rfl

omit ok [Arith] in
theorem div2_wide (hx : V l B x u) (h1 : 1 ≤ B := by norm_num) (h2 : B ≤ 100 := by norm_num) :
    V l B (fp2div2 T x) (u / 2) := by
  obtain ⟨r0, v0⟩ := fpdiv2_wide hx.rng.c0 h1 h2
  obtain ⟨r1, v1⟩ := fpdiv2_wide hx.rng.c1 h1 h2
  refine ⟨⟨r0, r1⟩, ?_⟩
  rw [← hx.val, eq_div_iff fp2_two_ne_zero]
  have h2 := two_ne (good l)
  ext
  · rw [mul_comm, two_mul, QuadraticAlgebra.re_add]
    show fpVal T l.p (fpdiv2 T x.c0) + fpVal T l.p (fpdiv2 T x.c0) = fpVal T l.p x.c0
    rw [v0]
    field_simp
    ring
  · rw [mul_comm, two_mul, QuadraticAlgebra.im_add]
    show fpVal T l.p (fpdiv2 T x.c1) + fpVal T l.p (fpdiv2 T x.c1) = fpVal T l.p x.c1
    rw [v1]
    field_simp
    ring

omit ok [Arith] in
theorem one_v1 : V l 1 (fp2one T) 1 := by
  have g := good l
  have := g.pos
  refine ⟨⟨⟨g.len_one, ?_⟩, rng_zero g (by omega)⟩, (one_v (l := l)).val⟩
  show val (tables l).one < 1 * l.p
  rw [g.val_one]
  have := Nat.mod_lt (2 ^ (64 * (tables l).n)) (by omega : l.p > 0)
  omega

omit ok [Arith] in
/-- `mp_add` on real parts -/
theorem mpAdd_re {x y : List Digit} (hx : V l B ⟨x, List.replicate (tables l).n 0⟩ u)
    (hy : V l C ⟨y, List.replicate (tables l).n 0⟩ v) (h : B + C ≤ 256 := by norm_num) :
    V l (B + C) ⟨(mpAdd x y).2, List.replicate (tables l).n 0⟩ (u + v) := by
  have h' := Nat.mul_le_mul_right l.p h
  rw [Nat.add_mul] at h'
  have g := good l
  have h1 := hx.rng.c0.lt
  have h2 := hy.rng.c0.lt
  simp only at h1 h2
  have := g.room
  obtain ⟨hl, hv⟩ := add0_exact hx.rng.c0.len hy.rng.c0.len (by simp only; omega)
  simp only at hv hl
  refine ⟨⟨⟨hl, ?_⟩, hx.rng.c1.mono (by rw [Nat.add_mul]; omega)⟩, ?_⟩
  · show val (addLoop 0 x y).2 < _
    rw [hv, Nat.add_mul]
    omega
  · rw [← hx.val, ← hy.val]
    refine QuadraticAlgebra.ext ?_ ?_
    · show fpVal T l.p (addLoop 0 x y).2 = fpVal T l.p x + fpVal T l.p y
      unfold fpVal
      rw [← add_mul, hv, Nat.cast_add]
    · show fpVal T l.p _ = fpVal T l.p _ + fpVal T l.p _
      rw [fpVal_zero, add_zero]

/-- The end of `EphemeralSecretAgreement_A`: the operand of `fp2sub` is beyond its documented range, but squares are small enough. -/
theorem endA_ref (ha : V l 2 a a') (hb : V l 2 b b') (ht : 4 * val a.c0 < 5 * l.p ∧ 4 * val a.c1 < 5 * l.p) :
    V l 3 (fp2add T (fp2sub T (mp2add a a) b) (fp2sub T (mp2add a a) b)) (a' + a' - b' + (a' + a' - b')) := by
  have g := good l
  have hp := pos l
  have s := ha.madd ha
  obtain ⟨e0, e1⟩ := ha.madd_val ha
  have r0 : Rng T ((5 * l.p + 1) / 2) (mp2add a a).c0 := ⟨s.rng.c0.len, by omega⟩
  have r1 : Rng T ((5 * l.p + 1) / 2) (mp2add a a).c1 := ⟨s.rng.c1.len, by omega⟩
  obtain ⟨q0, w0⟩ := fpsub_wide (D := (5 * l.p + 1) / 2) g r0 (hb.rng.c0.mono (by omega)) (by omega) (by omega)
  obtain ⟨q1, w1⟩ := fpsub_wide (D := (5 * l.p + 1) / 2) g r1 (hb.rng.c1.mono (by omega)) (by omega) (by omega)
  obtain ⟨t0, z0⟩ := fpadd_wide (D := 3 * l.p) g q0 q0 (by omega) (by omega) (by omega)
  obtain ⟨t1, z1⟩ := fpadd_wide (D := 3 * l.p) g q1 q1 (by omega) (by omega) (by omega)
  refine ⟨⟨t0, t1⟩, ?_⟩
  have hs : f2Val T l.p (fp2sub T (mp2add a a) b) = a' + a' - b' := by
    rw [← s.val, ← hb.val]
    exact QuadraticAlgebra.ext w0 w1
  rw [← hs]
  exact QuadraticAlgebra.ext z0 z1

/-! ### Formulas -/

theorem xDBL_wide (hP : VP l P P') (ha : V l 8 a a') (hb : V l 8 b b') : VP l (xDBL l P a b) (Curve.xDBL P' a' b') := by
  have t0 := (hP.X.msub hP.Z).sqr
  have t1 := (hP.X.madd hP.Z).sqr
  have QZ := hb.mul t0
  have t2 := t1.msub t0
  exact ⟨t1.mul QZ, (QZ.madd (ha.mul t2)).mul t2⟩

theorem xDBLe_wide (ha : V l 8 a a') (hb : V l 8 b b') : ∀ (e : ℕ) {P : Pt F2} {P' : Pt l.F}, VP l P P' →
    VP l (xDBLe l P a b e) (Curve.xDBLe P' a' b' e)
  | 0, _, _, h => h
  | e + 1, _, _, h => xDBLe_wide ha hb e (xDBL_wide h ha hb)

theorem xTPL_wide (hP : VP l P P') (ha : V l 8 a a') (hb : V l 8 b b') : VP l (xTPL l P a b) (Curve.xTPL P' a' b') := by
  have t2 := (hP.X.msub hP.Z).sqr
  have t3 := (hP.X.madd hP.Z).sqr
  have t4 := hP.X.madd hP.X
  have t0 := hP.Z.madd hP.Z
  have t1 := (t4.sqr.msub t3).msub t2
  have t5 := hb.mul t3
  have t6 := ha.mul t2
  have s3 := (t2.mul t6).msub (t3.mul t5)
  have s1 := t1.mul (t5.msub t6)
  exact ⟨t4.mul (s3.addW s1).sqr, t0.mul (s3.subW s1).sqr⟩

theorem xTPLe_wide (ha : V l 8 a a') (hb : V l 8 b b') : ∀ (e : ℕ) {P : Pt F2} {P' : Pt l.F}, VP l P P' →
    VP l (xTPLe l P a b e) (Curve.xTPLe P' a' b' e)
  | 0, _, _, h => h
  | e + 1, _, _, h => xTPLe_wide ha hb e (xTPL_wide h ha hb)

theorem xDBLADD_wide {x z c : F2} {x' z' c' : l.F} (hP : VP l P P') (hQ : VP l Q Q') (hx : V l 2 x x') (hz : V l 2 z z')
    (hc : V l 8 c c') : VP l (xDBLADD l P Q x z c).1 (Curve.xDBLADD P' Q' x' z' c').1 ∧
      VP l (xDBLADD l P Q x z c).2 (Curve.xDBLADD P' Q' x' z' c').2 := by
  have t0 := hP.X.madd hP.Z
  have t1 := hP.X.msub hP.Z
  have PX := t0.sqr
  have t2 := hQ.X.msub hQ.Z
  have QX := hQ.X.madd hQ.Z
  have s0 := t0.mul t2
  have PZ := t1.sqr
  have s1 := t1.mul QX
  have s2 := PX.msub PZ
  have QX := hc.mul s2
  have QZ := s0.msub s1
  exact ⟨⟨PX.mul PZ, (QX.madd PZ).mul s2⟩, ⟨(s0.madd s1).sqr.mul hz, QZ.sqr.mul hx⟩⟩

theorem inv3way_ref {z1 z2 z3 : F2} {w1 w2 w3 : l.F} (h1 : V l 2 z1 w1) (h2 : V l 2 z2 w2) (h3 : V l 2 z3 w3) :
    V l 2 (inv3way l z1 z2 z3).1 (Sidh.inv3way w1 w2 w3).1 ∧ V l 2 (inv3way l z1 z2 z3).2.1 (Sidh.inv3way w1 w2 w3).2.1 ∧
      V l 2 (inv3way l z1 z2 z3).2.2 (Sidh.inv3way w1 w2 w3).2.2 := by
  have t0 := h1.mul h2
  have t1 := (h3.mul t0).inv
  have t2 := h3.mul t1
  exact ⟨t2.mul h2, t2.mul h1, t0.mul t1⟩

theorem getA_ref {x1 x2 x3 : F2} {w1 w2 w3 : l.F} (h1 : V l 2 x1 w1) (h2 : V l 2 x2 w2) (h3 : V l 2 x3 w3) :
    V l 2 (getA l x1 x2 x3) (Sidh.getA w1 w2 w3) := by
  have t1 := h1.add h2
  have t0 := h1.mul h2
  have A := (t0.add (h3.mul t1)).sub one_v
  have s0 := t0.mul h3
  have s0 := s0.add s0
  have s0 := s0.add s0
  exact (A.sqr.mul s0.inv).sub (t1.add h3)

theorem xTPLfast_ref (hP : VP l P P') (ha : V l 2 a a') : VP l (xTPLfast l P a) (Sidh.xTPLfast P' a') := by
  have t1 := hP.X.sqr
  have t2 := hP.Z.sqr
  have t3 := t1.add t2
  have t4 := (hP.X.add hP.Z).sqr.sub t3
  have t4 := t3.add (ha.mul t4)
  have s3 := (t1.sub t2).sqr
  have s1 := t1.mul t4
  have s1 := s1.add s1
  have s1 := ((s1.add s1).sub s3).sqr
  have s2 := t2.mul t4
  have s2 := s2.add s2
  have s2 := ((s2.add s2).sub s3).sqr
  exact ⟨hP.X.mul s2, hP.Z.mul s1⟩

theorem xTPLeFast_ref (ha : V l 2 a a') : ∀ (e : ℕ) {P : Pt F2} {P' : Pt l.F}, VP l P P' →
    VP l (xTPLeFast l P a e) (Sidh.xTPLeFast P' a' e)
  | 0, _, _, h => h
  | e + 1, _, _, h => xTPLeFast_ref ha e (xTPLfast_ref h ha)

/-! ### Three-point ladder -/

theorem ladder3Loop_ref {m : List Digit} {A : F2} {A' : l.F} (hA : V l 8 A A') : ∀ (n i : ℕ) (prev : Bool)
    {R0 R2 R : Pt F2} {R0' R2' R' : Pt l.F}, i + n ≤ 64 * m.length → VP l R0 R0' → VP l R2 R2' → VP l R R' →
    ∃ S, ladder3Loop l m A n i (if prev then 1 else 0) R0 R2 R = some S ∧
      VP l S (Sidh.ladder3Loop A' (Sidh.bitsFrom (val m) i n) prev R0' R2' R')
  | 0, i, prev, R0, R2, R, R0', R2', R', _, h0, h2, h => by
    rw [ladder3Loop, swapPoints_ref h h2 prev]
    refine ⟨_, rfl, ?_⟩
    rw [Sidh.bitsFrom, Sidh.ladder3Loop]
    cases prev
    · exact h
    · exact h2
  | n + 1, i, prev, R0, R2, R, R0', R2', R', hi, h0, h2, h => by
    have hlt : i / 64 < m.length := by omega
    have hw : m[i / 64]? = some m[i / 64] := List.getElem?_eq_getElem hlt
    rw [ladder3Loop, hw]
    show ∃ S, ladder3Loop l m A n (i + 1) _ _ _ _ = some S ∧ _
    rw [ladder_bit hw]
    have hx : ((if (val m).testBit i then 1 else 0 : UInt) ^^^ (if prev then 1 else 0)) =
        if ((val m).testBit i != prev) then 1 else 0 := by
      cases (val m).testBit i <;> cases prev <;> rfl
    rw [hx, swapPoints_ref h h2, Sidh.bitsFrom, Sidh.ladder3Loop]
    have hs : VP l (if ((val m).testBit i != prev) = true then (R2, R) else (R, R2)).1
          (if ((val m).testBit i != prev) = true then (R2', R') else (R', R2')).1 ∧
        VP l (if ((val m).testBit i != prev) = true then (R2, R) else (R, R2)).2
          (if ((val m).testBit i != prev) = true then (R2', R') else (R', R2')).2 := by
      cases ((val m).testBit i != prev)
      · exact ⟨h, h2⟩
      · exact ⟨h2, h⟩
    obtain ⟨r0, r1⟩ := xDBLADD_wide h0 hs.2 hs.1.X hs.1.Z hA
    exact ladder3Loop_ref hA n (i + 1) _ (by omega) r0 r1 hs.1

theorem ladder3pt_ref {m : List Digit} {x1 x2 x3 A : F2} {w1 w2 w3 A' : l.F} (h1 : V l 2 x1 w1) (h2 : V l 2 x2 w2)
    (h3 : V l 2 x3 w3) (hA : V l 6 A A') {k : ℕ} (hk : k ≤ 64 * m.length) :
    ∃ S, ladder3pt l x1 x2 x3 m k A = some S ∧ VP l S (Sidh.ladder3pt w1 w2 w3 (val m) k A') :=
  ladder3Loop_ref (div2_wide (div2_wide (hA.madd (one_v1.madd one_v1)))) k 0 false (by omega) ⟨h2, one_v⟩ ⟨h3, one_v⟩
    ⟨h1, one_v⟩

/-! ### Strategies -/

section strategies

variable {Cv Co Cv' Co' : Type} {ops : StratOps F2 Cv Co} {ops' : StratOps l.F Cv' Co'} {RCv : Cv → Cv' → Prop}
  {RCo : Co → Co' → Prop}

theorem map_ref {f : Pt F2 → Pt F2} {f' : Pt l.F → Pt l.F} (h : ∀ {P P'}, VP l P P' → VP l (f P) (f' P')) {qs : List (Pt F2)}
    {qs' : List (Pt l.F)} (hq : VL (VP l) qs qs') : VL (VP l) (qs.map f) (qs'.map f') :=
  List.forall₂_map_left_iff.2 (List.forall₂_map_right_iff.2 (hq.imp fun _ _ => h))

theorem keyRows_ref (ho : OpsRel ops ops' RCv RCo) (maxPts : ℕ) : ∀ (n : ℕ) {s : StratState F2 Cv}
    {s' : StratState l.F Cv'} {qs : List (Pt F2)} {qs' : List (Pt l.F)}, StRel RCv s s' → VL (VP l) qs qs' →
    Option.Rel (fun r r' => StRel RCv r.1 r'.1 ∧ VL (VP l) r.2 r'.2) (keyRows ops maxPts n s qs) (keyRows ops' maxPts n s' qs')
  | 0, s, s', qs, qs', h, hq => .some ⟨h, hq⟩
  | n + 1, s, s', qs, qs', h, hq => by
    rw [keyRows, keyRows, h.stack.length_eq]
    have hi := stratInner_ref ho (n + 1) (maxPts - s'.stack.length) h
    generalize stratInner ops (n + 1) (maxPts - s'.stack.length) s = o at hi ⊢
    generalize stratInner ops' (n + 1) (maxPts - s'.stack.length) s' = o' at hi ⊢
    cases hi with
    | none => exact .none
    | some hs =>
      rename_i s1 s1'
      dsimp only
      have hm : VL (fun a b => VP l a.1 b.1 ∧ a.2 = b.2) (s1.stack.map (fun e => (ops.eval (ops.get s1.R).2 e.1, e.2)))
          (s1'.stack.map (fun e => (ops'.eval (ops'.get s1'.R).2 e.1, e.2))) := by
        refine List.forall₂_map_left_iff.2 (List.forall₂_map_right_iff.2 ?_)
        exact hs.stack.imp (fun a b hab => ⟨ho.eval (ho.get2 hs.R) hab.1, hab.2⟩)
      generalize s1.stack.map (fun e => (ops.eval (ops.get s1.R).2 e.1, e.2)) = st at hm ⊢
      generalize s1'.stack.map (fun e => (ops'.eval (ops'.get s1'.R).2 e.1, e.2)) = st' at hm ⊢
      cases hm with
      | nil => exact .none
      | cons h1 h2 =>
        exact keyRows_ref ho maxPts n ⟨ho.get1 hs.R, h1.1, hs.Q, h2, h1.2, hs.strat⟩
          (map_ref (fun hr => ho.eval (ho.get2 hs.R) hr) hq)

end strategies

theorem opsA_wide : OpsRel (l := l) (opsA l) Curve.opsA (fun c c' => V l 8 c.1 c'.1 ∧ V l 8 c.2 c'.2)
    (fun c c' => V l 8 c.1 c'.1 ∧ V l 4 c.2.1 c'.2.1 ∧ V l 4 c.2.2 c'.2.2) where
  mul m _ _ hc hP := xDBLe_wide hc.1 hc.2 (2 * m) hP
  get1 hP := ⟨(get4isog_ref hP).1.mono (by norm_num), (get4isog_ref hP).2.1.mono (by norm_num)⟩
  get2 hP := (get4isog_ref hP).2.2
  eval hc hP := eval4isog_ref hP hc.1 hc.2.1 hc.2.2

theorem opsB_wide : OpsRel (l := l) (opsB l) Curve.opsB (fun c c' => V l 8 c.1 c'.1 ∧ V l 8 c.2 c'.2)
    (fun c c' => V l 4 c.1 c'.1 ∧ V l 4 c.2 c'.2) where
  mul m _ _ hc hP := xTPLe_wide hc.1 hc.2 m hP
  get1 hP := ⟨(get3isog_ref hP).1.mono (by norm_num), (get3isog_ref hP).2.1.mono (by norm_num)⟩
  get2 hP := (get3isog_ref hP).2.2
  eval hc hP := eval3isog_ref hP hc.1 hc.2

/-- `get_4_isog` ends with squarings. -/
theorem get4isog_tight (hP : VP l P P') : 4 * val (get4isog l P).1.c0 < 5 * l.p ∧ 4 * val (get4isog l P).1.c1 < 5 * l.p :=
  (hP.X.sqr.madd hP.X.sqr).sqr_tight

/-- What follows the loop over the rows -/
def tail {F Cv Co : Type} (ops : StratOps F Cv Co) : Option (StratState F Cv × List (Pt F)) → Option (Cv × List (Pt F))
  | none => none
  | some (s, qs) => some ((ops.get s.R).1, qs.map (ops.eval (ops.get s.R).2))

theorem walkA_ref {R : Pt F2} {R' : Pt l.F} {qs : List (Pt F2)} {qs' : List (Pt l.F)} (ha : V l 8 a a') (hb : V l 8 b b')
    (hR : VP l R R') (hq : VL (VP l) qs qs') :
    Option.Rel (fun r r' => V l 2 r.1.1 r'.1.1 ∧ V l 2 r.1.2 r'.1.2 ∧ (4 * val r.1.1.c0 < 5 * l.p ∧ 4 * val r.1.1.c1 < 5 * l.p) ∧
      VL (VP l) r.2 r'.2) (walkA l a b R qs) (Sidh.walkA l.env a' b' R' qs') := by
  have key : ∀ {A C : F2} {A' C' : l.F} {R : Pt F2} {R' : Pt l.F} {qs : List (Pt F2)} {qs' : List (Pt l.F)},
      V l 8 A A' → V l 8 C C' → VP l R R' → VL (VP l) qs qs' →
      Option.Rel (fun r r' => V l 2 r.1.1 r'.1.1 ∧ V l 2 r.1.2 r'.1.2 ∧
          (4 * val r.1.1.c0 < 5 * l.p ∧ 4 * val r.1.1.c1 < 5 * l.p) ∧ VL (VP l) r.2 r'.2)
        (tail (opsA l) (keyRows (opsA l) l.iso.ptsA (l.iso.maxA - 1) ⟨(A, C), R, none, [], 0, l.iso.stratA⟩ qs))
        (tail Curve.opsA (keyRows Curve.opsA l.iso.ptsA (l.iso.maxA - 1) ⟨(A', C'), R', none, [], 0, l.iso.stratA⟩ qs')) := by
    intro A C A' C' R R' qs qs' hA hC hR hq
    have hs := keyRows_ref opsA_wide l.iso.ptsA (l.iso.maxA - 1) (s := ⟨(A, C), R, none, [], 0, l.iso.stratA⟩)
      (s' := ⟨(A', C'), R', none, [], 0, l.iso.stratA⟩) ⟨⟨hA, hC⟩, hR, .none, .nil, rfl, rfl⟩ hq
    generalize keyRows (opsA l) l.iso.ptsA (l.iso.maxA - 1) ⟨(A, C), R, none, [], 0, l.iso.stratA⟩ qs = o at hs ⊢
    generalize keyRows Curve.opsA l.iso.ptsA (l.iso.maxA - 1) ⟨(A', C'), R', none, [], 0, l.iso.stratA⟩ qs' = o' at hs ⊢
    cases hs with
    | none => exact .none
    | some hs =>
      have hg := get4isog_ref hs.1.R
      exact .some ⟨hg.1, hg.2.1, get4isog_tight hs.1.R, map_ref (fun hr => opsA_wide.eval (opsA_wide.get2 hs.1.R) hr) hs.2⟩
  have e1 : walkA l a b R qs = if l.iso.e2 % 2 = 1 then
      tail (opsA l) (keyRows (opsA l) l.iso.ptsA (l.iso.maxA - 1)
        ⟨((get2isog l (xDBLe l R a b (l.iso.e2 - 1))).1, (get2isog l (xDBLe l R a b (l.iso.e2 - 1))).2),
          eval2isog l R (xDBLe l R a b (l.iso.e2 - 1)), none, [], 0, l.iso.stratA⟩
        (qs.map fun q => eval2isog l q (xDBLe l R a b (l.iso.e2 - 1))))
      else tail (opsA l) (keyRows (opsA l) l.iso.ptsA (l.iso.maxA - 1) ⟨(a, b), R, none, [], 0, l.iso.stratA⟩ qs) := by
    unfold walkA
    by_cases he : l.iso.e2 % 2 = 1
    · simp only [if_pos he]; generalize keyRows (opsA l) _ _ _ _ = o; cases o <;> rfl
    · simp only [if_neg he]; generalize keyRows (opsA l) _ _ _ _ = o; cases o <;> rfl
  have e2 : Sidh.walkA l.env a' b' R' qs' = if l.iso.e2 % 2 = 1 then
      tail Curve.opsA (keyRows Curve.opsA l.iso.ptsA (l.iso.maxA - 1)
        ⟨((Curve.get2isog (Curve.xDBLe R' a' b' (l.iso.e2 - 1))).1, (Curve.get2isog (Curve.xDBLe R' a' b' (l.iso.e2 - 1))).2),
          Curve.eval2isog R' (Curve.xDBLe R' a' b' (l.iso.e2 - 1)), none, [], 0, l.iso.stratA⟩
        (qs'.map fun q => Curve.eval2isog q (Curve.xDBLe R' a' b' (l.iso.e2 - 1))))
      else tail Curve.opsA (keyRows Curve.opsA l.iso.ptsA (l.iso.maxA - 1) ⟨(a', b'), R', none, [], 0, l.iso.stratA⟩ qs') := by
    unfold Sidh.walkA
    rw [env_e2, env_maxA, env_ptsA, env_stratA]
    by_cases he : l.iso.e2 % 2 = 1
    · simp only [if_pos he]; generalize keyRows (Curve.opsA (F := l.F)) _ _ _ _ = o; cases o <;> rfl
    · simp only [if_neg he]; generalize keyRows (Curve.opsA (F := l.F)) _ _ _ _ = o; cases o <;> rfl
  rw [e1, e2]
  by_cases he : l.iso.e2 % 2 = 1
  · rw [if_pos he, if_pos he]
    have hT := xDBLe_wide ha hb (l.iso.e2 - 1) hR
    have hg := get2isog_ref hT
    exact key (hg.1.mono (by norm_num)) (hg.2.mono (by norm_num)) (eval2isog_ref hR hT)
      (map_ref (f := fun q => eval2isog l q (xDBLe l R a b (l.iso.e2 - 1)))
        (f' := fun q => Curve.eval2isog q (Curve.xDBLe R' a' b' (l.iso.e2 - 1))) (fun hr => eval2isog_ref hr hT) hq)
  · rw [if_neg he, if_neg he]
    exact key ha hb hR hq

theorem walkB_ref {R : Pt F2} {R' : Pt l.F} {qs : List (Pt F2)} {qs' : List (Pt l.F)} (ha : V l 8 a a') (hb : V l 8 b b')
    (hR : VP l R R') (hq : VL (VP l) qs qs') :
    Option.Rel (fun r r' => V l 2 r.1.1 r'.1.1 ∧ V l 2 r.1.2 r'.1.2 ∧ VL (VP l) r.2 r'.2)
      (walkB l a b R qs) (Sidh.walkB l.env a' b' R' qs') := by
  unfold walkB Sidh.walkB
  rw [env_maxB, env_ptsB, env_stratB]
  have hs := keyRows_ref opsB_wide l.iso.ptsB (l.iso.maxB - 1) (s := ⟨(a, b), R, none, [], 0, l.iso.stratB⟩)
    (s' := ⟨(a', b'), R', none, [], 0, l.iso.stratB⟩) ⟨⟨ha, hb⟩, hR, .none, .nil, rfl, rfl⟩ hq
  generalize keyRows (opsB l) l.iso.ptsB (l.iso.maxB - 1) ⟨(a, b), R, none, [], 0, l.iso.stratB⟩ qs = o at hs ⊢
  generalize keyRows Curve.opsB l.iso.ptsB (l.iso.maxB - 1) ⟨(a', b'), R', none, [], 0, l.iso.stratB⟩ qs' = o' at hs ⊢
  cases hs with
  | none => exact .none
  | some hs =>
    have hg := get3isog_ref hs.1.R
    exact .some ⟨hg.1, hg.2.1, map_ref (fun hr => opsB_wide.eval (opsB_wide.get2 hs.1.R) hr) hs.2⟩

/-! ### Buffers -/

/-- Three related elements -/
structure VT (l : Level) (t : Three F2) (t' : Three l.F) : Prop where
  P : V l 2 t.P t'.P
  Q : V l 2 t.Q t'.Q
  R : V l 2 t.R t'.R

omit ok [Arith] in
theorem gen_ok : VT l (initBasis (aGen l)) (Sidh.initBasis l (aGen l)) ∧
    VT l (initBasis (bGen l)) (Sidh.initBasis l (bGen l)) := by
  have key : ∀ {g : List (List Digit)}, g.length = 6 → (∀ x ∈ g, x.length = (tables l).n ∧ val x < 2 * l.p) →
      VT l (initBasis g) (Sidh.initBasis l g) := by
    intro g h6 hg
    obtain ⟨a, b, c, d, e, f, rfl⟩ : ∃ a b c d e f, g = [a, b, c, d, e, f] := by
      match g, h6 with
      | [a, b, c, d, e, f], _ => exact ⟨a, b, c, d, e, f, rfl⟩
    have r : ∀ x ∈ [a, b, c, d, e, f], Rng T (2 * l.p) x := fun x hx => ⟨(hg x hx).1, (hg x hx).2⟩
    exact ⟨⟨⟨r a (by simp), r b (by simp)⟩, rfl⟩, ⟨⟨r c (by simp), r d (by simp)⟩, rfl⟩, ⟨⟨r e (by simp), r f (by simp)⟩, rfl⟩⟩
  exact ⟨key (by cases l <;> rfl) (by cases l <;> decide +kernel), key (by cases l <;> rfl) (by cases l <;> decide +kernel)⟩

omit ok [Arith] in
theorem readKey_ref {nb : ℕ} {k : Bytes} (h1 : 8 * (nwordsOrder l - 1) ≤ nb) (h2 : nb ≤ 8 * nwordsOrder l)
    (hk : nb ≤ k.length) : ∃ m, readKey l nb k = some m ∧ m.length = nwordsOrder l ∧ val m = Sidh.decodeKey nb k := by
  obtain ⟨e1, e2⟩ := decodeToDigits_val (n := nwordsOrder l) (dec := List.replicate (nwordsOrder l) 0) (by cases l <;> decide)
    (List.length_replicate ..) hk h1 h2
  exact ⟨_, if_pos hk, e1, e2⟩

/-- The arrays have the sizes they are declared with. -/
def Sized (l : Level) (t : Three F2) : Prop :=
  (t.P.c0.length = (tables l).n ∧ t.P.c1.length = (tables l).n) ∧ (t.Q.c0.length = (tables l).n ∧ t.Q.c1.length = (tables l).n) ∧
    (t.R.c0.length = (tables l).n ∧ t.R.c1.length = (tables l).n)

theorem decode_chunk {d : F2} (hd : d.c0.length = (tables l).n ∧ d.c1.length = (tables l).n) {pk : Bytes} {i : ℕ}
    (h : i + 2 * half T ≤ pk.length) : V l 2 (fp2decode T d (pk.drop i)) (Protocol.decode l (Sidh.chunk l pk i)) := by
  have hh := half_eq l
  have e : fp2decode T d (pk.drop i) = fp2decode T d ((Sidh.chunk l pk i).real ++ (Sidh.chunk l pk i).imag) := by
    unfold fp2decode Sidh.chunk
    have h1 : ((pk.drop i).take (params l).fpBytes).length = half T := by
      rw [List.length_take, List.length_drop]; omega
    have h2 : ((pk.drop (i + (params l).fpBytes)).take (params l).fpBytes).length = half T := by
      rw [List.length_take, List.length_drop]; omega
    simp only [decodeToDigits]
    rw [List.take_left' h1, List.drop_left' h1, List.take_of_length_le h2.le, hh, List.drop_drop]
  rw [e]
  obtain ⟨r, v⟩ := fp2decode_spec l d hd.1 hd.2 (Sidh.chunk l pk i).real (Sidh.chunk l pk i).imag
    (by simp only [Sidh.chunk, List.length_take, List.length_drop]; omega)
    (by simp only [Sidh.chunk, List.length_take, List.length_drop]; omega)
  exact ⟨r, v⟩

theorem readPk_ref {old : Three F2} (ho : Sized l old) {pk : Bytes} (h : 6 * (params l).fpBytes ≤ pk.length) :
    ∃ t, readPk l old pk = some t ∧ VT l t (Sidh.decodePk l pk) := by
  have hh := half_eq l
  refine ⟨_, if_pos (by omega), ?_, ?_, ?_⟩
  · have := decode_chunk (pk := pk) (i := 0) ho.1 (by omega)
    rwa [List.drop_zero] at this
  · rw [hh]
    exact decode_chunk (i := 2 * (params l).fpBytes) ho.2.1 (by omega)
  · rw [hh]
    exact decode_chunk (i := 2 * (2 * (params l).fpBytes)) ho.2.2 (by omega)

theorem encode_ref (hx : V l B x u) (hB : B ≤ 120 := by norm_num) : fp2encode T x = flat (Protocol.encode l u) := by
  rw [← WProtocol.encode_v hx hB, WProtocol.encode, flat, List.take_append_drop]

theorem writePk_ref {qs : List (Pt F2)} {qs' : List (Pt l.F)} (h : VL (VP l) qs qs') :
    writePk l qs = (Sidh.normalize qs').map (Sidh.encodePk l) := by
  match qs, qs', h with
  | _, _, .cons (a := P) (b := P') hP (.cons (a := Q) (b := Q') hQ (.cons (a := R) (b := R') hR .nil)) =>
    obtain ⟨z1, z2, z3⟩ := inv3way_ref hP.Z hQ.Z hR.Z
    show some _ = some _
    rw [Sidh.encodePk, encode_ref (hP.X.mul z1), encode_ref (hQ.X.mul z2), encode_ref (hR.X.mul z3)]
  | _, _, .nil => rfl
  | _, _, .cons _ .nil => rfl
  | _, _, .cons _ (.cons _ .nil) => rfl
  | _, _, .cons _ (.cons _ (.cons _ (.cons _ _))) => rfl

/-! ### Validation -/

omit ok [Arith] in
theorem isFelmZero_ref {x : List Digit} (hx : Rng T l.p x) : isFelmZero x = true ↔ fpVal T l.p x = 0 := by
  have g := good l
  have hp := pos l
  have hz : fpVal T l.p (List.replicate (tables l).n 0) = 0 := fpVal_zero
  rw [← hz]
  constructor
  · intro h
    have : x = List.replicate (tables l).n 0 := by
      apply List.eq_replicate_iff.2 ⟨hx.len, fun b hb => ?_⟩
      simpa using List.all_eq_true.1 h b hb
    rw [this]
  · intro h
    rw [fpVal_inj g hx (rng_zero g (by omega)) h]
    simp [isFelmZero]

theorem correction_v (hx : V l 2 x u) : V l 1 (fp2correction T x) u := by
  obtain ⟨r, e⟩ := fp2correction_spec (good l) hx.rng
  exact ⟨by rw [Nat.one_mul]; exact r, by rw [e, hx.val]⟩

omit ok [Arith] in
theorem zero_ref (hx : V l 1 x u) : (isFelmZero x.c0 && isFelmZero x.c1) = true ↔ u = 0 := by
  have h := hx.rng
  rw [Nat.one_mul] at h
  rw [Bool.and_eq_true, isFelmZero_ref h.c0, isFelmZero_ref h.c1, ← hx.val]
  exact ⟨fun h => QuadraticAlgebra.ext h.1 h.2, fun h => ⟨congrArg QuadraticAlgebra.re h, congrArg QuadraticAlgebra.im h⟩⟩

omit ok [Arith] in
theorem digitBytes_eq {x : List Digit} {z : ZMod l.p} (hx : Rng T l.p x) (hz : fpVal T l.p x = z) :
    digitBytes x = leBytes (8 * (tables l).n) (z * 2 ^ (64 * (tables l).n)).val := by
  have g := good l
  have hp := pos l
  have e : (z * 2 ^ (64 * (tables l).n)).val = val x := by
    rw [← hz, fpVal, mul_assoc, inv_mul_cancel₀ (R_ne_zero g), mul_one, ZMod.val_natCast_of_lt hx.lt]
  have hlt : val x < 256 ^ (8 * (tables l).n) := by
    refine hx.lt.trans ?_
    cases l <;> decide +kernel
  rw [e]
  apply leNat_inj
  · rw [digitBytes_length, leBytes_length, hx.len]
  · rw [leNat_digitBytes, leNat_leBytes _ _ hlt]

omit ok [Arith] in
theorem f2Bytes_ref (hx : V l 1 x u) : f2Bytes x = Sidh.montBytes l u := by
  have h := hx.rng
  rw [Nat.one_mul] at h
  rw [f2Bytes, Sidh.montBytes, digitBytes_eq h.c0 (congrArg QuadraticAlgebra.re hx.val),
    digitBytes_eq h.c1 (congrArg QuadraticAlgebra.im hx.val)]

omit ok [Arith] in
theorem same_ref (hx : V l 1 x u) (hy : V l 1 y v) :
    (f2Bytes x).take (2 * half T) = (f2Bytes y).take (2 * half T) ↔ Sidh.sameBytes l u v = true := by
  rw [f2Bytes_ref hx, f2Bytes_ref hy, Sidh.sameBytes, decide_eq_true_iff]
  rfl

theorem isSqr_ref (hx : V l 4 x u) : isSqrFp2 l x = Sidh.isSqrFp2 l u := by
  have g := good l
  have hb := half_bounds l
  obtain ⟨r0, v0⟩ := fpsqr_spec g hx.rng.c0 (by norm_num)
  obtain ⟨r1, v1⟩ := fpsqr_spec g hx.rng.c1 (by norm_num)
  obtain ⟨rz, vz⟩ := fpadd_spec g r0 r1 (by omega)
  obtain ⟨rs, vs⟩ := powLoops_spec (n := l.iso.e2 - 2) (m := l.iso.e3) g (rz.mono (show 2 * l.p ≤ 3 * l.p by omega))
    (by cases l <;> decide)
  obtain ⟨rt, vt⟩ := fpsqr_spec g rs (by norm_num)
  obtain ⟨rt', vt'⟩ := fpcorrection_spec g rt
  obtain ⟨rz', vz'⟩ := fpcorrection_spec g rz
  have e0 : fpVal T l.p x.c0 = u.re := congrArg QuadraticAlgebra.re hx.val
  have e1 : fpVal T l.p x.c1 = u.im := congrArg QuadraticAlgebra.im hx.val
  rw [v0, v1, e0, e1] at vz
  rw [vs, vz] at vt
  rw [vt] at vt'
  rw [vz] at vz'
  unfold isSqrFp2 Sidh.isSqrFp2
  dsimp only
  rw [decide_eq_decide, ← vt', ← vz']
  constructor
  · intro h
    have h := congrArg leNat h
    rw [leNat_take _ _ (by rw [digitBytes_length, rt'.len]; exact hb.2.1),
      leNat_take _ _ (by rw [digitBytes_length, rz'.len]; exact hb.2.1), leNat_digitBytes, leNat_digitBytes,
      Nat.mod_eq_of_lt (lt_of_lt_of_le rt'.lt hb.2.2), Nat.mod_eq_of_lt (lt_of_lt_of_le rz'.lt hb.2.2)] at h
    rw [val_inj (rt'.len.trans rz'.len.symm) h]
  · intro h
    rw [fpVal_inj g rt' rz' h]

theorem validate_ref {t : Three F2} {t' : Three l.F} {A Ap Am : F2} {A' Ap' Am' : l.F} (ht : VT l t t') (hA : V l 2 A A')
    (hp : V l 4 Ap Ap') (hm : V l 4 Am Am') : validate l t A Ap Am = Sidh.validate (Sidh.cfg l) t' A' Ap' Am' := by
  have A2 := hA.div2
  have P := xTPLeFast_ref A2 (l.iso.maxB - 1) (P := ⟨t.P, fp2one T⟩) (P' := ⟨t'.P, 1⟩) ⟨ht.P, one_v⟩
  have Q := xTPLeFast_ref A2 (l.iso.maxB - 1) (P := ⟨t.Q, fp2one T⟩) (P' := ⟨t'.Q, 1⟩) ⟨ht.Q, one_v⟩
  unfold validate Sidh.validate
  dsimp only
  rw [show (Sidh.cfg l).maxB = l.iso.maxB from rfl, show (Sidh.cfg l).same = Sidh.sameBytes l from rfl,
    show (Sidh.cfg l).isSqr = Sidh.isSqrFp2 l from rfl]
  generalize xTPLeFast l ⟨t.P, fp2one T⟩ (fp2div2 T A) (l.iso.maxB - 1) = P₁ at P ⊢
  generalize xTPLeFast l ⟨t.Q, fp2one T⟩ (fp2div2 T A) (l.iso.maxB - 1) = Q₁ at Q ⊢
  generalize Sidh.xTPLeFast ⟨t'.P, 1⟩ (A' / 2) (l.iso.maxB - 1) = P₂ at P ⊢
  generalize Sidh.xTPLeFast ⟨t'.Q, 1⟩ (A' / 2) (l.iso.maxB - 1) = Q₂ at Q ⊢
  have PZ := correction_v P.Z
  have QZ := correction_v Q.Z
  have c1 : ((isFelmZero (fp2correction T P₁.Z).c0 && isFelmZero (fp2correction T P₁.Z).c1) ||
      (isFelmZero (fp2correction T Q₁.Z).c0 && isFelmZero (fp2correction T Q₁.Z).c1)) = true ↔ (P₂.Z = 0 ∨ Q₂.Z = 0) := by
    rw [Bool.or_eq_true, zero_ref PZ, zero_ref QZ]
  by_cases h1 : P₂.Z = 0 ∨ Q₂.Z = 0
  · rw [if_pos h1, if_pos (c1.2 h1)]
  rw [if_neg h1, if_neg (fun h => h1 (c1.1 h))]
  have PZ2 := PZ.mono (show 1 ≤ 2 by norm_num)
  have QZ2 := QZ.mono (show 1 ≤ 2 by norm_num)
  have c2 := same_ref (correction_v (P.X.mul QZ2)) (correction_v (PZ2.mul Q.X))
  by_cases h2 : Sidh.sameBytes l (P₂.X * Q₂.Z) (P₂.Z * Q₂.X) = true
  · rw [if_pos h2, if_pos (c2.2 h2)]
  rw [if_neg h2, if_neg (fun h => h2 (c2.1 h))]
  have P3 := xTPLfast_ref (P := ⟨P₁.X, fp2correction T P₁.Z⟩) (P' := P₂) ⟨P.X, PZ2⟩ A2
  have Q3 := xTPLfast_ref (P := ⟨Q₁.X, fp2correction T Q₁.Z⟩) (P' := Q₂) ⟨Q.X, QZ2⟩ A2
  generalize xTPLfast l ⟨P₁.X, fp2correction T P₁.Z⟩ (fp2div2 T A) = P₄ at P3 ⊢
  generalize xTPLfast l ⟨Q₁.X, fp2correction T Q₁.Z⟩ (fp2div2 T A) = Q₄ at Q3 ⊢
  have z1 := zero_ref (correction_v P3.Z)
  have z2 := zero_ref (correction_v Q3.Z)
  rw [Bool.and_eq_true] at z1 z2
  have c3 : (!isFelmZero (fp2correction T P₄.Z).c0 || !isFelmZero (fp2correction T P₄.Z).c1 ||
      !isFelmZero (fp2correction T Q₄.Z).c0 || !isFelmZero (fp2correction T Q₄.Z).c1) = true ↔
      ((Sidh.xTPLfast P₂ (A' / 2)).Z ≠ 0 ∨ (Sidh.xTPLfast Q₂ (A' / 2)).Z ≠ 0) := by
    rw [Ne, Ne, ← z1, ← z2]
    cases isFelmZero (fp2correction T P₄.Z).c0 <;> cases isFelmZero (fp2correction T P₄.Z).c1 <;>
      cases isFelmZero (fp2correction T Q₄.Z).c0 <;> cases isFelmZero (fp2correction T Q₄.Z).c1 <;> simp
  by_cases h3 : (Sidh.xTPLfast P₂ (A' / 2)).Z ≠ 0 ∨ (Sidh.xTPLfast Q₂ (A' / 2)).Z ≠ 0
  · rw [if_pos h3, if_pos (c3.2 h3)]
  rw [if_neg h3, if_neg (fun h => h3 (c3.1 h)), isSqr_ref hp, isSqr_ref hm]
  have h8 : (Sidh.cfg l).eight = true ↔ (tables l).nbits = 610 := by cases l <;> decide
  by_cases h4 : (tables l).nbits = 610
  · rw [if_pos h4, if_pos (h8.2 h4)]
    cases Sidh.isSqrFp2 l Ap' <;> cases Sidh.isSqrFp2 l Am' <;> rfl
  · rw [if_neg h4, if_neg (fun h => h4 (h8.1 h))]

/-! ### The functions of `sidh.c` -/

variable {k pk : Bytes} {old : Three F2}

omit ok [Arith] in
theorem keyA_sizes (l : Level) : 8 * (nwordsOrder l - 1) ≤ skABytes l ∧ skABytes l ≤ 8 * nwordsOrder l ∧
    l.iso.e2 ≤ 64 * nwordsOrder l := by cases l <;> decide

omit ok [Arith] in
theorem keyB_sizes (l : Level) : 8 * (nwordsOrder l - 1) ≤ skBBytes l ∧ skBBytes l ≤ 8 * nwordsOrder l ∧
    obobBits l - 1 ≤ 64 * nwordsOrder l := by cases l <;> decide

theorem ephGenA_ref (hk : skABytes l ≤ k.length) : ephGenA l k = Sidh.ephGenA l k := by
  obtain ⟨s1, s2, s3⟩ := keyA_sizes l
  obtain ⟨m, em, hm, vm⟩ := readKey_ref s1 s2 hk
  obtain ⟨gA, gB⟩ := gen_ok (l := l)
  have two := one_v1.madd (one_v1 (l := l))
  have C24 := two.madd two
  have A := two.madd C24
  have Ap := C24.madd C24
  obtain ⟨S, eS, hS⟩ := ladder3pt_ref gA.P gA.Q gA.R A (m := m) (k := l.iso.e2) (by rw [hm]; exact s3)
  rw [vm] at hS
  have hw := walkA_ref Ap (C24.mono (by norm_num)) hS
    (.cons (a := ⟨(initBasis (bGen l)).P, fp2one T⟩) (b := ⟨(Sidh.initBasis l (bGen l)).P, 1⟩) ⟨gB.P, one_v⟩
      (.cons (a := ⟨(initBasis (bGen l)).Q, fp2one T⟩) (b := ⟨(Sidh.initBasis l (bGen l)).Q, 1⟩) ⟨gB.Q, one_v⟩
        (.cons (a := ⟨(initBasis (bGen l)).R, fp2one T⟩) (b := ⟨(Sidh.initBasis l (bGen l)).R, 1⟩) ⟨gB.R, one_v⟩ .nil)))
  unfold ephGenA Sidh.ephGenA Sidh.keyGenA
  simp only [em, eS, bind, Option.bind]
  rw [show (Sidh.cfg l).toEnv = l.env from rfl, show (Sidh.cfg l).genA = Sidh.initBasis l (aGen l) from rfl,
    show (Sidh.cfg l).genB = Sidh.initBasis l (bGen l) from rfl, env_e2]
  revert hw
  generalize walkA l _ _ S _ = o
  generalize Sidh.walkA l.env _ _ _ _ = o'
  intro hw
  cases hw with
  | none => rfl
  | some hw => exact writePk_ref hw.2.2.2

theorem ephGenB_ref (hk : skBBytes l ≤ k.length) : ephGenB l k = Sidh.ephGenB l k := by
  obtain ⟨s1, s2, s3⟩ := keyB_sizes l
  obtain ⟨m, em, hm, vm⟩ := readKey_ref s1 s2 hk
  obtain ⟨gA, gB⟩ := gen_ok (l := l)
  have two := one_v1.madd (one_v1 (l := l))
  have Am := two.madd two
  have A := two.madd Am
  have Ap := Am.madd Am
  obtain ⟨S, eS, hS⟩ := ladder3pt_ref gB.P gB.Q gB.R A (m := m) (k := obobBits l - 1) (by rw [hm]; exact s3)
  rw [vm] at hS
  have hw := walkB_ref (Am.mono (by norm_num)) Ap hS
    (.cons (a := ⟨(initBasis (aGen l)).P, fp2one T⟩) (b := ⟨(Sidh.initBasis l (aGen l)).P, 1⟩) ⟨gA.P, one_v⟩
      (.cons (a := ⟨(initBasis (aGen l)).Q, fp2one T⟩) (b := ⟨(Sidh.initBasis l (aGen l)).Q, 1⟩) ⟨gA.Q, one_v⟩
        (.cons (a := ⟨(initBasis (aGen l)).R, fp2one T⟩) (b := ⟨(Sidh.initBasis l (aGen l)).R, 1⟩) ⟨gA.R, one_v⟩ .nil)))
  unfold ephGenB Sidh.ephGenB Sidh.keyGenB
  simp only [em, eS, bind, Option.bind]
  rw [show (Sidh.cfg l).toEnv = l.env from rfl, show (Sidh.cfg l).genA = Sidh.initBasis l (aGen l) from rfl,
    show (Sidh.cfg l).genB = Sidh.initBasis l (bGen l) from rfl, show (Sidh.cfg l).bobBits = obobBits l from rfl]
  revert hw
  generalize walkB l _ _ S _ = o
  generalize Sidh.walkB l.env _ _ _ _ = o'
  intro hw
  cases hw with
  | none => rfl
  | some hw => exact writePk_ref hw.2.2

/-- Twice the one, by `mp_add` -/
theorem two_re : V l 2 ⟨(mpAdd (tables l).one (tables l).one).2, List.replicate (tables l).n 0⟩ (1 + 1) :=
  mpAdd_re one_v1 one_v1

theorem ephAgreeA_ref (ho : Sized l old) (hk : skABytes l ≤ k.length) (hpk : 6 * (params l).fpBytes ≤ pk.length) :
    ephAgreeA l old k pk = Sidh.ephAgreeA l k pk := by
  obtain ⟨s1, s2, s3⟩ := keyA_sizes l
  obtain ⟨m, em, hm, vm⟩ := readKey_ref s1 s2 hk
  obtain ⟨t, et, ht⟩ := readPk_ref ho hpk
  have A := getA_ref ht.P ht.Q ht.R
  have Ap := A.madd two_re
  have C24 := mpAdd_re (two_re (l := l)) two_re
  obtain ⟨S, eS, hS⟩ := ladder3pt_ref ht.P ht.Q ht.R (A.mono (show 2 ≤ 6 by norm_num)) (m := m) (k := l.iso.e2)
    (by rw [hm]; exact s3)
  rw [vm] at hS
  have hw := walkA_ref (Ap.mono (by norm_num)) (C24.mono (by norm_num)) hS .nil
  unfold ephAgreeA Sidh.ephAgreeA Sidh.secretA
  simp only [em, et, eS, bind, Option.bind]
  rw [show (Sidh.cfg l).toEnv = l.env from rfl, env_e2]
  revert hw
  generalize walkA l _ _ S _ = o
  generalize Sidh.walkA l.env _ _ _ _ = o'
  intro hw
  cases hw with
  | none => rfl
  | some hw => exact congrArg some (encode_ref (jInv_ref (endA_ref hw.1 hw.2.1 hw.2.2.1) hw.2.1))

theorem ephAgreeBExt_ref (sike : ℕ) (ho : Sized l old) (hk : skBBytes l ≤ k.length) (hpk : 6 * (params l).fpBytes ≤ pk.length) :
    ephAgreeBExt l sike old k pk = Sidh.ephAgreeBExt l sike k pk := by
  obtain ⟨s1, s2, s3⟩ := keyB_sizes l
  obtain ⟨m, em, hm, vm⟩ := readKey_ref s1 s2 hk
  obtain ⟨t, et, ht⟩ := readPk_ref ho hpk
  have A := getA_ref ht.P ht.Q ht.R
  have Ap := A.madd two_re
  have Am := A.msub two_re
  obtain ⟨S, eS, hS⟩ := ladder3pt_ref ht.P ht.Q ht.R (A.mono (show 2 ≤ 6 by norm_num)) (m := m) (k := obobBits l - 1)
    (by rw [hm]; exact s3)
  rw [vm] at hS
  have hw := walkB_ref (Am.mono (by norm_num)) (Ap.mono (by norm_num)) hS .nil
  have hv := validate_ref ht A Ap Am
  unfold ephAgreeBExt Sidh.ephAgreeBExt Sidh.secretB
  simp only [em, et, eS, hv, bind, Option.bind]
  rw [show (Sidh.cfg l).toEnv = l.env from rfl, show (Sidh.cfg l).bobBits = obobBits l from rfl]
  revert hw
  generalize walkB l _ _ S _ = o
  generalize Sidh.walkB l.env _ _ _ _ = o'
  intro hw
  split
  · rfl
  cases hw with
  | none => rfl
  | some hw =>
    have A := hw.2.1.add hw.1
    exact congrArg some (congrArg some (encode_ref (jInv_ref ((A.add A).mono (by norm_num)) (hw.2.1.sub hw.1))))

end Secuer.WSidh
