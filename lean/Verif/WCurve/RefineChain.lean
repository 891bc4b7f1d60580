import Verif.WCurve.RefineMonad

/-!
# Chains, packing and unpacking on words refine those over the field
-/

namespace Secuer.WCurve

open Secuer.Word Secuer.Field Secuer.Scalar
open Secuer.Curve (Pt Crv Iso Out M Tape Chain)

variable {l : Level} [Arith] [ArithOK (tables l) l.p] [RandOK (tables l) l.p] [FpEq] [FpEqOK (tables l) l.p]

local notation "T" => tables l

variable {x y : F2} {u v : l.F} {P Q : Pt F2} {P' Q' : Pt l.F} {E : Crv F2} {E' : Crv l.F}

theorem pback_v : ∃ c : l.F, c ≠ 0 ∧ VP l (pback l) ⟨0, c⟩ := by
  obtain ⟨m, hm⟩ : ∃ m, (tables l).n = m + 1 := by cases l <;> exact ⟨_, rfl⟩
  have hl : ((List.replicate (tables l).n (0 : Digit)).set 0 1).length = (tables l).n := by
    rw [List.length_set, List.length_replicate]
  have hv : val ((List.replicate (tables l).n (0 : Digit)).set 0 1) = 1 := by
    rw [hm, List.replicate_succ, List.set_cons_zero]
    show (1 : Digit).toNat + 2 ^ 64 * val (List.replicate m 0) = 1
    rw [val_replicate_zero, one_toNat, mul_zero, add_zero]
  have hp := pos l
  refine ⟨f2Val T l.p (pback l).Z, ?_, zero_v, ⟨⟨⟨hl, ?_⟩, zero_v.rng.c1⟩, rfl⟩⟩
  · intro h
    have h0 : fpVal T l.p ((List.replicate (tables l).n (0 : Digit)).set 0 1) = 0 := congrArg QuadraticAlgebra.re h
    rw [fpVal, hv, Nat.cast_one, one_mul] at h0
    exact inv_ne_zero (R_ne_zero (good l)) h0
  · have e : val (pback l).Z.c0 = 1 := hv
    rw [e]
    omega

theorem avoid_pback : Avoid l (some (pback l)) (some ⟨0, 1⟩) := by
  obtain ⟨c, hc, hP⟩ := pback_v (l := l)
  intro Q Q' hQ
  rw [avoid_some hP Q Q' hQ]
  show decide (Q'.X * c = 0 * Q'.Z) = decide (Q'.X * 1 = 0 * Q'.Z)
  rw [decide_eq_decide, zero_mul, mul_one]
  constructor
  · intro h
    exact (mul_eq_zero.1 h).resolve_right hc
  · intro h
    rw [h, zero_mul]

/-- Chains of curves and points -/
structure VCh (l : Level) (c : Chain F2) (c' : Chain l.F) : Prop where
  E : VL (VC l) c.E c'.E
  P : VL (VP l) c.P c'.P

theorem chainALoop_ref : ∀ (n : ℕ) {E : Crv F2} {E' : Crv l.F} {a : Option (Pt F2)} {a' : Option (Pt l.F)}, VC l E E' → Avoid l a a' →
    Ref l (fun r r' => VL (VP l) r.1 r'.1 ∧ VL (VC l) r.2 r'.2) (chainALoop l E a n) (Curve.chainALoop l.env E' a' n)
  | 0, _, _, _, _, _, _ => Ref.pure ⟨.nil, .nil⟩
  | n + 1, E, E', a, a', hE, ha => by
    rw [chainALoop, Curve.chainALoop]
    refine (randomPointAB_ref hE 2 ha).bind fun P P' hP => ?_
    refine (Ref.lift (isogenyA_ref hE hP .none)).bind fun r r' hr => ?_
    cases hr with
    | none => exact Ref.ub
    | some hr =>
      exact (chainALoop_ref n hr.1 avoid_pback).bind fun s s' hs => Ref.pure ⟨.cons hP hs.1, .cons hr.1 hs.2⟩

theorem randomChainA_ref (n : ℕ) (hE : VC l E E') : Ref l (VCh l) (randomChainA l n E) (Curve.randomChainA l.env n E') :=
  (chainALoop_ref n hE avoid_none).bind fun _ _ hs => Ref.pure ⟨.cons hE hs.2, hs.1⟩

theorem chainBLoop_ref : ∀ (n : ℕ) {E : Crv F2} {E' : Crv l.F} {a : Option (Pt F2)} {a' : Option (Pt l.F)}, VC l E E' → Avoid l a a' →
    Ref l (fun r r' => VL (VP l) r.1 r'.1 ∧ VL (VC l) r.2 r'.2) (chainBLoop l E a n) (Curve.chainBLoop l.env E' a' n)
  | 0, _, _, _, _, _, _ => Ref.pure ⟨.nil, .nil⟩
  | n + 1, E, E', a, a', hE, ha => by
    rw [chainBLoop, Curve.chainBLoop]
    refine (randomPointAB_ref hE 3 ha).bind fun P P' hP => ?_
    refine (isogenyB_ref true hE hP .none).bind fun r r' hr => ?_
    cases hr with
    | none => exact Ref.ub
    | some hr =>
      exact (chainBLoop_ref n hr.1 (avoid_rel hr.2.2)).bind fun s s' hs => Ref.pure ⟨.cons hP hs.1, .cons hr.1 hs.2⟩

theorem randomChainB_ref (n : ℕ) (hE : VC l E E') : Ref l (VCh l) (randomChainB l n E) (Curve.randomChainB l.env n E') :=
  (chainBLoop_ref n hE avoid_none).bind fun _ _ hs => Ref.pure ⟨.cons hE hs.2, hs.1⟩

/-! ### Packing -/

theorem packCurve_ref (hE : VC l E E') : OR (N l) (packCurve l E) (Curve.packCurve l.env E') := by
  have h := canonicalModel_ref hE
  rw [packCurve, Curve.packCurve]
  unfold Curve.canonicalModelM at h ⊢
  by_cases hu : Curve.allModelsUB l.env E' = true
  · rw [if_pos hu] at h ⊢
    generalize canonicalModel l E = o at h ⊢
    cases h
    exact .ub
  · rw [if_neg hu] at h ⊢
    generalize canonicalModel l E = o at h ⊢
    cases h with
    | ok h => exact .ok h.B

theorem packPoint_ref (hE : VC l E E') (hP : VP l P P') : OR (V l 2) (packPoint l E P) (Curve.packPoint l.env E' P') := by
  have h := canonicalModel_ref hE
  rw [packPoint, Curve.packPoint]
  unfold Curve.canonicalModelM at h ⊢
  by_cases hu : Curve.allModelsUB l.env E' = true
  · rw [if_pos hu] at h ⊢
    generalize canonicalModel l E = o at h ⊢
    cases h
    exact .ub
  · rw [if_neg hu] at h ⊢
    generalize canonicalModel l E = o at h ⊢
    cases h with
    | ok h =>
      have hq := evalIso_ref h hP
      exact .ok ((hq.X.mono (by norm_num)).divN hq.Z)

theorem leNat_leBytes_mod : ∀ n r, leNat (leBytes n r) = r % 256 ^ n
  | 0, r => by simp [leBytes, leNat, Nat.mod_one]
  | n + 1, r => by
    simp only [leBytes, leNat, leNat_leBytes_mod n, UInt8.toNat_ofNat']
    have e := Nat.mod_mul (a := 256) (b := 256 ^ n) (x := r)
    rw [← pow_succ'] at e
    omega

theorem maskLast_length (m : UInt8) : ∀ bs : List UInt8, (maskLast m bs).length = bs.length
  | [] => rfl
  | [_] => rfl
  | _ :: b :: bs => by
    rw [maskLast, List.length_cons, maskLast_length m (b :: bs), List.length_cons, List.length_cons]
    · rfl
    · intro h
      cases h

theorem setOdd_length : ∀ bs : List UInt8, (setOdd bs).length = bs.length
  | [] => rfl
  | _ :: _ => rfl

theorem scalarOf_val {old : List Digit} (h : old.length = nwordsOrder l) (m : ℕ) :
    (scalarOf l old m).length = nwordsOrder l ∧ val (scalarOf l old m) = m % 2 ^ l.iso.e2 ||| 1 := by
  have he : Exponent l.iso.e2 := by unfold Exponent; cases l <;> decide
  have hb : (leBytes (keyBytes l.iso.e2) m).length = keyBytes l.iso.e2 := leBytes_length _ _
  have hl : (setOdd (maskLast (maskAlice l.iso.e2) (leBytes (keyBytes l.iso.e2) m))).length = keyBytes l.iso.e2 := by
    rw [setOdd_length, maskLast_length, hb]
  have hn : 0 < nwordsOrder l ∧ 8 * (nwordsOrder l - 1) ≤ keyBytes l.iso.e2 ∧ keyBytes l.iso.e2 ≤ 8 * nwordsOrder l ∧
      l.iso.e2 ≤ 8 * keyBytes l.iso.e2 := by
    cases l <;> decide
  have h1 := decodeToDigits_val hn.1 h hl.ge hn.2.1 hn.2.2.1
  refine ⟨h1.1, h1.2.trans ?_⟩
  rw [List.take_of_length_le hl.le]
  have h2 := oddScalar_eq he hb
  rw [oddScalar] at h2
  rw [h2, leNat_leBytes_mod, show 256 = 2 ^ 8 by norm_num, ← pow_mul, Nat.mod_mod_of_dvd _ (pow_dvd_pow 2 hn.2.2.2)]

theorem randomScalar_ref {old : List Digit} (h : old.length = nwordsOrder l) :
    Ref l (fun s m => s.length = nwordsOrder l ∧ val s = m) (randomScalar l old) (Curve.randomOdd l.env) := by
  intro t ht
  rw [randomScalar, Curve.randomOdd]
  show OR _ _ (match t.scal with | [] => _ | m :: ms => _)
  cases hs : t.scal with
  | nil => exact .starved
  | cons m ms => exact .ok ⟨scalarOf_val h m, ht, rfl⟩

theorem packChainA_ref {old : List Digit} (h : old.length = nwordsOrder l) : ∀ {Es : List (Crv F2)} {Es' : List (Crv l.F)} {Ps : List (Pt F2)}
    {Ps' : List (Pt l.F)}, VL (VC l) Es Es' → VL (VP l) Ps Ps' →
    Ref l (VL (V l 2)) (packChainA l old Es Ps) (Curve.packChainA l.env Es' Ps')
  | _, _, _, _, .nil, _ => Ref.pure .nil
  | _, _, _, _, .cons _ _, .nil => Ref.pure .nil
  | _, _, _, _, .cons hE hEs, .cons hP hPs => by
    rw [packChainA, Curve.packChainA]
    refine (randomScalar_ref h).bind fun s m hs => ?_
    obtain ⟨h1, h2⟩ := hs
    obtain ⟨R, e, hR⟩ := ladder_ref (m := s) hE.div hP (k := l.iso.e2) (by rw [h1]; cases l <;> decide)
    dsimp only
    rw [e, ← h2]
    refine (Ref.lift (packPoint_ref hE hR)).bind fun x x' hx => ?_
    exact (packChainA_ref h hEs hPs).bind fun xs xs' hxs => Ref.pure (.cons hx hxs)

theorem packChainB_ref : ∀ {Es : List (Crv F2)} {Es' : List (Crv l.F)} {Ps : List (Pt F2)}
    {Ps' : List (Pt l.F)}, VL (VC l) Es Es' → VL (VP l) Ps Ps' →
    Ref l (VL (V l 2)) (packChainB l Es Ps) (Curve.packChainB l.env Es' Ps')
  | _, _, _, _, .nil, _ => Ref.pure .nil
  | _, _, _, _, .cons _ _, .nil => Ref.pure .nil
  | _, _, _, _, .cons hE hEs, .cons hP hPs => by
    rw [packChainB, Curve.packChainB]
    refine (Ref.lift (packPoint_ref hE hP)).bind fun x x' hx => ?_
    exact (packChainB_ref hEs hPs).bind fun xs xs' hxs => Ref.pure (.cons hx hxs)

/-! ### Unpacking -/

theorem VI.curve {i : Iso F2} {i' : Iso l.F} (h : VI l i i') : VC l ⟨i.B, fp2one T⟩ ⟨i'.B, 1⟩ := ⟨h.B, one_v⟩

theorem unpackPoint_ref (hx : V l 2 x u) : VP l (unpackPoint l x) (Curve.unpackPoint u) := ⟨hx, one_v⟩

/-- A curve and the point `back` -/
abbrev RU (l : Level) : Option (Crv F2 × Pt F2) → Option (Crv l.F × Pt l.F) → Prop :=
  Option.Rel fun a b => VC l a.1 b.1 ∧ VP l a.2 b.2

theorem unpackChainALoop_ref : ∀ {xs : List F2} {xs' : List l.F} {E : Crv F2} {E' : Crv l.F} {P : Pt F2} {P' : Pt l.F},
    VL (V l 2) xs xs' → VC l E E' → VP l P P' →
    Ref l (RU l) (unpackChainALoop l xs E P) (Curve.unpackChainALoop l.env xs' E' P')
  | _, _, _, _, _, _, .nil, hE, hP => Ref.pure (.some ⟨hE, hP⟩)
  | _, _, _, _, _, _, .cons hx hxs, hE, hP => by
    rw [unpackChainALoop, Curve.unpackChainALoop]
    refine (Ref.lift (canonicalModel_ref hE)).bind fun i i' hi => ?_
    refine (Ref.lift (isogenyA_ref hi.curve (unpackPoint_ref hx) (.some (evalIso_ref hi hP)))).bind fun r r' hr => ?_
    cases hr with
    | none => exact Ref.pure .none
    | some hr =>
      rename_i s s'
      obtain ⟨E1, Q1, R1⟩ := s
      obtain ⟨E1', Q1', R1'⟩ := s'
      obtain ⟨h1, h2, h3⟩ := hr
      cases h2 with
      | none => exact Ref.ub
      | some h2 => exact unpackChainALoop_ref hxs h1 h2

theorem unpackChainA_ref (junk : ℕ → Pt F2 × Pt F2) (junk' : ℕ → Pt l.F × Pt l.F) {a : F2} {a' : l.F} (ha : V l 2 a a')
    {xs : List F2} {xs' : List l.F} (hx : VL (V l 2) xs xs') :
    Ref l (Option.Rel (VC l)) (unpackChainA l junk a xs) (Curve.unpackChainA l.env l.po junk' a' xs') := by
  unfold unpackChainA Curve.unpackChainA
  have hE : VC l ⟨a, fp2one T⟩ ⟨a', 1⟩ := ⟨ha.n, one_v⟩
  refine (checkCurve_ref junk junk' hE ha).bind fun _ _ _ => ?_
  cases hx with
  | nil => exact Ref.ub
  | cons hx hxs =>
    refine (Ref.lift (isogenyA_ref hE (unpackPoint_ref hx) .none)).bind fun r r' hr => ?_
    cases hr with
    | none => exact Ref.pure .none
    | some hr =>
      refine (unpackChainALoop_ref hxs hr.1 hr.2.2).bind fun _ _ h => ?_
      cases h with
      | none => exact Ref.pure .none
      | some h => exact Ref.ite (iszero_ref h.2.Z) (fun _ => Ref.pure .none) fun _ => Ref.pure (.some h.1)

theorem unpackChainBLoop_ref : ∀ {xs : List F2} {xs' : List l.F} {E : Crv F2} {E' : Crv l.F} {P : Pt F2} {P' : Pt l.F},
    VL (V l 2) xs xs' → VC l E E' → VP l P P' →
    Ref l (RU l) (unpackChainBLoop l xs E P) (Curve.unpackChainBLoop l.env xs' E' P')
  | _, _, _, _, _, _, .nil, hE, hP => Ref.pure (.some ⟨hE, hP⟩)
  | _, _, _, _, _, _, .cons hx hxs, hE, hP => by
    rw [unpackChainBLoop, Curve.unpackChainBLoop]
    refine (Ref.lift (canonicalModel_ref hE)).bind fun i i' hi => ?_
    refine (isogenyB_ref false hi.curve (unpackPoint_ref hx) (.some (evalIso_ref hi hP))).bind fun r r' hr => ?_
    cases hr with
    | none => exact Ref.pure .none
    | some hr =>
      rename_i s s'
      obtain ⟨E1, Q1, R1⟩ := s
      obtain ⟨E1', Q1', R1'⟩ := s'
      obtain ⟨h1, h2, h3⟩ := hr
      cases h2 with
      | none => exact Ref.ub
      | some h2 => exact unpackChainBLoop_ref hxs h1 h2

theorem unpackChainB_ref (junk : ℕ → Pt F2 × Pt F2) (junk' : ℕ → Pt l.F × Pt l.F) {a : F2} {a' : l.F} (ha : V l 2 a a')
    {xs : List F2} {xs' : List l.F} (hx : VL (V l 2) xs xs') :
    Ref l (Option.Rel (VC l)) (unpackChainB l junk a xs) (Curve.unpackChainB l.env l.po junk' a' xs') := by
  unfold unpackChainB Curve.unpackChainB
  have hE : VC l ⟨a, fp2one T⟩ ⟨a', 1⟩ := ⟨ha.n, one_v⟩
  refine (checkCurve_ref junk junk' hE ha).bind fun _ _ _ => ?_
  cases hx with
  | nil => exact Ref.pure .none
  | cons hx hxs =>
    refine (isogenyB_ref true hE (unpackPoint_ref hx) .none).bind fun r r' hr => ?_
    cases hr with
    | none => exact Ref.pure .none
    | some hr =>
      rename_i s s'
      obtain ⟨E1, Q1, R1⟩ := s
      obtain ⟨E1', Q1', R1'⟩ := s'
      obtain ⟨h1, h2, h3⟩ := hr
      cases h3 with
      | none => exact Ref.ub
      | some h3 =>
        refine (unpackChainBLoop_ref hxs h1 h3).bind fun _ _ h => ?_
        cases h with
        | none => exact Ref.pure .none
        | some h => exact Ref.ite (iszero_ref h.2.Z) (fun _ => Ref.pure .none) fun _ => Ref.pure (.some h.1)

end Secuer.WCurve
