import Verif.WCurve.Refine

/-!
# The curve-level algorithms on words refine the algorithms over the field
-/

namespace Secuer.WCurve

open Secuer.Word Secuer.Field Secuer.Scalar
open Secuer.Curve (Pt Crv Iso Out M Tape Chain StratOps StratState stratRows stratInner ProvesOrder)

variable {l : Level} [Arith] [ArithOK (tables l) l.p] [FpEq] [FpEqOK (tables l) l.p]

local notation "T" => tables l

variable {x y : F2} {u v : l.F} {P Q : Pt F2} {P' Q' : Pt l.F} {E : Crv F2} {E' : Crv l.F}

/-! ### Ladder -/

theorem val_testBit : ∀ (m : List Digit) (i : ℕ) (w : Digit), m[i / 64]? = some w →
    (val m).testBit i = w.getLsbD (i % 64)
  | [], i, w, h => by simp at h
  | a :: m, i, w, h => by
    have e : val (a :: m) = 2 ^ 64 * val m + a.toNat := by
      show a.toNat + 2 ^ 64 * val m = _
      omega
    rw [e, Nat.testBit_two_pow_mul_add _ a.isLt]
    by_cases hi : i < 64
    · rw [if_pos hi]
      rw [Nat.div_eq_of_lt hi, List.getElem?_cons_zero, Option.some_inj] at h
      rw [h, Nat.mod_eq_of_lt hi]
      rfl
    · rw [if_neg hi]
      have e2 : i / 64 = (i - 64) / 64 + 1 := by omega
      rw [e2, List.getElem?_cons_succ] at h
      rw [val_testBit m (i - 64) w h, show i % 64 = (i - 64) % 64 by omega]

theorem ladder_bit {m : List Digit} {i : ℕ} {w : Digit} (h : m[i / 64]? = some w) :
    (((w >>> (i % 64)) &&& 1).setWidth 32 : UInt) = if (val m).testBit i then 1 else 0 := by
  rw [val_testBit m i w h, BitVec.getLsbD]
  apply BitVec.eq_of_toNat_eq
  rw [BitVec.toNat_setWidth, BitVec.toNat_and, BitVec.toNat_ushiftRight, one_toNat, Nat.and_one_is_mod, Nat.testBit,
    Nat.one_and_eq_mod_two]
  have h2 := Nat.mod_two_eq_zero_or_one (w.toNat >>> (i % 64))
  rcases h2 with h2 | h2 <;> rw [h2] <;> rfl

theorem swapWords_zero {a b : List Digit} (h : a.length = b.length) : swapWords 0 a b = (a, b) := by
  induction a generalizing b with
  | nil => cases b with
    | nil => rfl
    | cons y b => simp at h
  | cons x a ih => cases b with
    | nil => simp at h
    | cons y b =>
      have := ih (by simpa using h)
      simp only [swapWords, List.zipWith_cons_cons, Prod.mk.injEq] at this ⊢
      rw [this.1, this.2]
      simp

theorem swapWords_ones {a b : List Digit} (h : a.length = b.length) : swapWords (-1) a b = (b, a) := by
  induction a generalizing b with
  | nil => cases b with
    | nil => rfl
    | cons y b => simp at h
  | cons x a ih => cases b with
    | nil => simp at h
    | cons y b =>
      have := ih (by simpa using h)
      simp only [swapWords, List.zipWith_cons_cons, Prod.mk.injEq] at this ⊢
      rw [this.1, this.2]
      have e : ∀ z : Digit, (-1 : Digit) &&& z = z := by
        intro z
        rw [show (-1 : Digit) = BitVec.allOnes 64 by decide, BitVec.allOnes_and]
      rw [e, BitVec.xor_comm x y, BitVec.xor_assoc, BitVec.xor_self, BitVec.xor_comm y x, BitVec.xor_assoc, BitVec.xor_self]
      simp

theorem swapPoints_ref (hP : VP l P P') (hQ : VP l Q Q') (c : Bool) :
    swapPoints (- ((if c then 1 else 0 : UInt).setWidth 64)) P Q = if c then (Q, P) else (P, Q) := by
  have h1 := hP.X.rng.c0.len.trans hQ.X.rng.c0.len.symm
  have h2 := hP.X.rng.c1.len.trans hQ.X.rng.c1.len.symm
  have h3 := hP.Z.rng.c0.len.trans hQ.Z.rng.c0.len.symm
  have h4 := hP.Z.rng.c1.len.trans hQ.Z.rng.c1.len.symm
  unfold swapPoints
  cases c
  · rw [show - ((if false = true then 1 else 0 : UInt).setWidth 64) = (0 : Digit) by decide]
    rw [swapWords_zero h1, swapWords_zero h2, swapWords_zero h3, swapWords_zero h4]
    rfl
  · rw [show - ((if true = true then 1 else 0 : UInt).setWidth 64) = (-1 : Digit) by decide]
    rw [swapWords_ones h1, swapWords_ones h2, swapWords_ones h3, swapWords_ones h4]
    rfl

theorem ladderLoop_ref {m : List Digit} {A : F2} {A' : l.F} (hA : V l 2 A A') (hP : VP l P P') : ∀ (i : ℕ) (prev : Bool)
    {R0 R1 : Pt F2} {R0' R1' : Pt l.F}, i ≤ 64 * m.length → VP l R0 R0' → VP l R1 R1' →
    ∃ R, ladderLoop l P m A i (if prev then 1 else 0) R0 R1 = some R ∧
      VP l R (Curve.ladderLoop P'.X P'.Z A' (Curve.bitsOf (val m) i) prev R0' R1')
  | 0, prev, R0, R1, R0', R1', _, h0, h1 => by
    rw [ladderLoop, swapPoints_ref h0 h1 prev]
    refine ⟨_, rfl, ?_⟩
    rw [Curve.bitsOf, Curve.ladderLoop]
    cases prev
    · exact h0
    · exact h1
  | i + 1, prev, R0, R1, R0', R1', hi, h0, h1 => by
    have hlt : i / 64 < m.length := by omega
    have hw : m[i / 64]? = some m[i / 64] := List.getElem?_eq_getElem hlt
    rw [ladderLoop, hw]
    show ∃ R, ladderLoop l P m A i _ _ _ = some R ∧ _
    rw [ladder_bit hw]
    have hx : ((if (val m).testBit i then 1 else 0 : UInt) ^^^ (if prev then 1 else 0)) =
        if ((val m).testBit i != prev) then 1 else 0 := by
      cases (val m).testBit i <;> cases prev <;> rfl
    rw [hx, swapPoints_ref h0 h1, Curve.bitsOf, Curve.ladderLoop]
    have hs : VP l (if ((val m).testBit i != prev) = true then (R1, R0) else (R0, R1)).1
          (if ((val m).testBit i != prev) = true then (R1', R0') else (R0', R1')).1 ∧
        VP l (if ((val m).testBit i != prev) = true then (R1, R0) else (R0, R1)).2
          (if ((val m).testBit i != prev) = true then (R1', R0') else (R0', R1')).2 := by
      cases ((val m).testBit i != prev)
      · exact ⟨h0, h1⟩
      · exact ⟨h1, h0⟩
    obtain ⟨r0, r1⟩ := xDBLADD_ref hs.1 hs.2 hP.X hP.Z hA
    exact ladderLoop_ref hA hP i _ (by omega) r0 r1

theorem ladder_ref {m : List Digit} {A : F2} {A' : l.F} (hA : V l 2 A A') (hP : VP l P P') {k : ℕ} (hk : k ≤ 64 * m.length) :
    ∃ R, ladder l P m A k = some R ∧ VP l R (Curve.ladder P' (val m) A' k) := by
  have one := one_v (l := l)
  have two : V l 2 ⟨fpadd T (fp2one T).c0 (fp2one T).c0, (fp2one T).c1⟩ (1 + 1) := by
    obtain ⟨r, e⟩ := fpadd_spec (good l) one.rng.c0 one.rng.c0 (by omega)
    refine ⟨⟨r, one.rng.c1⟩, ?_⟩
    have e0 : fpVal T l.p (fp2one T).c0 = 1 := one_rng.2
    refine QuadraticAlgebra.ext (e.trans (by rw [e0]; rfl)) (fpVal_zero.trans ?_)
    show (0 : ZMod l.p) = 0 + 0
    rw [add_zero]
  exact ladderLoop_ref (((hA.add two).div2).div2) hP k false hk ⟨one_v, zero_v⟩ hP

/-! ### Strategies -/

section strategies

variable {Cv Co Cv' Co' : Type}

/-- Related operations of a strategy loop -/
structure OpsRel (ops : StratOps F2 Cv Co) (ops' : StratOps l.F Cv' Co') (RCv : Cv → Cv' → Prop) (RCo : Co → Co' → Prop) :
    Prop where
  mul : ∀ {cv cv'} (m : ℕ) {P : Pt F2} {P' : Pt l.F}, RCv cv cv' → VP l P P' → VP l (ops.mul cv P m) (ops'.mul cv' P' m)
  get1 : ∀ {P : Pt F2} {P' : Pt l.F}, VP l P P' → RCv (ops.get P).1 (ops'.get P').1
  get2 : ∀ {P : Pt F2} {P' : Pt l.F}, VP l P P' → RCo (ops.get P).2 (ops'.get P').2
  eval : ∀ {co co'} {P : Pt F2} {P' : Pt l.F}, RCo co co' → VP l P P' → VP l (ops.eval co P) (ops'.eval co' P')

/-- Related states of a strategy loop -/
structure StRel (RCv : Cv → Cv' → Prop) (s : StratState F2 Cv) (s' : StratState l.F Cv') : Prop where
  cv : RCv s.cv s'.cv
  R : VP l s.R s'.R
  Q : Option.Rel (VP l) s.Q s'.Q
  stack : VL (fun a b => VP l a.1 b.1 ∧ a.2 = b.2) s.stack s'.stack
  index : s.index = s'.index
  strat : s.strat = s'.strat

variable {ops : StratOps F2 Cv Co} {ops' : StratOps l.F Cv' Co'} {RCv : Cv → Cv' → Prop} {RCo : Co → Co' → Prop}

theorem stratInner_ref (ho : OpsRel ops ops' RCv RCo) (target : ℕ) : ∀ (room : ℕ) {s : StratState F2 Cv}
    {s' : StratState l.F Cv'}, StRel RCv s s' → Option.Rel (StRel RCv) (stratInner ops target room s) (stratInner ops' target room s')
  | 0, s, s', h => by
    rw [stratInner, stratInner, h.index]
    split
    · exact .none
    · exact .some h
  | room + 1, s, s', h => by
    rw [stratInner, stratInner, h.index, h.strat]
    by_cases hi : s'.index < target
    · rw [if_pos hi, if_pos hi]
      cases hs : s'.strat with
      | nil => exact .none
      | cons m ms =>
        exact stratInner_ref ho target room ⟨h.cv, ho.mul m h.cv h.R, h.Q, .cons ⟨h.R, rfl⟩ h.stack, rfl, rfl⟩
    · rw [if_neg hi, if_neg hi]
      exact .some h

theorem optMap_ref {f : α → β} {f' : α' → β'} {R : α → α' → Prop} {S : β → β' → Prop} (h : ∀ a a', R a a' → S (f a) (f' a')) :
    ∀ {o : Option α} {o' : Option α'}, Option.Rel R o o' → Option.Rel S (o.map f) (o'.map f')
  | _, _, .none => .none
  | _, _, .some hr => .some (h _ _ hr)

theorem stratRows_ref (ho : OpsRel ops ops' RCv RCo) (maxPts : ℕ) : ∀ (n : ℕ) {s : StratState F2 Cv}
    {s' : StratState l.F Cv'}, StRel RCv s s' → Option.Rel (StRel RCv) (stratRows ops maxPts n s) (stratRows ops' maxPts n s')
  | 0, s, s', h => .some h
  | n + 1, s, s', h => by
    rw [stratRows, stratRows, h.stack.length_eq]
    have hi := stratInner_ref ho (n + 1) (maxPts - s'.stack.length) h
    generalize stratInner ops (n + 1) (maxPts - s'.stack.length) s = o at hi ⊢
    generalize stratInner ops' (n + 1) (maxPts - s'.stack.length) s' = o' at hi ⊢
    cases hi with
    | none => exact .none
    | some hs =>
      rename_i s1 s1'
      dsimp only
      have hm : VL (fun a b => VP l a.1 b.1 ∧ a.2 = b.2) (s1.stack.map (fun e => (ops.eval (ops.get s1.R).2 e.1, e.2)))
          (s1'.stack.map (fun e => (ops'.eval (ops'.get s1'.R).2 e.1, e.2))) := by
        refine List.forall₂_map_left_iff.2 (List.forall₂_map_right_iff.2 ?_)
        exact hs.stack.imp (fun a b hab => ⟨ho.eval (ho.get2 hs.R) hab.1, hab.2⟩)
      generalize s1.stack.map (fun e => (ops.eval (ops.get s1.R).2 e.1, e.2)) = st at hm ⊢
      generalize s1'.stack.map (fun e => (ops'.eval (ops'.get s1'.R).2 e.1, e.2)) = st' at hm ⊢
      cases hm with
      | nil => exact .none
      | cons h1 h2 =>
        exact stratRows_ref ho maxPts n ⟨ho.get1 hs.R, h1.1, optMap_ref (fun _ _ hr => ho.eval (ho.get2 hs.R) hr) hs.Q, h2, h1.2, hs.strat⟩

end strategies

theorem opsA_ref : OpsRel (l := l) (opsA l) Curve.opsA (fun c c' => V l 4 c.1 c'.1 ∧ V l 4 c.2 c'.2)
    (fun c c' => V l 8 c.1 c'.1 ∧ V l 4 c.2.1 c'.2.1 ∧ V l 4 c.2.2 c'.2.2) where
  mul m _ _ hc hP := xDBLe_ref hc.1 hc.2 (2 * m) hP
  get1 hP := ⟨(get4isog_ref hP).1.mono (by norm_num), (get4isog_ref hP).2.1.mono (by norm_num)⟩
  get2 hP := (get4isog_ref hP).2.2
  eval hc hP := eval4isog_ref hP hc.1 hc.2.1 hc.2.2

theorem opsB_ref : OpsRel (l := l) (opsB l) Curve.opsB (fun c c' => V l 2 c.1 c'.1 ∧ V l 2 c.2 c'.2)
    (fun c c' => V l 4 c.1 c'.1 ∧ V l 4 c.2 c'.2) where
  mul m _ _ hc hP := xTPLe_ref hc.1 hc.2 m hP
  get1 hP := ⟨(get3isog_ref hP).1, (get3isog_ref hP).2.1⟩
  get2 hP := (get3isog_ref hP).2.2
  eval hc hP := eval3isog_ref hP hc.1 hc.2

theorem bad_ref {z o : F2} {z' o' : l.F} (hz : V l 2 z z') (ho : V l 2 o o') :
    (iszero l z ||| ~~~ iszero l o) ≠ 0 ↔ (z' = 0 ∨ o' ≠ 0) := by
  rw [iszero_cases hz, iszero_cases ho]
  by_cases h1 : z' = 0 <;> by_cases h2 : o' = 0 <;> simp [h1, h2]

/-- What `Isogeny_A` returns -/
abbrev RA (l : Level) : Option (Crv F2 × Option (Pt F2) × Pt F2) → Option (Crv l.F × Option (Pt l.F) × Pt l.F) → Prop :=
  Option.Rel fun a b => VC l a.1 b.1 ∧ Option.Rel (VP l) a.2.1 b.2.1 ∧ VP l a.2.2 b.2.2

/-- The strategy loop of `Isogeny_A` and what follows it -/
def isoATail (l : Level) (A24plus C24 : F2) (R : Pt F2) (Q : Option (Pt F2)) :
    Out (Option (Crv F2 × Option (Pt F2) × Pt F2)) :=
  match stratRows (opsA l) l.iso.ptsA (l.iso.maxA - 1) ⟨(A24plus, C24), R, Q, [], 0, l.iso.stratA⟩ with
  | none => .ub
  | some s =>
    let (cv, co) := (opsA l).get s.R
    .ok (some (ac24ToAc l cv.1 cv.2, s.Q.map ((opsA l).eval co), ⟨fp2zero (tables l), fp2one (tables l)⟩))

/-- The same over the field -/
def isoATail' {F : Type} [Field F] [DecidableEq F] (env : Curve.Env F) (A24plus C24 : F) (R : Pt F) (Q : Option (Pt F)) :
    Out (Option (Crv F × Option (Pt F) × Pt F)) :=
  match stratRows Curve.opsA env.ptsA (env.maxA - 1) ⟨(A24plus, C24), R, Q, [], 0, env.stratA⟩ with
  | none => .ub
  | some s =>
    let (cv, co) := Curve.opsA.get s.R
    .ok (some (Curve.ac24ToAc cv.1 cv.2, s.Q.map (Curve.opsA.eval co), ⟨0, 1⟩))

/-- The part of `Isogeny_A` after the choice of the model -/
def isoAFrom (l : Level) (iso : Iso F2) (K : Pt F2) (Q : Option (Pt F2)) :
    Out (Option (Crv F2 × Option (Pt F2) × Pt F2)) :=
  let (A24plus, _, C24) := acToAac24 l ⟨iso.B, fp2one (tables l)⟩
  let R := evalIso l iso K
  let Q := Q.map (evalIso l iso)
  let Tp := xDBLe l R A24plus C24 (l.iso.e2 - 1)
  let O := xDBL l Tp A24plus C24
  let bad := iszero l Tp.Z ||| ~~~ iszero l O.Z
  if bad ≠ 0 then .ok none else
  let (A24plus, C24, R, Q) :=
    if l.iso.e2 % 2 = 1 then
      let S := xDBLe l R A24plus C24 (l.iso.e2 - 1)
      let g := get2isog l S
      (g.1, g.2, eval2isog l R S, Q.map (fun q => eval2isog l q S))
    else (A24plus, C24, R, Q)
  isoATail l A24plus C24 R Q

/-- The same over the field -/
def isoAFrom' {F : Type} [Field F] [DecidableEq F] (env : Curve.Env F) (iso : Iso F) (K : Pt F) (Q : Option (Pt F)) :
    Out (Option (Crv F × Option (Pt F) × Pt F)) :=
  let (A24plus, _, C24) := Curve.acToAac24 ⟨iso.B, 1⟩
  let R := Curve.evalIso iso K
  let Q := Q.map (Curve.evalIso iso)
  let Tp := Curve.xDBLe R A24plus C24 (env.e2 - 1)
  let O := Curve.xDBL Tp A24plus C24
  if Tp.Z = 0 ∨ O.Z ≠ 0 then .ok none else
  let (A24plus, C24, R, Q) :=
    if env.e2 % 2 = 1 then
      let S := Curve.xDBLe R A24plus C24 (env.e2 - 1)
      let g := Curve.get2isog S
      (g.1, g.2, Curve.eval2isog R S, Q.map (fun q => Curve.eval2isog q S))
    else (A24plus, C24, R, Q)
  isoATail' env A24plus C24 R Q

theorem isogenyA_eq {F : Type} [Field F] [DecidableEq F] (env : Curve.Env F) (E : Crv F) (K : Pt F) (Q : Option (Pt F)) :
    Curve.isogenyA env E K Q = if Curve.allModelsUB env E then .ub else
      isoAFrom' env (if (Curve.xDBLe K (Curve.acToAac24 E).1 (Curve.acToAac24 E).2.2 (env.e2 - 1)).X = 0 then
        (Curve.changeModel env E).1 else (Curve.changeModel env E).2) K Q := rfl

theorem env_e2 : l.env.e2 = l.iso.e2 := rfl
theorem env_e3 : l.env.e3 = l.iso.e3 := rfl
theorem env_maxA : l.env.maxA = l.iso.maxA := rfl
theorem env_maxB : l.env.maxB = l.iso.maxB := rfl
theorem env_ptsA : l.env.ptsA = l.iso.ptsA := rfl
theorem env_ptsB : l.env.ptsB = l.iso.ptsB := rfl
theorem env_stratA : l.env.stratA = l.iso.stratA := rfl
theorem env_stratB : l.env.stratB = l.iso.stratB := rfl

theorem isoAFrom_ref {i : Iso F2} {i' : Iso l.F} {K : Pt F2} {K' : Pt l.F} {Q : Option (Pt F2)} {Q' : Option (Pt l.F)}
    (hi : VI l i i') (hK : VP l K K') (hQ : Option.Rel (VP l) Q Q') : OR (RA l) (isoAFrom l i K Q) (isoAFrom' l.env i' K' Q') := by
  obtain ⟨a, -, c⟩ := acToAac24_ref (l := l) (E := ⟨i.B, fp2one T⟩) (E' := ⟨i'.B, 1⟩) ⟨hi.B, one_v⟩
  have a4 := a.mono (show 2 ≤ 4 by norm_num)
  have c4 := c.mono (show 2 ≤ 4 by norm_num)
  have R := evalIso_ref hi hK
  have hQ2 := optMap_ref (fun _ _ h => evalIso_ref hi h) hQ
  have hT := xDBLe_ref a4 c4 (l.iso.e2 - 1) R
  have hO := xDBL_ref hT a4 c4
  have hb := bad_ref hT.Z hO.Z
  unfold isoAFrom isoAFrom'
  dsimp only
  rw [env_e2]
  by_cases h : (Curve.xDBLe (Curve.evalIso i' K') (Curve.acToAac24 ⟨i'.B, 1⟩).1 (Curve.acToAac24 ⟨i'.B, 1⟩).2.2 (l.iso.e2 - 1)).Z = 0 ∨
      (Curve.xDBL (Curve.xDBLe (Curve.evalIso i' K') (Curve.acToAac24 ⟨i'.B, 1⟩).1 (Curve.acToAac24 ⟨i'.B, 1⟩).2.2 (l.iso.e2 - 1))
        (Curve.acToAac24 ⟨i'.B, 1⟩).1 (Curve.acToAac24 ⟨i'.B, 1⟩).2.2).Z ≠ 0
  · rw [if_pos h, if_pos (hb.2 h)]
    exact .ok .none
  rw [if_neg h, if_neg (fun h' => h (hb.1 h'))]
  have key : ∀ {A C : F2} {A' C' : l.F} {R : Pt F2} {R' : Pt l.F} {Q : Option (Pt F2)} {Q' : Option (Pt l.F)},
      V l 4 A A' → V l 4 C C' → VP l R R' → Option.Rel (VP l) Q Q' →
      OR (RA l) (isoATail l A C R Q) (isoATail' l.env A' C' R' Q') := by
    intro A C A' C' R R' Q Q' hA hC hR hQ
    unfold isoATail isoATail'
    rw [env_maxA, env_ptsA, env_stratA]
    have hs := stratRows_ref opsA_ref l.iso.ptsA (l.iso.maxA - 1) (s := ⟨(A, C), R, Q, [], 0, l.iso.stratA⟩)
      (s' := ⟨(A', C'), R', Q', [], 0, l.iso.stratA⟩) ⟨⟨hA, hC⟩, hR, hQ, .nil, rfl, rfl⟩
    generalize stratRows (opsA l) l.iso.ptsA (l.iso.maxA - 1) ⟨(A, C), R, Q, [], 0, l.iso.stratA⟩ = o at hs ⊢
    generalize stratRows Curve.opsA l.iso.ptsA (l.iso.maxA - 1) ⟨(A', C'), R', Q', [], 0, l.iso.stratA⟩ = o' at hs ⊢
    cases hs with
    | none => exact .ub
    | some hs =>
      have hg := get4isog_ref hs.R
      exact .ok (.some ⟨ac24ToAc_ref hg.1 hg.2.1, optMap_ref (fun _ _ h => opsA_ref.eval (opsA_ref.get2 hs.R) h) hs.Q,
        zero_v, one_v⟩)
  by_cases he : l.iso.e2 % 2 = 1
  · simp only [if_pos he]
    have hg := get2isog_ref hT
    exact key hg.1 hg.2 (eval2isog_ref R hT) (optMap_ref (fun _ _ h => eval2isog_ref h hT) hQ2)
  · simp only [if_neg he]
    exact key a4 c4 R hQ2

theorem isogenyA_ref {K : Pt F2} {K' : Pt l.F} {Q : Option (Pt F2)} {Q' : Option (Pt l.F)}
    (hE : VC l E E') (hK : VP l K K') (hQ : Option.Rel (VP l) Q Q') :
    OR (RA l) (isogenyA l E K Q) (Curve.isogenyA l.env E' K' Q') := by
  obtain ⟨a, -, c⟩ := acToAac24_ref hE
  have hT := xDBLe_ref (a.mono (show 2 ≤ 4 by norm_num)) (c.mono (show 2 ≤ 4 by norm_num)) (l.iso.e2 - 1) hK
  have e : isogenyA l E K Q = match changeModel l E with
      | .ok (other, iso) => isoAFrom l (cmovIso l (iszero l (xDBLe l K (acToAac24 l E).1 (acToAac24 l E).2.2 (l.iso.e2 - 1)).X) iso other) K Q
      | _ => .ub := rfl
  rw [e, isogenyA_eq]
  by_cases h : Curve.allModelsUB l.env E' = true
  · rw [if_pos h, (changeModel_ref hE).1 h]
    exact .ub
  · rw [if_neg h]
    obtain ⟨i, j, e1, hi, hj⟩ := (changeModel_ref hE).2 (Bool.not_eq_true _ ▸ h)
    rw [e1]
    show OR (RA l) (isoAFrom l _ K Q) _
    rw [iszero_cases hT.X, cmovIso_eq hj.len hi.len]
    rw [env_e2]
    apply isoAFrom_ref _ hK hQ
    split
    · exact hi
    · exact hj

end Secuer.WCurve
