import Verif.CMem.Check
import Verif.CMem.Decode

/-!
# `Unpack_Chain_A` and `Unpack_Chain_B` on memory

The strings are those in the caller's memory, where they lie one after the other.
-/

namespace Secuer.CMem

open Secuer.Word Secuer.Field
open Secuer.Curve (Pt Crv Iso Out Tape M)
open Secuer.WCurve (Draw)

attribute [local instance] Arith.portable

variable {l : Level}

/-! ## The programs -/

/-- `unpack_point` (`poik.c:949`) -/
def unpackPointM (l : Level) (x P sp : ℕ) (m : Mem) : Mem := (portable l).runs sp [.one (P + 2 * nw l)] (fp2decodeM (tables l) x P sp m)

/-- `unpack_curve` (`poik.c:948`) with `check` true -/
def unpackCurveM (l : Level) (a E sp : ℕ) (t : Tape Draw) (m : Mem) : Out ((Bool × Mem) × Tape Draw) :=
  checkCurveM l E sp t ((portable l).runs sp [.one (E + 2 * nw l)] (fp2decodeM (tables l) a E sp m))

/-- The beginning of an iteration with `i > 0` (`poik.c:1044-1050`, `1068-1074`); `iso` at `v 2`, `back` at `v 0`.  `none` if there is an
access outside an array. -/
def nextModelM (l : Level) (E : ℕ) (v : ℕ → ℕ) (sp : ℕ) (m : Mem) : Option Mem :=
  match canonicalModelM l E (v 2) sp m with
  | none => none
  | some m =>
    let m := (portable l).runs sp [.copy (v 2) E, .one (E + 2 * nw l)] m
    some (evalIsoM (portable l) (v 2) (v 0) (v 0) sp m)

/-- The call of `Isogeny_A` (`poik.c:1054`) -/
def stepAM (l : Level) (E K : ℕ) (Q back : Option ℕ) (sp : ℕ) (t : Tape Draw) (m : Mem) : Out ((Bool × Mem) × Tape Draw) :=
  match isogenyAM l E K (some E) Q back sp m with
  | none => .ub
  | some r => .ok (r, t)

/-- The call of `Isogeny_B` (`poik.c:1078`) -/
def stepBM (l : Level) (E K : ℕ) (Q back : Option ℕ) (sp : ℕ) (t : Tape Draw) (m : Mem) : Out ((Bool × Mem) × Tape Draw) :=
  isogenyBM l E K (some E) Q back sp t m

/-- The iterations with `i > 0` (`poik.c:1043-1056`, `1067-1080`), `n` of them left; `step` is the call of `Isogeny_A` or `Isogeny_B`, `K` at
`v 5`, the next string at `x` -/
def unpackLoopM (l : Level) (step : (E K : ℕ) → (Q back : Option ℕ) → (sp : ℕ) → Tape Draw → Mem → Out ((Bool × Mem) × Tape Draw)) (E : ℕ)
    (v : ℕ → ℕ) (sp : ℕ) : (n x : ℕ) → Tape Draw → Mem → Out ((Bool × Mem) × Tape Draw)
  | 0, _, t, m => .ok ((true, m), t)
  | n + 1, x, t, m =>
    match nextModelM l E v sp m with
    | none => .ub
    | some m =>
      let m := unpackPointM l x (v 5) sp m
      bindT (step E (v 5) (some (v 0)) none sp t m) fun r t =>
        if r.1 = false then .ok ((false, r.2), t) else unpackLoopM l step E v sp n (x + sz l) t r.2

/-- `return !fp2_iszero(back.Z);` (`poik.c:1058`, `1082`) -/
def unpackEndM (l : Level) (v : ℕ → ℕ) (sp : ℕ) (t : Tape Draw) (m : Mem) : Out ((Bool × Mem) × Tape Draw) :=
  let r := fp2IszeroM (tables l) (v 0 + 2 * nw l) sp m
  .ok ((decide (r.1 = 0), r.2), t)

/-- The iterations, for at least one string (`poik.c:1043-1058`, `1067-1082`) -/
def unpackStringsM (l : Level) (step : (E K : ℕ) → (Q back : Option ℕ) → (sp : ℕ) → Tape Draw → Mem → Out ((Bool × Mem) × Tape Draw)) (E : ℕ)
    (v : ℕ → ℕ) (sp n x : ℕ) (t : Tape Draw) (m : Mem) : Out ((Bool × Mem) × Tape Draw) :=
  let m := unpackPointM l x (v 5) sp m
  bindT (step E (v 5) none (some (v 0)) sp t m) fun r t =>
    if r.1 = false then .ok ((false, r.2), t) else
    bindT (unpackLoopM l step E v sp n (x + sz l) t r.2) fun r t =>
      if r.1 = false then .ok ((false, r.2), t) else unpackEndM l v sp t r.2

/-- `Unpack_Chain_A` (`poik.c:1037-1059`) for a width of `n`, which is a parameter here; the string of the curve at `E0`, the strings of the
points at `x` (byte addresses).  With `n = 0`, `back` is read uninitialised. -/
def unpackChainAM (l : Level) (n E0 x E sp : ℕ) (t : Tape Draw) (m : Mem) : Out ((Bool × Mem) × Tape Draw) :=
  let v := loc (nw l) sp
  let sp := v 7
  bindT (unpackCurveM l E0 E sp t m) fun r t =>
    match n with
    | 0 => .ub
    | n + 1 => unpackStringsM l (stepAM l) E v sp n x t r.2

/-- `Unpack_Chain_B` (`poik.c:1061-1083`) for a height of `n` -/
def unpackChainBM (l : Level) (n E0 x E sp : ℕ) (t : Tape Draw) (m : Mem) : Out ((Bool × Mem) × Tape Draw) :=
  let v := loc (nw l) sp
  let sp := v 7
  bindT (unpackCurveM l E0 E sp t m) fun r t =>
    let m := (portable l).runs sp [.zero (v 0), .zero (v 0 + 2 * nw l)] r.2
    match n with
    | 0 => unpackEndM l v sp t m
    | n + 1 => unpackStringsM l (stepBM l) E v sp n x t m

/-! ## The strings -/

/-- The string of `len` bytes at `x` is below the stack pointer and outside the variables. -/
def Str (n s : ℕ) (L : List ℕ) (x len : ℕ) : Prop := x + len ≤ 8 * s ∧ ∀ a ∈ L, x + len ≤ 8 * a ∨ 8 * (a + 2 * n) ≤ x

theorem Str.sub {n s : ℕ} {L : List ℕ} {x len x' len' : ℕ} (h : Str n s L x len) (h1 : x ≤ x') (h2 : x' + len' ≤ x + len) : Str n s L x' len' :=
  ⟨by have := h.1; omega, fun a ha => by have := h.2 a ha; omega⟩

theorem Str.addr {n s k : ℕ} {L : List ℕ} {x len : ℕ} (h : Str n s L x len) {i : ℕ} (_hi : i < L.length + k) :
    8 * (addr n s L i + 2 * n) ≤ x ∨ x + len ≤ 8 * addr n s L i := by
  rw [CMem.addr]
  by_cases h1 : i < L.length
  · rw [dif_pos h1]
    exact (h.2 _ (List.getElem_mem _)).symm
  · rw [dif_neg h1, loc_eq]
    have := h.1
    right
    omega

theorem At.bytes {n s k : ℕ} {L : List ℕ} {m₀ m : Mem} {σ : ℕ → F2} (ha : At n s L k m₀ m σ) {x len : ℕ} (h : Str n s L x len) :
    rdBytes m x len = rdBytes m₀ x len := by
  refine rdBytes_congr fun y h1 h2 => byteAt_congr (ha.frame _ ?_ fun i hi => ?_)
  · rw [loc_eq]; have := h.1; omega
  · rcases h.addr hi with h3 | h3 <;> omega

/-- The values of `n` strings that lie one after the other -/
def decs (l : Level) (m : Mem) : (n x : ℕ) → List F2
  | 0, _ => []
  | n + 1, x => dec l (rdBytes m x (sz l)) :: decs l m n (x + sz l)

theorem decs_eq (m : Mem) : ∀ n x, decs l m n x = (List.range n).map fun i => dec l (rdBytes m (x + i * sz l) (sz l))
  | 0, _ => rfl
  | n + 1, x => by
    rw [decs, decs_eq m n, List.range_succ_eq_map, List.map_cons, List.map_map, Nat.zero_mul, Nat.add_zero]
    congr 1
    refine List.map_congr_left fun i _ => ?_
    rw [Function.comp, show x + sz l + i * sz l = x + (i + 1) * sz l by ring]

/-! ## Their effects -/

section
variable {E s : ℕ} {m₀ m : Mem} {σ : ℕ → F2}

/-- The variables of `Unpack_Chain_A` and `Unpack_Chain_B`: `E` at 0, 1, `back` at 2, 3, `iso` at 4, 5, 6, `K` at 7, 8 -/
abbrev argU (l : Level) (E : ℕ) : List ℕ := [E, E + 2 * nw l]

theorem decodeAt (hL : Layout (nw l) s (argU l E)) (ha : At (nw l) s (argU l E) 7 m₀ m σ) {x : ℕ} (hx : Str (nw l) s (argU l E) x (sz l)) {i : ℕ}
    (hi : i < 8) :
    At (nw l) s (argU l E) 7 m₀ ((portable l).runs (loc (nw l) s 7) [.one (addr (nw l) s (argU l E) (i + 1))]
      (fp2decodeM (tables l) x (addr (nw l) s (argU l E) i) (loc (nw l) s 7) m))
      (Function.update (Function.update σ i (dec l (rdBytes m₀ x (sz l)))) (i + 1) (fp2one (tables l))) := by
  have hi' : i < (argU l E).length + 7 := by simp; omega
  have e := fp2decodeM_effect (l := l) (x := x) m (addr_below (k := 7) hL hi') (hx.addr (k := 7) hi')
  rw [ha.bytes hx] at e
  have a1 := ha.call hL [(i, dec l (rdBytes m₀ x (sz l)))] (by simp) (by simp; omega) e
  exact a1.sim (Sim.ops (portable l) hL [.one (i + 1)] (by simp [Op.dst, Op.srcs]; omega))

theorem unpackPointM_at (hL : Layout (nw l) s (argU l E)) (ha : At (nw l) s (argU l E) 7 m₀ m σ) {x : ℕ} (hx : Str (nw l) s (argU l E) x (sz l)) :
    ∃ σ', At (nw l) s (argU l E) 7 m₀ (unpackPointM l x (loc (nw l) s 5) (loc (nw l) s 7) m) σ' ∧
      ptOf σ' 7 = WCurve.unpackPoint l (dec l (rdBytes m₀ x (sz l))) ∧ ∀ i < 7, σ' i = σ i :=
  ⟨_, decodeAt hL ha hx (i := 7) (by omega), rfl, fun i hi => by
    rw [Function.update_of_ne (by omega), Function.update_of_ne (by omega)]⟩

theorem unpackCurveM_at (hL : Layout (nw l) s (argU l E)) (ha : At (nw l) s (argU l E) 7 m₀ m σ) {a : ℕ} (hx : Str (nw l) s (argU l E) a (sz l))
    (t : Tape Draw) :
    ∃ junk, ResT (fun b r => b = r.1 ∧ ∃ σ', At (nw l) s (argU l E) 7 m₀ r.2 σ' ∧ Crv.mk (σ' 0) (σ' 1) = ⟨dec l (rdBytes m₀ a (sz l)), fp2one (tables l)⟩)
      (WCurve.checkCurve l junk ⟨dec l (rdBytes m₀ a (sz l)), fp2one (tables l)⟩ t) (unpackCurveM l a E (loc (nw l) s 7) t m) := by
  have a1 := decodeAt hL ha hx (i := 0) (by omega)
  have e0 : Function.update (Function.update σ 0 (dec l (rdBytes m₀ a (sz l)))) (0 + 1) (fp2one (tables l)) 0 = dec l (rdBytes m₀ a (sz l)) := rfl
  have e1 : Function.update (Function.update σ 0 (dec l (rdBytes m₀ a (sz l)))) (0 + 1) (fp2one (tables l)) 1 = fp2one (tables l) := rfl
  generalize Function.update (Function.update σ 0 (dec l (rdBytes m₀ a (sz l)))) (0 + 1) (fp2one (tables l)) = σ1 at a1 e0 e1
  change At (nw l) s (argU l E) 7 m₀ ((portable l).runs (loc (nw l) s 7) [.one (E + 2 * nw l)] (fp2decodeM (tables l) a E (loc (nw l) s 7) m)) σ1 at a1
  simp only [unpackCurveM]
  generalize (portable l).runs (loc (nw l) s 7) [.one (E + 2 * nw l)] (fp2decodeM (tables l) a E (loc (nw l) s 7) m) = m1 at a1 ⊢
  obtain ⟨junk, r⟩ := checkCurveM_spec (hL.call 7 [0, 1] (by decide) rfl) t m1
  refine ⟨junk, ?_⟩
  have ec : rdC (nw l) m1 E = ⟨dec l (rdBytes m₀ a (sz l)), fp2one (tables l)⟩ :=
    congr (congrArg Crv.mk ((a1.val (i := 0) (by simp)).trans e0)) ((a1.val (i := 1) (by simp)).trans e1)
  change ResT _ (WCurve.checkCurve l junk (rdC (nw l) m1 E) t) _ at r
  rw [ec] at r
  exact r.mono fun b r h => ⟨h.1, σ1, a1.call hL [] (by simp) rfl h.2, by rw [e0, e1]⟩

theorem nextModelM_at (hL : Layout (nw l) s (argU l E)) (ha : At (nw l) s (argU l E) 7 m₀ m σ) :
    Res (WCurve.canonicalModel l ⟨σ 0, σ 1⟩) (nextModelM l E (loc (nw l) s) (loc (nw l) s 7) m) fun iso m' =>
      ∃ σ', At (nw l) s (argU l E) 7 m₀ m' σ' ∧ Crv.mk (σ' 0) (σ' 1) = ⟨iso.B, fp2one (tables l)⟩ ∧
        ptOf σ' 2 = WCurve.evalIso l iso (ptOf σ 2) := by
  have r1 := canonicalModelM_effect m (E := E) (I := loc (nw l) s 2) (hL.call 7 [0, 1, 4, 5, 6] (by decide) rfl)
  have ec : rdC (nw l) m E = ⟨σ 0, σ 1⟩ := congr (congrArg Crv.mk (ha.val (i := 0) (by simp))) (ha.val (i := 1) (by simp))
  rw [ec] at r1
  simp only [nextModelM]
  generalize canonicalModelM l E _ _ m = o' at r1 ⊢
  generalize WCurve.canonicalModel l ⟨σ 0, σ 1⟩ = o at r1 ⊢
  rcases o with iso | _ | _ | _ <;> rcases o' with _ | m1 <;> simp only [Res] at r1 ⊢
  have a1 := ha.call hL [(4, iso.B), (5, iso.r), (6, iso.u2)] (by simp) rfl r1
  have a2 := a1.sim (Sim.ops (portable l) hL [.copy 4 0, .one 1] rfl)
  have v2 : ptOf (evals l [.copy 4 0, .one 1] (setAll σ [(4, iso.B), (5, iso.r), (6, iso.u2)])) 2 = ptOf σ 2 := rfl
  have v4 : Iso.mk (evals l [.copy 4 0, .one 1] (setAll σ [(4, iso.B), (5, iso.r), (6, iso.u2)]) 4)
      (evals l [.copy 4 0, .one 1] (setAll σ [(4, iso.B), (5, iso.r), (6, iso.u2)]) 5)
      (evals l [.copy 4 0, .one 1] (setAll σ [(4, iso.B), (5, iso.r), (6, iso.u2)]) 6) = iso := rfl
  have v0 : evals l [.copy 4 0, .one 1] (setAll σ [(4, iso.B), (5, iso.r), (6, iso.u2)]) 0 = iso.B := rfl
  have v1 : evals l [.copy 4 0, .one 1] (setAll σ [(4, iso.B), (5, iso.r), (6, iso.u2)]) 1 = fp2one (tables l) := rfl
  generalize evals l [.copy 4 0, .one 1] (setAll σ [(4, iso.B), (5, iso.r), (6, iso.u2)]) = σ2 at a2 v0 v1 v2 v4
  change At (nw l) s (argU l E) 7 m₀ ((portable l).runs (loc (nw l) s 7) [.copy (loc (nw l) s 2) E, .one (E + 2 * nw l)] m1) σ2 at a2
  generalize (portable l).runs (loc (nw l) s 7) [.copy (loc (nw l) s 2) E, .one (E + 2 * nw l)] m1 = m2 at a2 ⊢
  have e3 := evalIsoM_effect_inplace (portable l) m2 (iso := loc (nw l) s 2) (P := loc (nw l) s 0) (hL.call 7 [5, 6, 2, 3] (by decide) rfl)
  have ei : rdI (nw l) m2 (loc (nw l) s 2) = iso := by
    rw [← v4]
    exact congr (congr (congrArg Iso.mk (a2.val (i := 4) (by simp))) (a2.val (i := 5) (by simp))) (a2.val (i := 6) (by simp))
  have eb : rdP (nw l) m2 (loc (nw l) s 0) = ptOf σ 2 := by
    rw [← v2]
    change _ = Pt.mk (σ2 2) (σ2 3)
    exact congr (congrArg Pt.mk (a2.val (i := 2) (by simp))) (a2.val (i := 3) (by simp))
  rw [ei, eb] at e3
  have a3 := a2.call hL [(2, (WCurve.evalIso l iso (ptOf σ 2)).X), (3, (WCurve.evalIso l iso (ptOf σ 2)).Z)] (by simp) rfl e3
  exact ⟨_, a3, (by rw [← v0, ← v1]; rfl), rfl⟩

/-! ## A step -/

/-- What a call of `Isogeny_A` or `Isogeny_B` does to the variables: `E` and `back` at `ib` become what it computes. -/
def StepRes (l : Level) (E s : ℕ) (m₀ : Mem) : Option (Crv F2 × Pt F2) → Bool × Mem → Prop
  | none, (false, m') => ∃ σ', At (nw l) s (argU l E) 7 m₀ m' σ'
  | some r, (true, m') => ∃ σ', At (nw l) s (argU l E) 7 m₀ m' σ' ∧ Crv.mk (σ' 0) (σ' 1) = r.1 ∧ ptOf σ' 2 = r.2
  | _, _ => False

/-- The two ways in which a chain calls `Isogeny_A` or `Isogeny_B`, on values: with the point `Q` to be mapped, or without -/
structure Step (l : Level) where
  first : Crv F2 → Pt F2 → M Draw (Option (Crv F2 × Pt F2))
  next : Crv F2 → Pt F2 → Pt F2 → M Draw (Option (Crv F2 × Pt F2))

/-- `step` on memory does what `f` does on values. -/
structure StepOk (f : Step l) (step : (E K : ℕ) → (Q back : Option ℕ) → (sp : ℕ) → Tape Draw → Mem → Out ((Bool × Mem) × Tape Draw)) : Prop where
  first : ∀ {E s : ℕ} {m₀ m : Mem} {σ : ℕ → F2} (t : Tape Draw), Layout (nw l) s (argU l E) → At (nw l) s (argU l E) 7 m₀ m σ →
    ResT (StepRes l E s m₀) (f.first ⟨σ 0, σ 1⟩ (ptOf σ 7) t) (step E (loc (nw l) s 5) none (some (loc (nw l) s 0)) (loc (nw l) s 7) t m)
  next : ∀ {E s : ℕ} {m₀ m : Mem} {σ : ℕ → F2} (t : Tape Draw), Layout (nw l) s (argU l E) → At (nw l) s (argU l E) 7 m₀ m σ →
    ResT (StepRes l E s m₀) (f.next ⟨σ 0, σ 1⟩ (ptOf σ 7) (ptOf σ 2) t)
      (step E (loc (nw l) s 5) (some (loc (nw l) s 0)) none (loc (nw l) s 7) t m)

/-- The calls of `Isogeny_A` -/
def stepA (l : Level) : Step l where
  first E K := M.bind (M.lift (WCurve.isogenyA l E K none)) fun r => M.pure (r.map fun r => (r.1, r.2.2))
  next E K Q := M.bind (M.lift (WCurve.isogenyA l E K (some Q))) fun r =>
    match r with
    | none => M.pure none
    | some (E', Q, _) =>
      match Q with
      | none => M.ub
      | some back => M.pure (some (E', back))

/-- The calls of `Isogeny_B` -/
def stepB (l : Level) : Step l where
  first E K := M.bind (WCurve.isogenyB l true E K none) fun r =>
    match r with
    | none => M.pure none
    | some (E', _, back) =>
      match back with
      | none => M.ub
      | some back => M.pure (some (E', back))
  next E K Q := M.bind (WCurve.isogenyB l false E K (some Q)) fun r =>
    match r with
    | none => M.pure none
    | some (E', Q, _) =>
      match Q with
      | none => M.ub
      | some back => M.pure (some (E', back))

theorem stepA_ok : StepOk (stepA l) (stepAM l) where
  first {E s m₀ m σ} t hL ha := by
    have args : IsoArgs (nw l) (loc (nw l) s 7) E (loc (nw l) s 5) (some E) none (some (loc (nw l) s 0)) :=
      ⟨hL.call 7 [0, 1, 7, 8] (by decide) rfl, hL.call 7 [0, 1, 2, 3] (by decide) rfl⟩
    have r := isogenyAM_spec args m
    have ec : rdC (nw l) m E = ⟨σ 0, σ 1⟩ := congr (congrArg Crv.mk (ha.val (i := 0) (by simp))) (ha.val (i := 1) (by simp))
    have ek : rdP (nw l) m (loc (nw l) s 5) = ptOf σ 7 := by
      change _ = Pt.mk (σ 7) (σ 8)
      exact congr (congrArg Pt.mk (ha.val (i := 7) (by simp))) (ha.val (i := 8) (by simp))
    rw [ec, ek] at r
    simp only [stepA, stepAM]
    change IsoRes _ _ _ _ _ _ (WCurve.isogenyA l ⟨σ 0, σ 1⟩ (ptOf σ 7) none) _ at r
    generalize WCurve.isogenyA l ⟨σ 0, σ 1⟩ (ptOf σ 7) none = o at r ⊢
    generalize isogenyAM l E _ _ _ _ _ m = o' at r ⊢
    rcases o with (_ | ⟨E', q, b⟩) | _ | _ | _ <;> rcases o' with _ | ⟨_ | _, m'⟩ <;> simp only [IsoRes] at r
    · obtain ⟨P, r⟩ := r
      refine ⟨rfl, σ, ?_⟩
      exact ha.call hL [] (by simp) rfl r
    · refine ⟨rfl, _, ha.call hL [(0, E'.A), (1, E'.C), (2, b.X), (3, b.Z)] (by simp) rfl ?_, rfl, rfl⟩
      rcases q with _ | q
      · exact r.2
      · exact absurd r.1 (by simp)
    · exact trivial
  next {E s m₀ m σ} t hL ha := by
    have args : IsoArgs (nw l) (loc (nw l) s 7) E (loc (nw l) s 5) (some E) (some (loc (nw l) s 0)) none :=
      ⟨hL.call 7 [0, 1, 7, 8, 2, 3] (by decide) rfl, hL.call 7 [2, 3, 0, 1] (by decide) rfl⟩
    have r := isogenyAM_spec args m
    have ec : rdC (nw l) m E = ⟨σ 0, σ 1⟩ := congr (congrArg Crv.mk (ha.val (i := 0) (by simp))) (ha.val (i := 1) (by simp))
    have ek : rdP (nw l) m (loc (nw l) s 5) = ptOf σ 7 := by
      change _ = Pt.mk (σ 7) (σ 8)
      exact congr (congrArg Pt.mk (ha.val (i := 7) (by simp))) (ha.val (i := 8) (by simp))
    have eq : rdP (nw l) m (loc (nw l) s 0) = ptOf σ 2 := by
      change _ = Pt.mk (σ 2) (σ 3)
      exact congr (congrArg Pt.mk (ha.val (i := 2) (by simp))) (ha.val (i := 3) (by simp))
    rw [ec, ek, Option.map_some, eq] at r
    simp only [stepA, stepAM]
    generalize WCurve.isogenyA l ⟨σ 0, σ 1⟩ (ptOf σ 7) (some (ptOf σ 2)) = o at r ⊢
    generalize isogenyAM l E _ _ _ _ _ m = o' at r ⊢
    rcases o with (_ | ⟨E', q, b⟩) | _ | _ | _ <;> rcases o' with _ | ⟨_ | _, m'⟩ <;> simp only [IsoRes] at r
    · obtain ⟨P, r⟩ := r
      rcases P with _ | P
      · exact ⟨rfl, σ, ha.call hL [] (by simp) rfl r⟩
      · exact ⟨rfl, _, ha.call hL [(2, P.X), (3, P.Z)] (by simp) rfl r⟩
    · rcases q with _ | q
      · exact absurd r.1 (by simp)
      · exact ⟨rfl, _, ha.call hL [(2, q.X), (3, q.Z), (0, E'.A), (1, E'.C)] (by simp) rfl r.2, rfl, rfl⟩
    · exact trivial

theorem stepB_ok : StepOk (stepB l) (stepBM l) where
  first {E s m₀ m σ} t hL ha := by
    have args : IsoArgsB (nw l) (loc (nw l) s 7) E (loc (nw l) s 5) (some E) none (some (loc (nw l) s 0)) :=
      ⟨hL.call 7 [0, 1, 7, 8, 2, 3] (by decide) rfl, hL.call 7 [2, 3, 0, 1] (by decide) rfl⟩
    have r := isogenyBM_spec args t m
    have ec : rdC (nw l) m E = ⟨σ 0, σ 1⟩ := congr (congrArg Crv.mk (ha.val (i := 0) (by simp))) (ha.val (i := 1) (by simp))
    have ek : rdP (nw l) m (loc (nw l) s 5) = ptOf σ 7 := by
      change _ = Pt.mk (σ 7) (σ 8)
      exact congr (congrArg Pt.mk (ha.val (i := 7) (by simp))) (ha.val (i := 8) (by simp))
    rw [ec, ek] at r
    simp only [stepB, stepBM, M.bind]
    change ResT _ (WCurve.isogenyB l true ⟨σ 0, σ 1⟩ (ptOf σ 7) none t) _ at r
    generalize WCurve.isogenyB l true ⟨σ 0, σ 1⟩ (ptOf σ 7) none t = o at r ⊢
    generalize isogenyBM l E _ _ _ _ _ t m = o' at r ⊢
    rcases o with ⟨_ | ⟨E', q, b⟩, t1⟩ | _ | _ | _ <;> rcases o' with ⟨⟨_ | _, m'⟩, t2⟩ | _ | _ | _ <;> simp only [ResT, IsoResB, and_false] at r
    · obtain ⟨rfl, r⟩ := r
      exact ⟨rfl, σ, ha.call hL [] (by simp) rfl r⟩
    · obtain ⟨rfl, r1, r2, r3⟩ := r
      rcases b with _ | b
      · exact absurd r2 (by simp)
      · exact ⟨rfl, _, ha.call hL [(2, b.X), (3, b.Z), (0, E'.A), (1, E'.C)] (by simp) rfl r3, rfl, rfl⟩
    all_goals exact trivial
  next {E s m₀ m σ} t hL ha := by
    have args : IsoArgsB (nw l) (loc (nw l) s 7) E (loc (nw l) s 5) (some E) (some (loc (nw l) s 0)) none :=
      ⟨hL.call 7 [0, 1, 7, 8, 2, 3] (by decide) rfl, hL.call 7 [2, 3, 0, 1] (by decide) rfl⟩
    have r := isogenyBM_spec args t m
    have ec : rdC (nw l) m E = ⟨σ 0, σ 1⟩ := congr (congrArg Crv.mk (ha.val (i := 0) (by simp))) (ha.val (i := 1) (by simp))
    have ek : rdP (nw l) m (loc (nw l) s 5) = ptOf σ 7 := by
      change _ = Pt.mk (σ 7) (σ 8)
      exact congr (congrArg Pt.mk (ha.val (i := 7) (by simp))) (ha.val (i := 8) (by simp))
    have eq : rdP (nw l) m (loc (nw l) s 0) = ptOf σ 2 := by
      change _ = Pt.mk (σ 2) (σ 3)
      exact congr (congrArg Pt.mk (ha.val (i := 2) (by simp))) (ha.val (i := 3) (by simp))
    rw [ec, ek, Option.map_some, eq] at r
    simp only [stepB, stepBM, M.bind]
    change ResT _ (WCurve.isogenyB l false ⟨σ 0, σ 1⟩ (ptOf σ 7) (some (ptOf σ 2)) t) _ at r
    generalize WCurve.isogenyB l false ⟨σ 0, σ 1⟩ (ptOf σ 7) (some (ptOf σ 2)) t = o at r ⊢
    generalize isogenyBM l E _ _ _ _ _ t m = o' at r ⊢
    rcases o with ⟨_ | ⟨E', q, b⟩, t1⟩ | _ | _ | _ <;> rcases o' with ⟨⟨_ | _, m'⟩, t2⟩ | _ | _ | _ <;> simp only [ResT, IsoResB, and_false] at r
    · obtain ⟨rfl, r⟩ := r
      exact ⟨rfl, σ, ha.call hL [] (by simp) rfl r⟩
    · obtain ⟨rfl, r1, r2, r3⟩ := r
      rcases q with _ | q
      · exact absurd r1 (by simp)
      · refine ⟨rfl, _, ha.call hL [(2, q.X), (3, q.Z), (0, E'.A), (1, E'.C)] (by simp) rfl ?_, rfl, rfl⟩
        rcases b with _ | b
        · exact r3
        · exact absurd r2 (by simp)
    all_goals exact trivial

/-! ## The iterations -/

/-- The iterations with `i > 0`, on values -/
def uLoop (f : Step l) : List F2 → Crv F2 → Pt F2 → M Draw (Option (Crv F2 × Pt F2))
  | [], E, back => M.pure (some (E, back))
  | x :: xs, E, back =>
    M.bind (M.lift (WCurve.canonicalModel l E)) fun iso =>
      M.bind (f.next ⟨iso.B, fp2one (tables l)⟩ (WCurve.unpackPoint l x) (WCurve.evalIso l iso back)) fun r =>
        r.elim (M.pure none) fun r => uLoop f xs r.1 r.2

/-- All iterations, on values -/
def uStrings (f : Step l) (E : Crv F2) (x : F2) (xs : List F2) : M Draw (Option (Crv F2)) :=
  M.bind (f.first E (WCurve.unpackPoint l x)) fun r =>
    r.elim (M.pure none) fun r =>
      M.bind (uLoop f xs r.1 r.2) fun r =>
        r.elim (M.pure none) fun r => if WCurve.iszero l r.2.Z ≠ 0 then M.pure none else M.pure (some r.1)

/-- What `Unpack_Chain_A` and `Unpack_Chain_B` do, from memory `m`: they return whether they accept, and write the codomain to `E`; they
change nothing else in the caller's memory. -/
def ChainRes (n s : ℕ) (m : Mem) (E : ℕ) : Option (Crv F2) → Bool × Mem → Prop
  | none, (false, m') => ∃ x, Effect n s m m' (crvVars n E x)
  | some x, (true, m') => Effect n s m m' (crvVars n E x)
  | _, _ => False

theorem At.chain (ha : At (nw l) s (argU l E) 7 m₀ m σ) : Effect (nw l) s m₀ m (crvVars (nw l) E ⟨σ 0, σ 1⟩) :=
  ha.holds.effect ha.frame [(0, _), (1, _)] [] rfl rfl (by simp) (by simp)

variable {f : Step l} {step : (E K : ℕ) → (Q back : Option ℕ) → (sp : ℕ) → Tape Draw → Mem → Out ((Bool × Mem) × Tape Draw)}

theorem unpackLoopM_spec (hf : StepOk f step) (hL : Layout (nw l) s (argU l E)) (n : ℕ) : ∀ {m : Mem} {σ : ℕ → F2} (x : ℕ) (t : Tape Draw),
    At (nw l) s (argU l E) 7 m₀ m σ → Str (nw l) s (argU l E) x (n * sz l) →
    ResT (StepRes l E s m₀) (uLoop f (decs l m₀ n x) ⟨σ 0, σ 1⟩ (ptOf σ 2) t) (unpackLoopM l step E (loc (nw l) s) (loc (nw l) s 7) n x t m) := by
  induction n with
  | zero => exact fun x t ha _ => ⟨rfl, _, ha, rfl, rfl⟩
  | succ n ih =>
    intro m σ x t ha hx
    have hx0 : Str (nw l) s (argU l E) x (sz l) := hx.sub (le_refl _) (by rw [Nat.succ_mul]; omega)
    have hx1 : Str (nw l) s (argU l E) (x + sz l) (n * sz l) := hx.sub (by omega) (by rw [Nat.succ_mul]; omega)
    have r1 := nextModelM_at hL ha
    rw [decs, uLoop, unpackLoopM]
    generalize WCurve.canonicalModel l ⟨σ 0, σ 1⟩ = o at r1 ⊢
    generalize nextModelM l E _ _ m = o' at r1 ⊢
    rcases o with iso | _ | _ | _ <;> rcases o' with _ | m1 <;> simp only [Res] at r1
    · obtain ⟨σ1, a1, e1, e2⟩ := r1
      obtain ⟨σ2, a2, k2, n2⟩ := unpackPointM_at hL a1 hx0
      have r2 := hf.next t hL a2
      have c2 : Crv.mk (σ2 0) (σ2 1) = ⟨iso.B, fp2one (tables l)⟩ := by rw [n2 0 (by omega), n2 1 (by omega), e1]
      have b2 : ptOf σ2 2 = WCurve.evalIso l iso (ptOf σ 2) := by
        rw [← e2]
        change Pt.mk (σ2 2) (σ2 3) = Pt.mk (σ1 2) (σ1 3)
        rw [n2 2 (by omega), n2 3 (by omega)]
      rw [c2, k2, b2] at r2
      refine r2.bind fun r m' t' h => ?_
      rcases r with _ | r <;> rcases m' with ⟨_ | _, m'⟩ <;> simp only [StepRes] at h
      · exact ⟨rfl, h⟩
      · obtain ⟨σ', a', h1, h2⟩ := h
        have := ih (x + sz l) t' a' hx1
        rw [h1, h2] at this
        exact this
    · trivial

theorem unpackEndM_spec (hL : Layout (nw l) s (argU l E)) (ha : At (nw l) s (argU l E) 7 m₀ m σ) (t : Tape Draw) :
    ResT (ChainRes (nw l) s m₀ E) ((if WCurve.iszero l (ptOf σ 2).Z ≠ 0 then M.pure none else M.pure (some ⟨σ 0, σ 1⟩) : M Draw _) t)
      (unpackEndM l (loc (nw l) s) (loc (nw l) s 7) t m) := by
  obtain ⟨q1, q2⟩ := fp2IszeroM_spec (s := loc (nw l) s 7) (m := m) (a := loc (nw l) s 1) (good l) (addr_below (i := 3) (k := 7) hL (by simp))
  have w : rdF (tables l).n m (loc (nw l) s 1) = (ptOf σ 2).Z := ha.val (i := 3) (by simp)
  rw [w] at q1
  have q1' : (fp2IszeroM (tables l) (loc (nw l) s 0 + 2 * nw l) (loc (nw l) s 7) m).1 = WCurve.iszero l (ptOf σ 2).Z := q1
  have a1 : At (nw l) s (argU l E) 7 m₀ (fp2IszeroM (tables l) (loc (nw l) s 0 + 2 * nw l) (loc (nw l) s 7) m).2 σ := ha.agree hL q2
  simp only [unpackEndM]
  rw [q1']
  generalize (fp2IszeroM (tables l) (loc (nw l) s 0 + 2 * nw l) (loc (nw l) s 7) m).2 = m1 at a1 ⊢
  by_cases hz : WCurve.iszero l (ptOf σ 2).Z ≠ 0
  · rw [if_pos hz, decide_eq_false hz]
    exact ⟨rfl, _, a1.chain⟩
  · rw [if_neg hz, decide_eq_true (not_not.1 hz)]
    exact ⟨rfl, a1.chain⟩

theorem unpackStringsM_spec (hf : StepOk f step) (hL : Layout (nw l) s (argU l E)) (n x : ℕ) (t : Tape Draw)
    (ha : At (nw l) s (argU l E) 7 m₀ m σ) (hx : Str (nw l) s (argU l E) x ((n + 1) * sz l)) :
    ResT (ChainRes (nw l) s m₀ E) (uStrings f ⟨σ 0, σ 1⟩ (dec l (rdBytes m₀ x (sz l))) (decs l m₀ n (x + sz l)) t)
      (unpackStringsM l step E (loc (nw l) s) (loc (nw l) s 7) n x t m) := by
  have hx0 : Str (nw l) s (argU l E) x (sz l) := hx.sub (le_refl _) (by rw [Nat.succ_mul]; omega)
  have hx1 : Str (nw l) s (argU l E) (x + sz l) (n * sz l) := hx.sub (by omega) (by rw [Nat.succ_mul]; omega)
  obtain ⟨σ2, a2, k2, n2⟩ := unpackPointM_at hL ha hx0
  have r2 := hf.first t hL a2
  rw [n2 0 (by omega), n2 1 (by omega), k2] at r2
  simp only [uStrings, unpackStringsM]
  refine r2.bind fun r m' t' h => ?_
  rcases r with _ | r <;> rcases m' with ⟨_ | _, m'⟩ <;> simp only [StepRes] at h
  · obtain ⟨σ', a'⟩ := h
    exact ⟨rfl, _, a'.chain⟩
  · obtain ⟨σ', a', h1, h2⟩ := h
    have r3 := unpackLoopM_spec hf hL n (x + sz l) t' a' hx1
    rw [h1, h2] at r3
    refine r3.bind fun r m' t' h => ?_
    rcases r with _ | r <;> rcases m' with ⟨_ | _, m'⟩ <;> simp only [StepRes] at h
    · obtain ⟨σ', a'⟩ := h
      exact ⟨rfl, _, a'.chain⟩
    · obtain ⟨σ', a', h1, h2⟩ := h
      have := unpackEndM_spec hL a' t'
      rw [h1, h2] at this
      exact this

/-! ## The functions on values, in this form -/

theorem unpackChainALoop_eq (xs : List F2) : ∀ (E : Crv F2) (back : Pt F2), WCurve.unpackChainALoop l xs E back = uLoop (stepA l) xs E back := by
  induction xs with
  | nil => exact fun _ _ => rfl
  | cons x xs ih =>
    intro E back
    rw [WCurve.unpackChainALoop, uLoop]
    refine congrArg (M.bind _) (funext fun iso => funext fun t => ?_)
    simp only [stepA]
    change M.bind _ _ t = M.bind (M.bind _ _) _ t
    simp only [M.bind]
    generalize M.lift (WCurve.isogenyA l ⟨iso.B, fp2one (tables l)⟩ _ _) t = o
    rcases o with ⟨_ | ⟨E', _ | Q, b⟩, t'⟩ | _ | _ | _ <;> try rfl
    exact congrFun (ih E' Q) t'

theorem unpackChainBLoop_eq (xs : List F2) : ∀ (E : Crv F2) (back : Pt F2), WCurve.unpackChainBLoop l xs E back = uLoop (stepB l) xs E back := by
  induction xs with
  | nil => exact fun _ _ => rfl
  | cons x xs ih =>
    intro E back
    rw [WCurve.unpackChainBLoop, uLoop]
    refine congrArg (M.bind _) (funext fun iso => funext fun t => ?_)
    simp only [stepB]
    change M.bind _ _ t = M.bind (M.bind _ _) _ t
    simp only [M.bind]
    generalize WCurve.isogenyB l false ⟨iso.B, fp2one (tables l)⟩ _ _ t = o
    rcases o with ⟨_ | ⟨E', _ | Q, b⟩, t'⟩ | _ | _ | _ <;> try rfl
    exact congrFun (ih E' Q) t'

theorem unpackChainA_cons (junk : ℕ → Pt F2 × Pt F2) (a x : F2) (xs : List F2) :
    WCurve.unpackChainA l junk a (x :: xs) = M.bind (WCurve.checkCurve l junk ⟨a, fp2one (tables l)⟩) fun _ => uStrings (stepA l) ⟨a, fp2one (tables l)⟩ x xs := by
  rw [WCurve.unpackChainA]
  refine congrArg (M.bind _) (funext fun _ => funext fun t => ?_)
  simp only [uStrings, stepA]
  change M.bind _ _ t = M.bind (M.bind _ _) _ t
  simp only [M.bind]
  generalize M.lift (WCurve.isogenyA l ⟨a, fp2one (tables l)⟩ _ _) t = o
  rcases o with ⟨_ | ⟨E', Q, b⟩, t'⟩ | _ | _ | _ <;> try rfl
  change M.bind (WCurve.unpackChainALoop l xs E' b) _ t' = M.bind (uLoop (stepA l) xs E' b) _ t'
  rw [unpackChainALoop_eq]
  refine congrFun (congrArg (M.bind _) (funext fun r => ?_)) t'
  rcases r with _ | r <;> rfl

theorem unpackChainB_cons (junk : ℕ → Pt F2 × Pt F2) (a x : F2) (xs : List F2) :
    WCurve.unpackChainB l junk a (x :: xs) = M.bind (WCurve.checkCurve l junk ⟨a, fp2one (tables l)⟩) fun _ => uStrings (stepB l) ⟨a, fp2one (tables l)⟩ x xs := by
  rw [WCurve.unpackChainB]
  refine congrArg (M.bind _) (funext fun _ => funext fun t => ?_)
  simp only [uStrings, stepB]
  change M.bind _ _ t = M.bind (M.bind _ _) _ t
  simp only [M.bind]
  generalize WCurve.isogenyB l true ⟨a, fp2one (tables l)⟩ _ _ t = o
  rcases o with ⟨_ | ⟨E', Q, _ | b⟩, t'⟩ | _ | _ | _ <;> try rfl
  change M.bind (WCurve.unpackChainBLoop l xs E' b) _ t' = M.bind (uLoop (stepB l) xs E' b) _ t'
  rw [unpackChainBLoop_eq]
  refine congrFun (congrArg (M.bind _) (funext fun r => ?_)) t'
  rcases r with _ | r <;> rfl

/-! ## `Unpack_Chain_A` and `Unpack_Chain_B` -/

/-- `Unpack_Chain_A` on memory does what it does on values, for some contents of the variables that `Check_Curve` does not initialise. -/
theorem unpackChainAM_spec (hL : Layout (nw l) s (argU l E)) {n E0 x : ℕ} (h0 : Str (nw l) s (argU l E) E0 (sz l))
    (hx : Str (nw l) s (argU l E) x (n * sz l)) (t : Tape Draw) (m : Mem) :
    ∃ junk, ResT (ChainRes (nw l) s m E)
      (WCurve.unpackChainA l junk (dec l (rdBytes m E0 (sz l))) ((List.range n).map fun i => dec l (rdBytes m (x + i * sz l) (sz l))) t)
      (unpackChainAM l n E0 x E s t m) := by
  rw [← decs_eq]
  obtain ⟨junk, r⟩ := unpackCurveM_at hL (At.start m) h0 t
  refine ⟨junk, ?_⟩
  simp only [unpackChainAM]
  rcases n with _ | n
  · exact r.bind fun _ _ _ _ => trivial
  · rw [decs, unpackChainA_cons]
    refine r.bind fun _ m' t' h => ?_
    obtain ⟨-, σ', a', e'⟩ := h
    have := unpackStringsM_spec stepA_ok hL n x t' a' hx
    rw [e'] at this
    exact this

/-- `Unpack_Chain_B` on memory does what it does on values, for some contents of the variables that `Check_Curve` does not initialise. -/
theorem unpackChainBM_spec (hL : Layout (nw l) s (argU l E)) {n E0 x : ℕ} (h0 : Str (nw l) s (argU l E) E0 (sz l))
    (hx : Str (nw l) s (argU l E) x (n * sz l)) (t : Tape Draw) (m : Mem) :
    ∃ junk, ResT (ChainRes (nw l) s m E)
      (WCurve.unpackChainB l junk (dec l (rdBytes m E0 (sz l))) ((List.range n).map fun i => dec l (rdBytes m (x + i * sz l) (sz l))) t)
      (unpackChainBM l n E0 x E s t m) := by
  rw [← decs_eq]
  obtain ⟨junk, r⟩ := unpackCurveM_at hL (At.start m) h0 t
  refine ⟨junk, ?_⟩
  simp only [unpackChainBM]
  rcases n with _ | n
  · refine ResT.bind (g := fun _ => M.pure none) r fun _ m' t' h => ?_
    obtain ⟨-, σ', a', e'⟩ := h
    have a2 := a'.sim (Sim.ops (portable l) hL [.zero 2, .zero 3] rfl)
    have := unpackEndM_spec hL a2 t'
    rw [if_pos] at this
    · exact this
    · change WCurve.iszero l (fp2zero (tables l)) ≠ 0
      cases l <;> decide +kernel
  · rw [decs, unpackChainB_cons]
    refine r.bind fun _ m' t' h => ?_
    obtain ⟨-, σ', a', e'⟩ := h
    have a2 := a'.sim (Sim.ops (portable l) hL [.zero 2, .zero 3] rfl)
    have := unpackStringsM_spec stepB_ok hL n x t' a2 hx
    have e2 : Crv.mk (evals l [.zero 2, .zero 3] σ' 0) (evals l [.zero 2, .zero 3] σ' 1) = Crv.mk (σ' 0) (σ' 1) := rfl
    rw [e2, e'] at this
    exact this

end

end Secuer.CMem
