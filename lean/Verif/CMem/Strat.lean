import Verif.CMem.Models

/-!
# The strategy loops on memory

The nested loops of `Isogeny_A` and `Isogeny_B` (`poik.c:606-633`, `670-698`), for any three functions that multiply `R`, compute the
isogeny with kernel generated by `R`, and evaluate it.
-/

namespace Secuer.CMem

open Secuer.Word Secuer.Field
open Secuer.Curve (Pt Crv Iso StratOps StratState stratInner stratRows)

theorem stratRows_succ {F Cv Co : Type} (ops : StratOps F Cv Co) (maxPts n : ℕ) (s : StratState F Cv) : stratRows ops maxPts (n + 1) s =
    match stratInner ops (n + 1) (maxPts - s.stack.length) s with
    | none => none
    | some s =>
      match s.stack.map (fun e => (ops.eval (ops.get s.R).2 e.1, e.2)) with
      | [] => none
      | (R, index) :: stack =>
        stratRows ops maxPts n
          { s with cv := (ops.get s.R).1, Q := s.Q.map (ops.eval (ops.get s.R).2), R := R, index := index, stack := stack } := rfl

/-- The address of `pts[i]` -/
def ptsAt (n pts i : ℕ) : ℕ := loc n pts (2 * i)

/-- The addresses and calls in a strategy loop -/
structure StratM where
  R : ℕ
  pts : ℕ
  /-- `Q`, unless it is `NULL` -/
  Q : Option ℕ
  sp : ℕ
  /-- `xDBLe(&R, &R, A24plus, C24, 2*m)` or `xTPLe(&R, &R, A24minus, A24plus, m)` -/
  mul : ℕ → Mem → Mem
  /-- `get_4_isog(&R, A24plus, C24, coeff)` or `get_3_isog(&R, A24minus, A24plus, coeff)` -/
  get : Mem → Mem
  /-- `eval_4_isog` or `eval_3_isog` at the given address -/
  eval : ℕ → Mem → Mem

/-- The memory and the scalar variables of the loop: `index`, the first `npts` entries of `pts_index`, the last one first, and the part of
the strategy that is left.  Simplified: the array `pts_index` is not in memory. -/
structure LoopM where
  mem : Mem
  index : ℕ
  idx : List ℕ
  strat : List ℕ

/-- The inner loop (`poik.c:614-621`, `678-685`), `room` entries of `pts` being free; `none` for an access beyond `pts` or beyond the
strategy -/
def stratInnerM (l : Level) (o : StratM) (target : ℕ) : (room : ℕ) → LoopM → Option LoopM
  | 0, s => if s.index < target then none else some s
  | room + 1, s =>
    if s.index < target then
      match s.strat with
      | [] => none
      | e :: es =>
        let p := ptsAt (nw l) o.pts s.idx.length
        let m := (portable l).runs o.sp [.copy o.R p, .copy (o.R + 2 * nw l) (p + 2 * nw l)] s.mem
        stratInnerM l o target room ⟨o.mul e m, s.index + e, s.index :: s.idx, es⟩
    else some s

/-- The outer loop (`poik.c:613-633`, `677-698`), `n` rows left; `none` for an access outside `pts` -/
def stratRowsM (l : Level) (o : StratM) (maxPts : ℕ) : (n : ℕ) → LoopM → Option LoopM
  | 0, s => some s
  | n + 1, s =>
    match stratInnerM l o (n + 1) (maxPts - s.idx.length) s with
    | none => none
    | some s =>
      let m := o.get s.mem
      let m := (List.range s.idx.length).foldl (fun m i => o.eval (ptsAt (nw l) o.pts i) m) m
      let m := o.Q.elim m fun q => o.eval q m
      match s.idx with
      | [] => none
      | index :: idx =>
        let p := ptsAt (nw l) o.pts idx.length
        let m := (portable l).runs o.sp [.copy p o.R, .copy (p + 2 * nw l) (o.R + 2 * nw l)] m
        stratRowsM l o maxPts n ⟨m, index, idx, s.strat⟩

/-- The point in the variables `i`, `i + 1` -/
def ptOf (σ : ℕ → F2) (i : ℕ) : Pt F2 := ⟨σ i, σ (i + 1)⟩

/-- The variables `p0, p0 + 1, …` contain the points of the stack, the last one first. -/
def Stk (σ : ℕ → F2) (p0 : ℕ) : List (Pt F2 × ℕ) → Prop
  | [] => True
  | e :: es => ptOf σ (p0 + 2 * es.length) = e.1 ∧ Stk σ p0 es

theorem Stk.map {σ σ' : ℕ → F2} {p0 : ℕ} (f : Pt F2 → Pt F2) : ∀ {es : List (Pt F2 × ℕ)}, Stk σ p0 es →
    (∀ i < es.length, ptOf σ' (p0 + 2 * i) = f (ptOf σ (p0 + 2 * i))) → Stk σ' p0 (es.map fun e => (f e.1, e.2))
  | [], _, _ => trivial
  | e :: es, h, hf => by
    refine ⟨?_, Stk.map f h.2 fun i hi => hf i (by rw [List.length_cons]; omega)⟩
    rw [List.length_map, hf es.length (by simp), h.1]

theorem Stk.congr {σ σ' : ℕ → F2} {p0 : ℕ} {es : List (Pt F2 × ℕ)} (h : Stk σ p0 es)
    (hf : ∀ i, p0 ≤ i → i < p0 + 2 * es.length → σ' i = σ i) : Stk σ' p0 es := by
  have := Stk.map (σ' := σ') id h fun i hi => by
    rw [ptOf, ptOf, hf _ (by omega) (by omega), hf _ (by omega) (by omega)]
    rfl
  simpa using this

/-- The calls do on the variables what the functions `ops` do on values.  `S` are the variables for curve and coefficients, `r`, `q`, `p0`
the first ones for `R`, `Q` and `pts`. -/
structure StratOk {Cv Co : Type} (l : Level) (s : ℕ) (L : List ℕ) (k : ℕ) (o : StratM) (ops : StratOps F2 Cv Co) (cv : (ℕ → F2) → Cv)
    (co : (ℕ → F2) → Co) (S : List ℕ) (r q p0 maxPts : ℕ) : Prop where
  lay : Layout (nw l) s L
  aR : o.R = addr (nw l) s L r
  aR' : o.R + 2 * nw l = addr (nw l) s L (r + 1)
  aP : ∀ i, ptsAt (nw l) o.pts i = addr (nw l) s L (p0 + 2 * i)
  aP' : ∀ i, ptsAt (nw l) o.pts i + 2 * nw l = addr (nw l) s L (p0 + 2 * i + 1)
  aQ : ∀ a ∈ o.Q, a = addr (nw l) s L q
  sp : o.sp = loc (nw l) s k
  le : p0 + 2 * maxPts ≤ L.length + k
  hr : r + 1 < p0
  hq : q + 1 < p0
  hrq : r + 1 < q ∨ q + 1 < r
  hS : ∀ i ∈ S, i < p0 ∧ i ≠ r ∧ i ≠ r + 1 ∧ i ≠ q ∧ i ≠ q + 1
  cvS : ∀ {σ τ : ℕ → F2}, (∀ i ∈ S, σ i = τ i) → cv σ = cv τ
  coS : ∀ {σ τ : ℕ → F2}, (∀ i ∈ S, σ i = τ i) → co σ = co τ
  mul : ∀ {m₀ m σ} (e : ℕ), At (nw l) s L k m₀ m σ → ∃ σ', At (nw l) s L k m₀ (o.mul e m) σ' ∧
    ptOf σ' r = ops.mul (cv σ) (ptOf σ r) e ∧ ∀ i, i ≠ r → i ≠ r + 1 → σ' i = σ i
  get : ∀ {m₀ m σ}, At (nw l) s L k m₀ m σ → ∃ σ', At (nw l) s L k m₀ (o.get m) σ' ∧
    (cv σ', co σ') = ops.get (ptOf σ r) ∧ ∀ i, i ∉ S → σ' i = σ i
  eval : ∀ {m₀ m σ} (j : ℕ), j = q ∨ (p0 ≤ j ∧ j + 1 < p0 + 2 * maxPts) → At (nw l) s L k m₀ m σ →
    ∃ σ', At (nw l) s L k m₀ (o.eval (addr (nw l) s L j) m) σ' ∧ ptOf σ' j = ops.eval (co σ) (ptOf σ j) ∧
      ∀ i, i ≠ j → i ≠ j + 1 → σ' i = σ i

section
variable {Cv Co : Type} {l : Level} {s : ℕ} {L : List ℕ} {k : ℕ} {o : StratM} {ops : StratOps F2 Cv Co} {cv : (ℕ → F2) → Cv}
  {co : (ℕ → F2) → Co} {S : List ℕ} {r q p0 maxPts : ℕ}

/-- The copy of a point -/
theorem At.copyPt {m₀ m : Mem} {σ : ℕ → F2} (h : At (nw l) s L k m₀ m σ) (hL : Layout (nw l) s L) {a c : ℕ} (ha : a + 1 < L.length + k)
    (hc : c + 1 < L.length + k) (hac : a + 1 < c ∨ c + 1 < a) :
    ∃ σ', At (nw l) s L k m₀ ((portable l).runs (loc (nw l) s k) [.copy (addr (nw l) s L a) (addr (nw l) s L c),
      .copy (addr (nw l) s L (a + 1)) (addr (nw l) s L (c + 1))] m) σ' ∧ ptOf σ' c = ptOf σ a ∧ ∀ i, i ≠ c → i ≠ c + 1 → σ' i = σ i := by
  refine ⟨_, h.sim (Sim.ops (portable l) hL [.copy a c, .copy (a + 1) (c + 1)] (by
    simp only [List.all_cons, List.all_nil, Op.dst, Op.srcs, Bool.and_true, Bool.and_eq_true, decide_eq_true_eq]
    exact ⟨⟨decide_eq_true (by omega), by omega⟩, decide_eq_true (by omega), by omega⟩)), ?_, fun i h1 h2 => ?_⟩
  · simp only [ptOf, evals, Op.dst, Op.val, Function.update]
    simp [show a + 1 ≠ c by omega]
  · simp only [evals, Op.dst, Op.val, Function.update]
    simp [h1, h2]

/-- Invariant of the loops -/
structure SInv (o : StratM) (cv : (ℕ → F2) → Cv) (r q p0 maxPts : ℕ) (σ : ℕ → F2) (x : LoopM) (st : StratState F2 Cv) : Prop where
  cv : cv σ = st.cv
  R : ptOf σ r = st.R
  Q : st.Q = o.Q.map fun _ => ptOf σ q
  index : x.index = st.index
  idx : x.idx = st.stack.map Prod.snd
  strat : x.strat = st.strat
  stk : Stk σ p0 st.stack
  room : st.stack.length ≤ maxPts

/-- The variables that the loops leave alone -/
def Kept (S : List ℕ) (r q p0 : ℕ) (σ σ' : ℕ → F2) : Prop :=
  ∀ i < p0, i ∉ S → i ≠ r → i ≠ r + 1 → i ≠ q → i ≠ q + 1 → σ' i = σ i

theorem Kept.trans {σ σ' σ'' : ℕ → F2} (h : Kept S r q p0 σ σ') (h' : Kept S r q p0 σ' σ'') : Kept S r q p0 σ σ'' :=
  fun i h1 h2 h3 h4 h5 h6 => (h' i h1 h2 h3 h4 h5 h6).trans (h i h1 h2 h3 h4 h5 h6)

/-- Both loops fail, or both end in states that correspond. -/
def LoopRel (l : Level) (s : ℕ) (L : List ℕ) (k : ℕ) (o : StratM) (cv : (ℕ → F2) → Cv) (S : List ℕ) (r q p0 maxPts : ℕ) (m₀ : Mem)
    (σ : ℕ → F2) : Option LoopM → Option (StratState F2 Cv) → Prop
  | none, none => True
  | some x, some st => ∃ σ', At (nw l) s L k m₀ x.mem σ' ∧ SInv o cv r q p0 maxPts σ' x st ∧ Kept S r q p0 σ σ'
  | _, _ => False

theorem LoopRel.mono {m₀ : Mem} {σ σ' : ℕ → F2} (hk : Kept S r q p0 σ σ') : ∀ {a : Option LoopM} {b : Option (StratState F2 Cv)},
    LoopRel l s L k o cv S r q p0 maxPts m₀ σ' a b → LoopRel l s L k o cv S r q p0 maxPts m₀ σ a b
  | none, none, _ => trivial
  | some _, some _, ⟨τ, h1, h2, h3⟩ => ⟨τ, h1, h2, hk.trans h3⟩

theorem stratInnerM_rel (h : StratOk l s L k o ops cv co S r q p0 maxPts) {m₀ : Mem} (target : ℕ) :
    ∀ (room : ℕ) {σ : ℕ → F2} {x : LoopM} {st : StratState F2 Cv}, At (nw l) s L k m₀ x.mem σ → SInv o cv r q p0 maxPts σ x st →
      room + st.stack.length ≤ maxPts →
      LoopRel l s L k o cv S r q p0 maxPts m₀ σ (stratInnerM l o target room x) (stratInner ops target room st)
  | 0, σ, x, st, ha, hi, hr => by
    simp only [stratInnerM, stratInner, hi.index]
    split
    · trivial
    · exact ⟨σ, ha, hi, fun _ _ _ _ _ _ _ => rfl⟩
  | room + 1, σ, x, st, ha, hi, hroom => by
    simp only [stratInnerM, stratInner, hi.index, hi.strat]
    by_cases ht : st.index < target
    · rw [if_pos ht, if_pos ht]
      cases hs : st.strat with
      | nil => trivial
      | cons e es =>
        simp only
        have hlen : x.idx.length = st.stack.length := by rw [hi.idx, List.length_map]
        have hle := h.le
        have hr := h.hr
        have hq := h.hq
        have hrq := h.hrq
        obtain ⟨σ1, a1, c1, k1⟩ := ha.copyPt h.lay (a := r) (c := p0 + 2 * st.stack.length) (by omega) (by omega) (Or.inl (by omega))
        rw [← h.aR, ← h.aR', ← h.aP, ← h.aP', ← h.sp, ← hlen] at a1
        obtain ⟨σ2, a2, c2, k2⟩ := h.mul e a1
        have eR : ptOf σ1 r = st.R := by
          rw [← hi.R, ptOf, ptOf, k1 _ (by omega) (by omega), k1 _ (by omega) (by omega)]
        have eS : ∀ i ∈ S, σ2 i = σ1 i ∧ σ1 i = σ i := fun i hiS => by
          have := h.hS i hiS
          exact ⟨k2 i (by omega) (by omega), k1 i (by omega) (by omega)⟩
        refine LoopRel.mono (σ' := σ2) (fun i h1 h2 h3 h4 h5 h6 => ?_) (stratInnerM_rel h target room a2 ?_ ?_)
        · rw [k2 i (by omega) (by omega), k1 i (by omega) (by omega)]
        · refine ⟨?_, ?_, ?_, by simp, by simp [hi.idx], rfl, ⟨?_, ?_⟩, ?_⟩
          · exact (h.cvS fun i hiS => (eS i hiS).1.trans (eS i hiS).2).trans hi.cv
          · rw [c2, eR, h.cvS fun i hiS => (eS i hiS).2, hi.cv]
          · rw [hi.Q]
            congr 1
            funext _
            rw [ptOf, ptOf, k2 q (by omega) (by omega), k2 (q + 1) (by omega) (by omega), k1 q (by omega) (by omega),
              k1 (q + 1) (by omega) (by omega)]
          · simp only
            rw [← hi.R, ← c1, ptOf, ptOf, k2 _ (by omega) (by omega), k2 _ (by omega) (by omega)]
          · refine hi.stk.congr fun i h1 h2 => ?_
            rw [k2 _ (by omega) (by omega), k1 _ (by omega) (by omega)]
          · simp only [List.length_cons]
            omega
        · simp only [List.length_cons]
          omega
    · rw [if_neg ht, if_neg ht]
      exact ⟨σ, ha, hi, fun _ _ _ _ _ _ _ => rfl⟩

/-- The loop that evaluates the isogeny at all points of the stack -/
theorem evalPts (h : StratOk l s L k o ops cv co S r q p0 maxPts) {m₀ : Mem} : ∀ (N : ℕ) {σ : ℕ → F2} {m : Mem}, N ≤ maxPts →
    At (nw l) s L k m₀ m σ → ∃ σ', At (nw l) s L k m₀ ((List.range N).foldl (fun m i => o.eval (ptsAt (nw l) o.pts i) m) m) σ' ∧
      (∀ i < N, ptOf σ' (p0 + 2 * i) = ops.eval (co σ) (ptOf σ (p0 + 2 * i))) ∧ ∀ i, i < p0 ∨ p0 + 2 * N ≤ i → σ' i = σ i
  | 0, σ, m, _, ha => ⟨σ, ha, by simp, fun _ _ => rfl⟩
  | N + 1, σ, m, hN, ha => by
    obtain ⟨σ1, a1, e1, k1⟩ := evalPts h N (by omega) ha
    rw [List.range_succ, List.foldl_append, List.foldl_cons, List.foldl_nil, h.aP N]
    obtain ⟨σ2, a2, e2, k2⟩ := h.eval (p0 + 2 * N) (Or.inr ⟨by omega, by omega⟩) a1
    have eC : co σ1 = co σ := h.coS fun i hi => k1 i (Or.inl (h.hS i hi).1)
    refine ⟨σ2, a2, fun i hi => ?_, fun i hi => ?_⟩
    · rcases Nat.lt_succ_iff_lt_or_eq.1 hi with hi' | rfl
      · rw [← e1 i hi', ptOf, ptOf, k2 _ (by omega) (by omega), k2 _ (by omega) (by omega)]
      · rw [e2, eC]
        congr 1
        rw [ptOf, ptOf, k1 _ (Or.inr (by omega)), k1 _ (Or.inr (by omega))]
    · rw [k2 i (by omega) (by omega), k1 i (by omega)]

theorem stratRowsM_rel (h : StratOk l s L k o ops cv co S r q p0 maxPts) {m₀ : Mem} :
    ∀ (n : ℕ) {σ : ℕ → F2} {x : LoopM} {st : StratState F2 Cv}, At (nw l) s L k m₀ x.mem σ → SInv o cv r q p0 maxPts σ x st →
      LoopRel l s L k o cv S r q p0 maxPts m₀ σ (stratRowsM l o maxPts n x) (stratRows ops maxPts n st)
  | 0, σ, x, st, ha, hi => ⟨σ, ha, hi, fun _ _ _ _ _ _ _ => rfl⟩
  | n + 1, σ, x, st, ha, hi => by
    have hlen : x.idx.length = st.stack.length := by rw [hi.idx, List.length_map]
    have hroom := hi.room
    have h1 := stratInnerM_rel h (n + 1) (maxPts - st.stack.length) ha hi (by omega)
    rw [stratRowsM, stratRows_succ, hlen]
    generalize stratInnerM l o (n + 1) (maxPts - st.stack.length) x = a at h1
    generalize stratInner ops (n + 1) (maxPts - st.stack.length) st = b at h1
    rcases a with _ | x1 <;> rcases b with _ | st1
    · trivial
    · exact h1.elim
    · exact h1.elim
    obtain ⟨σ1, a1, i1, k1⟩ := h1
    refine LoopRel.mono k1 ?_
    dsimp only
    have hlen1 : x1.idx.length = st1.stack.length := by rw [i1.idx, List.length_map]
    have hle := h.le
    have hr := h.hr
    have hq := h.hq
    have hrq := h.hrq
    have hroom1 := i1.room
    obtain ⟨σ2, a2, e2, k2⟩ := h.get a1
    have oS : ∀ i, p0 ≤ i → i ∉ S := fun i hi hS => by have := h.hS i hS; omega
    have rS : r ∉ S ∧ r + 1 ∉ S := ⟨fun hS => (h.hS r hS).2.1 rfl, fun hS => (h.hS _ hS).2.2.1 rfl⟩
    have qS : q ∉ S ∧ q + 1 ∉ S := ⟨fun hS => (h.hS q hS).2.2.2.1 rfl, fun hS => (h.hS _ hS).2.2.2.2 rfl⟩
    obtain ⟨σ3, a3, e3, k3⟩ := evalPts h st1.stack.length hroom1 a2
    rw [← hlen1] at a3
    -- evaluation at `Q`
    obtain ⟨σ4, a4, e4, k4⟩ : ∃ σ4, At (nw l) s L k m₀ (o.Q.elim ((List.range x1.idx.length).foldl
        (fun m i => o.eval (ptsAt (nw l) o.pts i) m) (o.get x1.mem)) fun q => o.eval q ((List.range x1.idx.length).foldl
        (fun m i => o.eval (ptsAt (nw l) o.pts i) m) (o.get x1.mem))) σ4 ∧
        (st1.Q.map (ops.eval (co σ2)) = o.Q.map fun _ => ptOf σ4 q) ∧ ∀ i, i ≠ q → i ≠ q + 1 → σ4 i = σ3 i := by
      have hQ := i1.Q
      have aQ := h.aQ
      rcases hoQ : o.Q with _ | a
      · rw [hoQ] at hQ
        exact ⟨σ3, a3, by rw [hQ]; rfl, fun _ _ _ => rfl⟩
      · obtain ⟨σ4, a4, e4, k4⟩ := h.eval q (Or.inl rfl) a3
        rw [aQ a (by rw [hoQ]; rfl)]
        refine ⟨σ4, a4, ?_, k4⟩
        rw [hoQ] at hQ
        rw [hQ]
        simp only [Option.map_some, e4, h.coS (σ := σ3) (τ := σ2) fun i hi => k3 i (Or.inl (h.hS i hi).1)]
        rw [ptOf, ptOf, k3 q (Or.inl (by omega)), k3 (q + 1) (Or.inl (by omega)), k2 q qS.1, k2 _ qS.2]
    have hstk : Stk σ4 p0 (st1.stack.map fun e => (ops.eval (co σ2) e.1, e.2)) := by
      refine Stk.map (σ := σ1) _ i1.stk fun i hi => ?_
      have : ptOf σ4 (p0 + 2 * i) = ptOf σ3 (p0 + 2 * i) := by
        rw [ptOf, ptOf, k4 _ (by omega) (by omega), k4 _ (by omega) (by omega)]
      rw [this, e3 i hi, ptOf, ptOf, k2 _ (oS _ (by omega)), k2 _ (oS _ (by omega))]
    have hcv : cv σ4 = cv σ2 := h.cvS fun i hi => by
      have := h.hS i hi
      rw [k4 i (by omega) (by omega), k3 i (Or.inl (by omega))]
    have e2' : ops.get st1.R = (cv σ2, co σ2) := by rw [← i1.R, e2]
    rw [e2']
    dsimp only
    generalize o.Q.elim _ _ = m4 at a4 ⊢
    cases hst : st1.stack with
    | nil =>
      have : x1.idx = [] := by rw [i1.idx, hst]; rfl
      rw [this]
      trivial
    | cons e es =>
      have hx : x1.idx = e.2 :: es.map Prod.snd := by rw [i1.idx, hst]; rfl
      rw [hst] at hstk hroom1
      rw [hx]
      simp only [List.map_cons]
      rw [List.map_cons] at hstk
      rw [List.length_cons] at hroom1
      have hl2 : (es.map Prod.snd).length = es.length := List.length_map ..
      obtain ⟨σ5, a5, e5, k5⟩ := a4.copyPt h.lay (a := p0 + 2 * es.length) (c := r) (by omega) (by omega) (Or.inr (by omega))
      rw [← h.aR, ← h.aR', ← h.aP, ← h.aP', ← h.sp, ← hl2] at a5
      refine LoopRel.mono (σ' := σ5) (fun i h1 h2 h3 h4 h5 h6 => ?_) (stratRowsM_rel h n a5 ?_)
      · rw [k5 i h3 h4, k4 i h5 h6, k3 i (Or.inl h1), k2 i h2]
      · refine ⟨?_, ?_, ?_, rfl, ?_, i1.strat, ?_, ?_⟩
        · refine Eq.trans (h.cvS fun i hi => ?_) hcv
          have := h.hS i hi
          rw [k5 i (by omega) (by omega)]
        · have := hstk.1
          rw [List.length_map] at this
          rw [e5, this]
        · simp only
          rw [e4]
          congr 1
          funext _
          rw [ptOf, ptOf, k5 q (by omega) (by omega), k5 (q + 1) (by omega) (by omega)]
        · simp
        · exact hstk.2.congr fun i h1 h2 => k5 i (by omega) (by omega)
        · simp only [List.length_map]
          omega

end

end Secuer.CMem
