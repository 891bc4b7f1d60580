import Verif.Curve.Can
import Verif.Protocol.Model

/-!
# Random values are used up from the front

A computation that returns looks only at the random values that it uses, and uses them from the front. So computations that
ran with different supplies of random values, such as those of several threads, can be put one after the other with a
common supply.
-/

namespace Secuer.Curve

section local_

variable {F α β : Type}

/-- What is returned depends only on the values used, a prefix of the supply. -/
def Local (m : M F α) : Prop :=
  ∀ t a t', m t = .ok (a, t') → ∃ s : Tape F, t = s.app t' ∧ ∀ u, m (s.app u) = .ok (a, u)

/-- … and at least one candidate for a point is used. -/
def Local1 (m : M F α) : Prop :=
  ∀ t a t', m t = .ok (a, t') → ∃ s : Tape F, 1 ≤ s.pts.length ∧ t = s.app t' ∧ ∀ u, m (s.app u) = .ok (a, u)

theorem Tape.nil_app (t : Tape F) : Tape.app ⟨[], [], []⟩ t = t := rfl

theorem Local1.local {m : M F α} (h : Local1 m) : Local m := fun t a t' e =>
  let ⟨s, _, h1, h2⟩ := h t a t' e
  ⟨s, h1, h2⟩

theorem Local.pure (a : α) : Local (pure a : M F α) := by
  intro t b t' h
  cases h
  exact ⟨⟨[], [], []⟩, rfl, fun _ => rfl⟩

theorem Local.ub : Local (M.ub : M F α) := by intro t b t' h; cases h
theorem Local.abort : Local (M.abort : M F α) := by intro t b t' h; cases h
theorem Local.starved : Local (M.starved : M F α) := by intro t b t' h; cases h
theorem Local1.ub : Local1 (M.ub : M F α) := by intro t b t' h; cases h
theorem Local1.abort : Local1 (M.abort : M F α) := by intro t b t' h; cases h
theorem Local1.starved : Local1 (M.starved : M F α) := by intro t b t' h; cases h

theorem Local.lift (o : Out α) : Local (M.lift o : M F α) := by
  cases o
  · exact Local.pure _
  · exact Local.abort
  · exact Local.ub
  · exact Local.starved

theorem bind_okM {m : M F α} {k : α → M F β} {t : Tape F} {b : β} {t' : Tape F} (h : (m >>= k) t = .ok (b, t')) :
    ∃ a t₁, m t = .ok (a, t₁) ∧ k a t₁ = .ok (b, t') := by
  change (match m t with
    | .ok (a, t) => k a t | .abort => .abort | .ub => .ub | .starved => .starved) = _ at h
  match hm : m t, h with
  | .ok (a, t₁), h => exact ⟨a, t₁, rfl, h⟩

theorem bind_eqM {m : M F α} {k : α → M F β} {t : Tape F} {a : α} {t₁ : Tape F} (h : m t = .ok (a, t₁)) :
    (m >>= k) t = k a t₁ := by
  change (match m t with
    | .ok (a, t) => k a t | .abort => .abort | .ub => .ub | .starved => .starved) = _
  rw [h]

theorem Local.bind {m : M F α} {k : α → M F β} (hm : Local m) (hk : ∀ a, Local (k a)) : Local (m >>= k) := by
  intro t b t' h
  obtain ⟨a, t₁, h1, h2⟩ := bind_okM h
  obtain ⟨s, rfl, hs⟩ := hm _ _ _ h1
  obtain ⟨s', rfl, hs'⟩ := hk a _ _ _ h2
  refine ⟨s.app s', (Tape.app_assoc _ _ _).symm, fun u => ?_⟩
  rw [Tape.app_assoc, bind_eqM (hs _), hs']

theorem Local1.bind {m : M F α} {k : α → M F β} (hm : Local1 m) (hk : ∀ a, Local (k a)) : Local1 (m >>= k) := by
  intro t b t' h
  obtain ⟨a, t₁, h1, h2⟩ := bind_okM h
  obtain ⟨s, hl, rfl, hs⟩ := hm _ _ _ h1
  obtain ⟨s', rfl, hs'⟩ := hk a _ _ _ h2
  refine ⟨s.app s', ?_, (Tape.app_assoc _ _ _).symm, fun u => ?_⟩
  · simp only [Tape.app, List.length_append]; omega
  · rw [Tape.app_assoc, bind_eqM (hs _), hs']

theorem Local.ite {c : Prop} [Decidable c] {m n : M F α} (hm : Local m) (hn : Local n) : Local (if c then m else n) := by
  split
  · exact hm
  · exact hn

end local_

variable {F : Type} [Field F] [DecidableEq F] (env : Env F)

theorem randomPointAux_local (A : F) : ∀ (xs : List F) x ys, randomPointAux env A xs = some (x, ys) →
    ∃ zs, 1 ≤ zs.length ∧ xs = zs ++ ys ∧ ∀ us, randomPointAux env A (zs ++ us) = some (x, us)
  | [], x, ys, h => by simp [randomPointAux] at h
  | w :: xs, x, ys, h => by
    unfold randomPointAux at h
    dsimp only at h
    split at h
    · rename_i hs
      cases h
      refine ⟨[w], by simp, rfl, fun us => ?_⟩
      rw [List.singleton_append]
      unfold randomPointAux
      dsimp only
      rw [if_pos hs]
    · rename_i hs
      obtain ⟨zs, h1, rfl, h3⟩ := randomPointAux_local A xs x ys h
      refine ⟨w :: zs, by simp, rfl, fun us => ?_⟩
      rw [List.cons_append]
      unfold randomPointAux
      dsimp only
      rw [if_neg hs]
      exact h3 us

theorem randomPoint_local (A : F) : Local1 (randomPoint env A) := by
  intro t a t' h
  unfold randomPoint at h
  match hx : randomPointAux env A t.pts, h with
  | some (x, xs), h =>
    cases h
    obtain ⟨zs, h1, h2, h3⟩ := randomPointAux_local env A _ _ _ hx
    refine ⟨⟨zs, [], []⟩, h1, ?_, fun u => ?_⟩
    · cases t
      simp only at h2
      subst h2
      rfl
    · unfold randomPoint
      simp only [Tape.app]
      rw [h3]
      rfl

theorem randomPointCof_local (A : F) (q : ℕ) (cof : Pt F → Pt F) : ∀ n, Local1 (randomPointCof env A q cof n)
  | 0 => Local1.abort
  | n + 1 => by
    unfold randomPointCof
    exact (randomPoint_local env A).bind fun P => Local.ite (randomPointCof_local A q cof n).local (Local.pure _)

theorem randomPointWithOrder_local (A : F) (q : ℕ) : Local1 (randomPointWithOrder env A q) := by
  unfold randomPointWithOrder
  exact (randomPointCof_local env A q _ _).bind fun P => Local.bind (Local.lift _) fun r => Local.pure _

theorem randomPointABLoop_local (A : F) (q e : ℕ) (av : Option (Pt F)) : ∀ n, Local1 (randomPointABLoop env A q e av n)
  | 0 => Local1.abort
  | n + 1 => by
    unfold randomPointABLoop
    refine (randomPointWithOrder_local env A q).bind fun P => ?_
    obtain ⟨P, e', Q⟩ := P
    exact Local.ite (randomPointABLoop_local A q e av n).local (Local.ite (randomPointABLoop_local A q e av n).local (Local.pure _))

theorem randomPointAB_local (E : Crv F) (q : ℕ) (av : Option (Pt F)) : Local (randomPointAB env E q av) :=
  (randomPointABLoop_local env _ _ _ _ _).local

theorem backLoop_local (A : F) (R : Pt F) : ∀ (n : ℕ) t a t', backLoop env A R n t = .ok (a, t') →
    ∃ s : Tape F, t = s.app t' ∧ ∀ u m, s.pts.length ≤ m → backLoop env A R m (s.app u) = .ok (a, u)
  | 0, t, a, t', h => by cases h
  | n + 1, t, a, t', h => by
    unfold backLoop at h
    obtain ⟨⟨P, e, b⟩, t₁, h1, h2⟩ := bind_okM h
    obtain ⟨s, hl, rfl, hs⟩ := randomPointWithOrder_local env A 3 _ _ _ h1
    dsimp only at h2
    by_cases hb : pointEqual b R = true
    · rw [if_pos hb] at h2
      obtain ⟨s', rfl, hs'⟩ := backLoop_local A R n _ _ _ h2
      refine ⟨s.app s', (Tape.app_assoc _ _ _).symm, fun u m hm => ?_⟩
      simp only [Tape.app, List.length_append] at hm
      obtain ⟨m, rfl⟩ : ∃ k, m = k + 1 := ⟨m - 1, by omega⟩
      rw [Tape.app_assoc]
      unfold backLoop
      rw [bind_eqM (hs _)]
      dsimp only
      rw [if_pos hb]
      exact hs' u m (by omega)
    · rw [if_neg hb] at h2
      cases h2
      refine ⟨s, rfl, fun u m hm => ?_⟩
      obtain ⟨m, rfl⟩ : ∃ k, m = k + 1 := ⟨m - 1, by omega⟩
      unfold backLoop
      rw [bind_eqM (hs _)]
      dsimp only
      rw [if_neg hb]
      rfl

theorem isogenyB_local (wb : Bool) (E : Crv F) (k : Pt F) (q : Option (Pt F)) : Local (isogenyB env wb E k q) := by
  unfold isogenyB
  dsimp only
  refine Local.ite (Local.pure _) ?_
  split
  · exact Local.ub
  · refine Local.ite (Local.bind ?_ fun _ => Local.pure _) (Local.bind (Local.pure _) fun _ => Local.pure _)
    intro t a t' h
    obtain ⟨b, t₁, h1, h2⟩ := bind_okM (m := backLoop env _ _ _) (k := fun b => M.pure (some b)) h
    cases h2
    obtain ⟨s, rfl, hs⟩ := backLoop_local env _ _ _ _ _ _ h1
    refine ⟨s, rfl, fun u => ?_⟩
    have := hs u ((s.app u).pts.length + 1) (by simp only [Tape.app, List.length_append]; omega)
    exact bind_eqM (m := backLoop env _ _ _) (k := fun b => M.pure (some b)) this

theorem checkCurveLoop_local (po : ProvesOrder) (junk : ℕ → Pt F × Pt F) (A a b c : F) : ∀ (n : ℕ) (x y : Pt F × ℕ),
    Local (checkCurveLoop env po junk A a b c n x y)
  | 0, _, _ => Local.abort
  | n + 1, x, y => by
    unfold checkCurveLoop
    refine (randomPoint_local env A).local.bind fun P => ?_
    dsimp only
    refine Local.ite (Local.pure _) (Local.ite (Local.pure _) (Local.ite (Local.pure _) (Local.ite (Local.pure _) ?_)))
    exact checkCurveLoop_local po junk A a b c n _ _

theorem checkCurve_local (po : ProvesOrder) (junk : ℕ → Pt F × Pt F) (E : Crv F) : Local (checkCurve env po junk E) :=
  checkCurveLoop_local env _ _ _ _ _ _ _ _ _

theorem chainALoop_local : ∀ (n : ℕ) (E : Crv F) (b : Option (Pt F)), Local (chainALoop env E b n)
  | 0, _, _ => Local.pure _
  | n + 1, E, b => by
    unfold chainALoop
    refine (randomPointAB_local env _ _ _).bind fun P => (Local.lift _).bind fun r => ?_
    split
    · exact Local.ub
    · exact (chainALoop_local n _ _).bind fun r => Local.pure _

theorem randomChainA_local (n : ℕ) (E : Crv F) : Local (randomChainA env n E) := by
  unfold randomChainA
  exact (chainALoop_local env _ _ _).bind fun r => Local.pure _

theorem chainBLoop_local : ∀ (n : ℕ) (E : Crv F) (b : Option (Pt F)), Local (chainBLoop env E b n)
  | 0, _, _ => Local.pure _
  | n + 1, E, b => by
    unfold chainBLoop
    refine (randomPointAB_local env _ _ _).bind fun P => (isogenyB_local env _ _ _ _).bind fun r => ?_
    split
    · exact Local.ub
    · exact (chainBLoop_local n _ _).bind fun r => Local.pure _

theorem randomChainB_local (n : ℕ) (E : Crv F) : Local (randomChainB env n E) := by
  unfold randomChainB
  exact (chainBLoop_local env _ _ _).bind fun r => Local.pure _

theorem randomOdd_local : Local (randomOdd env) := by
  intro t a t' h
  obtain ⟨p, hd, sc⟩ := t
  cases sc with
  | nil => cases h
  | cons m ms =>
    cases h
    exact ⟨⟨[], [], [m]⟩, rfl, fun u => rfl⟩

theorem packChainA_local : ∀ (Es : List (Crv F)) (Ps : List (Pt F)), Local (packChainA env Es Ps)
  | [], _ => by unfold packChainA; exact Local.pure _
  | _ :: _, [] => by unfold packChainA; exact Local.pure _
  | E :: Es, P :: Ps => by
    unfold packChainA
    exact (randomOdd_local env).bind fun _ => (Local.lift _).bind fun _ => (packChainA_local Es Ps).bind fun _ => Local.pure _

theorem packChainB_local : ∀ (Es : List (Crv F)) (Ps : List (Pt F)), Local (packChainB env Es Ps)
  | [], _ => by unfold packChainB; exact Local.pure _
  | _ :: _, [] => by unfold packChainB; exact Local.pure _
  | E :: Es, P :: Ps => by
    unfold packChainB
    exact (Local.lift _).bind fun _ => (packChainB_local Es Ps).bind fun _ => Local.pure _

theorem unpackChainALoop_local : ∀ (xs : List F) (E : Crv F) (b : Pt F), Local (unpackChainALoop env xs E b)
  | [], _, _ => Local.pure _
  | x :: xs, E, b => by
    unfold unpackChainALoop
    refine (Local.lift _).bind fun iso => (Local.lift _).bind fun r => ?_
    split
    · exact Local.pure _
    · split
      · exact Local.ub
      · exact unpackChainALoop_local xs _ _

theorem unpackChainA_local (po : ProvesOrder) (junk : ℕ → Pt F × Pt F) (a : F) (xs : List F) :
    Local (unpackChainA env po junk a xs) := by
  unfold unpackChainA
  refine (checkCurve_local env _ _ _).bind fun _ => ?_
  split
  · exact Local.ub
  · refine (Local.lift _).bind fun r => ?_
    split
    · exact Local.pure _
    · refine (unpackChainALoop_local env _ _ _).bind fun r => ?_
      split
      · exact Local.pure _
      · exact Local.ite (Local.pure _) (Local.pure _)

theorem unpackChainBLoop_local : ∀ (xs : List F) (E : Crv F) (b : Pt F), Local (unpackChainBLoop env xs E b)
  | [], _, _ => Local.pure _
  | x :: xs, E, b => by
    unfold unpackChainBLoop
    refine (Local.lift _).bind fun iso => (isogenyB_local env _ _ _ _).bind fun r => ?_
    split
    · exact Local.pure _
    · split
      · exact Local.ub
      · exact unpackChainBLoop_local xs _ _

theorem unpackChainB_local (po : ProvesOrder) (junk : ℕ → Pt F × Pt F) (a : F) (xs : List F) :
    Local (unpackChainB env po junk a xs) := by
  unfold unpackChainB
  refine (checkCurve_local env _ _ _).bind fun _ => ?_
  split
  · exact Local.pure _
  · refine (isogenyB_local env _ _ _ _).bind fun r => ?_
    split
    · exact Local.pure _
    · split
      · exact Local.ub
      · refine (unpackChainBLoop_local env _ _ _).bind fun r => ?_
        split
        · exact Local.pure _
        · exact Local.ite (Local.pure _) (Local.pure _)

end Secuer.Curve

namespace Secuer.Protocol

open Secuer.Curve Secuer.Text Secuer.Field

variable (l : Level) (H : Hash) (mem : Mem l)

theorem checkedCurve_local (x : PFp2) : Local (checkedCurve l mem x) := checkCurve_local _ _ _ _

theorem challengeM_local (fuel : ℕ) (j0 j1 : PFp2) (hs : List Comm) : Local (challengeM l H mem fuel j0 j1 hs) := by
  unfold challengeM
  split
  · exact Local.pure _
  · exact Local.starved
  · exact Local.ub

theorem unpackResponse_local (E0 E1 : PFp2) (r : CResp) : Local (unpackResponse l H mem E0 E1 r) := by
  unfold unpackResponse
  dsimp only
  refine Local.ite ?_ (Local.ite ?_ (Local.ite ?_ (Local.pure _)))
  · refine (unpackChainB_local _ _ _ _ _).bind fun r => ?_
    split <;> exact Local.pure _
  · refine (checkedCurve_local l mem _).bind fun b => Local.ite (Local.pure _) ?_
    refine (unpackChainA_local _ _ _ _ _).bind fun r => ?_
    split <;> exact Local.pure _
  · refine (unpackChainB_local _ _ _ _ _).bind fun r => ?_
    split <;> exact Local.pure _

theorem unpackAll_local (E0 E1 : PFp2) : ∀ rs : List CResp, Local (unpackAll l H mem E0 E1 rs)
  | [] => Local.pure _
  | r :: rs => by
    unfold unpackAll
    refine (unpackResponse_local l H mem E0 E1 r).bind fun o => ?_
    split
    · exact Local.pure _
    · refine (unpackAll_local E0 E1 rs).bind fun o => ?_
      split <;> exact Local.pure _

theorem verify_local (fuel : ℕ) (prf : CProof) : Local (verify l H mem fuel prf) := by
  unfold verify
  refine (checkedCurve_local l mem _).bind fun b => Local.ite (Local.pure _) ?_
  refine (checkedCurve_local l mem _).bind fun b => Local.ite (Local.pure _) ?_
  refine (unpackAll_local l H mem _ _ _).bind fun o => ?_
  split
  · exact Local.pure _
  · exact (challengeM_local l H mem _ _ _ _).bind fun _ => Local.pure _

theorem randomHide_local (n : ℕ) : Local (randomHide l n) := by
  intro t a t' h
  obtain ⟨p, hd, sc⟩ := t
  cases hd with
  | nil => cases h
  | cons r rs =>
    unfold randomHide at h
    dsimp only at h
    by_cases hr : r.length = n
    · rw [if_pos hr] at h
      cases h
      refine ⟨⟨[], [a], []⟩, rfl, fun u => ?_⟩
      simp only [randomHide, Tape.app, List.cons_append, List.nil_append]
      rw [if_pos hr]
    · rw [if_neg hr] at h
      cases h

theorem gridRow_local : ∀ b E K, Local (gridRow l b E K)
  | [], _, _ => Local.pure _
  | (Et, Kt) :: rest, El, Kl => by
    unfold gridRow
    refine (Local.lift _).bind fun a => ?_
    split
    · refine (isogenyB_local _ _ _ _ _).bind fun a => ?_
      split
      · exact (gridRow_local rest _ _).bind fun _ => Local.pure _
      · exact Local.ub
    · exact Local.ub

theorem gridLoop_local : ∀ a b, Local (gridLoop l a b)
  | [], _ => Local.pure _
  | (El, Kl) :: rows, b => by
    unfold gridLoop
    exact (gridRow_local l _ _ _).bind fun _ => (gridLoop_local rows _).bind fun _ => Local.pure _

theorem lastA_local (b) : Local (lastA l b) := by
  unfold lastA
  split
  · exact Local.ub
  · refine (Local.lift _).bind fun a => ?_
    split
    · exact Local.pure _
    · exact Local.ub

theorem lastB_local (b) : Local (lastB l b) := by
  unfold lastB
  split
  · exact Local.ub
  · refine (isogenyB_local _ _ _ _ _).bind fun a => ?_
    split
    · exact Local.pure _
    · exact Local.ub

theorem instanceM_local (sec : Secret) : Local (instanceM l H sec) := by
  unfold instanceM
  dsimp only
  split
  · exact Local.ub
  · refine (randomChainB_local _ _ _).bind fun left => ?_
    refine (gridLoop_local l _ _).bind fun r => ?_
    refine (lastA_local l _).bind fun EA => (lastB_local l _).bind fun EB => ?_
    split
    · exact Local.ub
    · exact (randomHide_local l _).bind fun _ => (randomHide_local l _).bind fun _ => Local.pure _

theorem packResponse_local (c : Int) (v : Inst l) (k : Comm) : Local (packResponse l c v k) := by
  unfold packResponse
  refine Local.ite ?_ (Local.ite ?_ (Local.ite ?_ Local.ub))
  · exact (packChainB_local _ _ _).bind fun _ => Local.pure _
  · exact (Local.lift _).bind fun _ => (packChainA_local _ _ _).bind fun _ => Local.pure _
  · exact (packChainB_local _ _ _).bind fun _ => Local.pure _

theorem instances_local (sec : Secret) : ∀ n, Local (instances l H sec n)
  | 0 => Local.pure _
  | n + 1 => by
    unfold instances
    exact (instanceM_local l H sec).bind fun _ => (instances_local sec n).bind fun _ => Local.pure _

theorem packAll_local : ∀ (cs : List Int) (vs : List (Inst l × Comm)), Local (packAll l cs vs)
  | [], _ => by unfold packAll; exact Local.pure _
  | _ :: _, [] => by unfold packAll; exact Local.pure _
  | c :: cs, v :: vs => by
    unfold packAll
    exact (packResponse_local l c _ _).bind fun _ => (packAll_local cs vs).bind fun _ => Local.pure _

/-- Instances computed with separate supplies of random values are computed by the loop with a common one. -/
theorem instances_join (sec : Secret) : ∀ vs : List (Inst l × Comm),
    (∀ v ∈ vs, ∃ t t', instanceM l H sec t = .ok (v, t')) →
    ∃ s : Tape l.F, ∀ u, instances l H sec vs.length (s.app u) = .ok (vs, u)
  | [], _ => ⟨⟨[], [], []⟩, fun _ => rfl⟩
  | v :: vs, h => by
    obtain ⟨t, t', ht⟩ := h v (by simp)
    obtain ⟨s, -, hs⟩ := instanceM_local l H sec _ _ _ ht
    obtain ⟨s', hs'⟩ := instances_join sec vs fun w hw => h w (by simp [hw])
    refine ⟨s.app s', fun u => ?_⟩
    rw [List.length_cons, Tape.app_assoc]
    unfold instances
    rw [bind_eqM (hs _), bind_eqM (hs' _)]
    rfl

/-- The same for the responses. -/
theorem packAll_join : ∀ (cs : List Int) (vs : List (Inst l × Comm)) (rs : List Resp), cs.length = rs.length →
    vs.length = rs.length →
    (∀ (i : ℕ) c v r, cs[i]? = some c → vs[i]? = some v → rs[i]? = some r → ∃ t t', packResponse l c v.1 v.2 t = .ok (r, t')) →
    ∃ s : Tape l.F, ∀ u, packAll l cs vs (s.app u) = .ok (rs, u)
  | [], vs, [], _, _, _ => ⟨⟨[], [], []⟩, fun _ => by unfold packAll; rfl⟩
  | c :: cs, v :: vs, r :: rs, h1, h2, h => by
    obtain ⟨t, t', ht⟩ := h 0 c v r rfl rfl rfl
    obtain ⟨s, -, hs⟩ := packResponse_local l c _ _ _ _ _ ht
    obtain ⟨s', hs'⟩ := packAll_join cs vs rs (by simpa using h1) (by simpa using h2)
      fun i c v r hc hv hr => h (i + 1) c v r (by simpa using hc) (by simpa using hv) (by simpa using hr)
    refine ⟨s.app s', fun u => ?_⟩
    rw [Tape.app_assoc]
    unfold packAll
    rw [bind_eqM (hs _), bind_eqM (hs' _)]
    rfl
  | _ :: _, [], _ :: _, _, h2, _ => by simp at h2
  | [], _, _ :: _, h1, _, _ => by simp at h1
  | _ :: _, _, [], h1, _, _ => by simp at h1

/-- What the loop computes can be computed with separate supplies. -/
theorem instances_split (sec : Secret) : ∀ (n : ℕ) (vs : List (Inst l × Comm)) t t', instances l H sec n t = .ok (vs, t') →
    vs.length = n ∧ ∀ v ∈ vs, ∃ t t', instanceM l H sec t = .ok (v, t')
  | 0, vs, t, t', h => by cases h; simp
  | n + 1, vs, t, t', h => by
    unfold instances at h
    obtain ⟨v, t₁, h1, h⟩ := bind_okM h
    obtain ⟨ws, t₂, h2, h⟩ := bind_okM h
    cases h
    obtain ⟨e, hw⟩ := instances_split sec n ws _ _ h2
    refine ⟨by rw [List.length_cons, e], fun w hw' => ?_⟩
    rcases List.mem_cons.1 hw' with rfl | hw'
    · exact ⟨_, _, h1⟩
    · exact hw w hw'

/-- The same for the responses. -/
theorem packAll_split : ∀ (cs : List Int) (vs : List (Inst l × Comm)) (rs : List Resp) t t', cs.length = vs.length →
    packAll l cs vs t = .ok (rs, t') → rs.length = vs.length ∧
    ∀ (i : ℕ) c v r, cs[i]? = some c → vs[i]? = some v → rs[i]? = some r → ∃ t t', packResponse l c v.1 v.2 t = .ok (r, t')
  | [], [], rs, t, t', _, h => by
    unfold packAll at h
    cases h
    exact ⟨rfl, fun i c v r hc => by simp at hc⟩
  | c :: cs, v :: vs, rs, t, t', hl, h => by
    unfold packAll at h
    obtain ⟨r, t₁, h1, h⟩ := bind_okM h
    obtain ⟨qs, t₂, h2, h⟩ := bind_okM h
    cases h
    obtain ⟨e, hw⟩ := packAll_split cs vs qs _ _ (by simpa using hl) h2
    refine ⟨by rw [List.length_cons, e, List.length_cons], fun i c' v' r' hc hv hr => ?_⟩
    cases i with
    | zero =>
      simp only [List.getElem?_cons_zero, Option.some.injEq] at hc hv hr
      subst hc hv hr
      exact ⟨_, _, h1⟩
    | succ i => exact hw i c' v' r' (by simpa using hc) (by simpa using hv) (by simpa using hr)
  | [], _ :: _, _, _, _, hl, _ => by simp at hl
  | _ :: _, [], _, _, _, hl, _ => by simp at hl

end Secuer.Protocol
