import Verif.Props.HonestProps

/-!
# Property C64: hiding strings are drawn freshly and used once
-/

namespace Secuer.ProtocolProps

open Secuer.Protocol Secuer.Curve Secuer.Mont Secuer.Field Secuer.Text Secuer.Scalar Secuer.ChainProps Secuer.CurveProps

/-- The computation draws no hiding string. -/
def Keeps {F α : Type} (m : M F α) : Prop := ∀ t a t', m t = .ok (a, t') → t'.hide = t.hide

section
variable {F α β : Type}

theorem Keeps.pure (a : α) : Keeps (pure a : M F α) := by intro t b t' h; cases h; rfl

theorem Keeps.ub : Keeps (M.ub : M F α) := by intro t b t' h; cases h

theorem Keeps.abort : Keeps (M.abort : M F α) := by intro t b t' h; cases h

theorem Keeps.starved : Keeps (M.starved : M F α) := by intro t b t' h; cases h

theorem Keeps.lift (o : Out α) : Keeps (M.lift o : M F α) := by
  intro t b t' h
  cases o <;> first | (cases h; rfl) | cases h

theorem Keeps.bind [Field F] [DecidableEq F] {m : M F α} {k : α → M F β} (hm : Keeps m) (hk : ∀ a, Keeps (k a)) :
    Keeps (m >>= k) := by
  intro t b t' h
  obtain ⟨a, t1, h1, h2⟩ := bind_ok h
  rw [hk a _ _ _ h2, hm _ _ _ h1]

theorem Keeps.ite {c : Prop} [Decidable c] {m n : M F α} (hm : Keeps m) (hn : Keeps n) : Keeps (if c then m else n) := by
  split
  · exact hm
  · exact hn
end

variable (l : Level)

theorem keeps_randomPoint (A : l.F) : Keeps (randomPoint l.env A) := by
  intro t a t' h
  unfold randomPoint at h
  split at h
  · cases h
  · cases h; rfl

theorem keeps_randomPointCof (A : l.F) (q : ℕ) (cof : Pt l.F → Pt l.F) : ∀ n, Keeps (randomPointCof l.env A q cof n)
  | 0 => Keeps.abort
  | n + 1 => by
    unfold randomPointCof
    exact Keeps.bind (keeps_randomPoint l A) fun P => Keeps.ite (keeps_randomPointCof A q cof n) (Keeps.pure _)

theorem keeps_randomPointWithOrder (A : l.F) (q : ℕ) : Keeps (randomPointWithOrder l.env A q) := by
  unfold randomPointWithOrder
  exact Keeps.bind (keeps_randomPointCof l A q _ _) fun P => Keeps.bind (Keeps.lift _) fun r => Keeps.pure _

theorem keeps_randomPointABLoop (A : l.F) (q e : ℕ) (av : Option (Pt l.F)) : ∀ n, Keeps (randomPointABLoop l.env A q e av n)
  | 0 => Keeps.abort
  | n + 1 => by
    unfold randomPointABLoop
    refine Keeps.bind (keeps_randomPointWithOrder l A q) fun P => ?_
    obtain ⟨P, e', Q⟩ := P
    exact Keeps.ite (keeps_randomPointABLoop A q e av n) (Keeps.ite (keeps_randomPointABLoop A q e av n) (Keeps.pure _))

theorem keeps_backLoop (A : l.F) (R : Pt l.F) : ∀ n, Keeps (backLoop l.env A R n)
  | 0 => Keeps.starved
  | n + 1 => by
    unfold backLoop
    refine Keeps.bind (keeps_randomPointWithOrder l A 3) fun P => ?_
    obtain ⟨P, e', Q⟩ := P
    exact Keeps.ite (keeps_backLoop A R n) (Keeps.pure _)

theorem keeps_isogenyB (wb : Bool) (E : Crv l.F) (k : Pt l.F) (q : Option (Pt l.F)) : Keeps (isogenyB l.env wb E k q) := by
  unfold isogenyB
  dsimp only
  refine Keeps.ite (Keeps.pure _) ?_
  split
  · exact Keeps.ub
  · refine Keeps.ite (Keeps.bind ?_ fun _ => Keeps.pure _) (Keeps.bind (Keeps.pure _) fun _ => Keeps.pure _)
    intro t a t' h
    obtain ⟨b, t1, h1, h2⟩ := bind_ok (m := backLoop l.env _ _ _) (k := fun b => M.pure (some b)) h
    cases h2
    exact keeps_backLoop l _ _ _ _ _ _ h1

theorem keeps_chainBLoop : ∀ (n : ℕ) (E : Crv l.F) (b : Option (Pt l.F)), Keeps (chainBLoop l.env E b n)
  | 0, _, _ => Keeps.pure _
  | n + 1, E, b => by
    unfold chainBLoop
    refine Keeps.bind (keeps_randomPointABLoop l _ _ _ _ _) fun P => ?_
    refine Keeps.bind (keeps_isogenyB l _ _ _ _) fun r => ?_
    split
    · exact Keeps.ub
    · exact Keeps.bind (keeps_chainBLoop n _ _) fun r => Keeps.pure _

theorem keeps_randomChainB (n : ℕ) (E : Crv l.F) : Keeps (randomChainB l.env n E) := by
  unfold randomChainB
  exact Keeps.bind (keeps_chainBLoop l _ _ _) fun r => Keeps.pure _

theorem Draws0.keeps {F α : Type} {m : M F α} (h : Draws0 m) : Keeps m := fun t a t' e => by rw [h t a t' e]

theorem randomHide_eq {n : ℕ} {t t' : Tape l.F} {r : Bytes} (h : randomHide l n t = .ok (r, t')) : t.hide = r :: t'.hide := by
  unfold randomHide at h
  split at h
  · cases h
  · split at h
    · cases h; assumption
    · cases h

/-- **C64.** An instance takes the next two hiding strings, `r2` and then `r3`. -/
theorem c64_instance (H : Hash) {s : Secret} {t t' : Tape l.F} {v : Inst l} {c : Comm}
    (h : instanceM l H s t = .ok ((v, c), t')) : t.hide = v.r2 :: v.r3 :: t'.hide := by
  unfold instanceM at h
  obtain ⟨_ | ⟨e, es⟩, ps⟩ := s
  · cases h
  · dsimp only [List.map_cons] at h
    obtain ⟨left, t1, h1, h⟩ := bind_ok h
    obtain ⟨⟨bottom, right⟩, t2, h2, h⟩ := bind_ok h
    obtain ⟨EA, t3, h3, h⟩ := bind_ok h
    obtain ⟨EB, t4, h4, h⟩ := bind_ok h
    rw [← keeps_randomChainB l _ _ _ _ _ h1, ← (draws0_gridLoop l _ _).keeps _ _ _ h2, ← (draws0_lastA l _).keeps _ _ _ h3,
      ← (draws0_lastB l _).keeps _ _ _ h4]
    match hl : left.E.getLast?, h with
    | none, h => cases h
    | some E2, h =>
      obtain ⟨r2, t5, h5, h⟩ := bind_ok h
      obtain ⟨r3, t6, h6, h⟩ := bind_ok h
      cases h
      rw [randomHide_eq l h5, randomHide_eq l h6]

/-- **C64.** Over all repetitions, `Prove` uses the hiding strings drawn one after the other, each for one commitment. -/
theorem c64_all (H : Hash) {s : Secret} : ∀ (n : ℕ) {t t' : Tape l.F} {vs : List (Inst l × Comm)},
    instances l H s n t = .ok (vs, t') → t.hide = (vs.map fun v => [v.1.r2, v.1.r3]).flatten ++ t'.hide
  | 0, t, t', vs, h => by cases h; rfl
  | n + 1, t, t', vs, h => by
    unfold instances at h
    obtain ⟨v, t1, h1, h⟩ := bind_ok h
    obtain ⟨ws, t2, h2, h⟩ := bind_ok h
    cases h
    rw [c64_instance l H h1, c64_all H n h2]
    simp

/-- Both, applied to the run of the honest prover from the initial curve. -/
example : ∃ (H : Hash) (sec : Secret) (vs : List (Inst l × Comm)) (t t' : Tape l.F),
    instances l H sec (params l).reps t = .ok (vs, t') ∧ vs.length = (params l).reps ∧
    t.hide = (vs.map fun v => [v.1.r2, v.1.r3]).flatten ++ t'.hide := by
  obtain ⟨H, fuel, x, sec, prf, t, t₁, t₂, -, -, -, -, -, hg, hp, -⟩ := honest_initial l
  obtain ⟨ha, a₁, hs⟩ := (generate_ret l (someMem l) x).2 _ _ _ hg sec rfl
  obtain ⟨s, vs, hvs, hi⟩ := instances_can l H hs ha (params l).reps
  exact ⟨H, sec, vs, _, _, hi s, hvs.1, c64_all l H _ (hi s)⟩

end Secuer.ProtocolProps
