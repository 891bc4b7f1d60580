import Verif.Curve.Cell
import Verif.Protocol.Model

/-!
# The grid of `Instance`

Pushing a 2-power walk along a 3-power walk, and conversely: the bottom and the right side of the grid are walks that
end at the same curve.
-/

namespace Secuer.Protocol

open Secuer.Curve Secuer.Mont Secuer.Field

variable (l : Level)

theorem three_K : (3 : l.K) ≠ 0 := by
  intro h
  apply l.three_ne
  apply l.φ.injective
  rw [map_ofNat, map_zero]; exact h

theorem gridRow_walk {bo : Option (Pt l.K)} {a a'' : l.F} {cells : List (Crv l.F × Pt l.F)} {G : Pt l.K → Pt l.K}
    (hw : Walk l.φ 2 l.env.e2 bo a cells a'' G) : ∀ (El : Crv l.F) (Kl : Pt l.F) (c : l.F) (fF : Pt l.F → Pt l.F)
      (fK : Pt l.K → Pt l.K) (R : (W (l.φ a)).Point) (d : Pt l.K), Super l.φ l.σ l.p a → On El a → Rep (Kl.map l.φ) R →
      FIsog l.φ 3 l.env.e3 a c fF fK R d → (∀ b₀ ∈ bo, Tors 2 (A := l.φ a) b₀) →
      ∃ (cells' : List (Crv l.F × Pt l.F)) (El' : Crv l.F) (Kl' : Pt l.F) (c'' : l.F) (fF' : Pt l.F → Pt l.F)
        (fK' : Pt l.K → Pt l.K) (R' : (W (l.φ a'')).Point) (d' : Pt l.K) (G' : Pt l.K → Pt l.K),
        gridRow l cells El Kl = pure (cells', El', Kl') ∧ cells'.length = cells.length ∧ On El' a'' ∧
        Rep (Kl'.map l.φ) R' ∧ FIsog l.φ 3 l.env.e3 a'' c'' fF' fK' R' d' ∧
        Walk l.φ 2 l.env.e2 (bo.map fK) c cells' c'' G' ∧ ∀ q, Nz q → PEq (G' (fK q)) (fK' (G q)) := by
  have hS := l.setting
  have h2 := two_map l.φ hS.two
  have h3 := three_K l
  induction hw with
  | nil bo a =>
    intro El Kl c fF fK R d ha hEl hKl kf _
    exact ⟨[], El, Kl, c, fF, fK, R, d, id, rfl, rfl, hEl, hKl, kf, Walk.nil _ _, fun q _ => PEq.refl _⟩
  | @cons bo a a' a'' E k rest P gF gK b G hE hk kg hb hr ih =>
    intro El Kl c fF fK R d ha hEl hKl kf hbo
    obtain ⟨Er, Kr, bb, Eb, Kb, run1, run2, hEr, hEb, c', gF', gK', P', b', fF', fK', R', d', kg', kf', hKr, hKb, hsq⟩ :=
      cell hS h3 ha kg kf hE hEl hk hKl
    have hbt := kg.back_tors h2 h3 (Or.inl rfl)
    obtain ⟨cells', El', Kl', c'', fF'', fK'', R'', d'', G', e1, e2, e3, e4, e5, e6, e7⟩ :=
      ih Er Kr c' fF' fK' R' d' (kg.super hS ha) hEr hKr kf' (by rintro _ ⟨rfl⟩; exact hbt)
    have hrun : gridRow l ((E, k) :: rest) El Kl = pure ((Eb, Kb) :: cells', El', Kl') := by
      unfold gridRow
      rw [run1, lift_ok_bind]
      simp only
      rw [run2]
      change (gridRow l rest Er Kr >>= fun r => pure ((Eb, Kb) :: r.1, r.2.1, r.2.2)) = _
      rw [e1]
      rfl
    refine ⟨(Eb, Kb) :: cells', El', Kl', c'', fF'', fK'', R'', d'', G' ∘ gK', hrun, by simp [e2], e3, e4, e5, ?_, ?_⟩
    · refine Walk.cons hEb hKb kg' ?_ (e6.back ?_)
      · intro b₁ hb₁
        obtain ⟨b₀, hb₀, rfl⟩ := Option.map_eq_some_iff.1 hb₁
        have ht : Tors 2 (A := l.φ a) b₀ := hbo b₀ hb₀
        have hz := hb b₀ hb₀
        have hpe := kg.image_tors ht hz
        have ht' : Tors 2 (A := l.φ c') (fK' b) :=
          kf'.push_tors h2 Nat.prime_three Nat.prime_two (by norm_num) hbt
        have e8 := (hsq b₀ ht.nz).trans (kf'.cyc.hom.congr _ _ hpe)
        exact fun h0 => ht'.Z_ne (e8.Z_iff.2 h0)
      · obtain ⟨rfl, _⟩ := kg.norm.1 rfl
        obtain ⟨rfl, _⟩ := kg'.norm.1 rfl
        exact (kf'.norm.2 rfl).1
    · intro q hq
      exact (e6.congr (hsq q hq)).trans (e7 (gK q) (kg.cyc.hom.nz _ hq))

theorem gridLoop_walk {bo : Option (Pt l.K)} {a a₂ : l.F} {rows : List (Crv l.F × Pt l.F)} {H : Pt l.K → Pt l.K}
    (hl : Walk l.φ 3 l.env.e3 bo a rows a₂ H) : ∀ (bottom : List (Crv l.F × Pt l.F)) (a₁ : l.F) (G : Pt l.K → Pt l.K),
      Super l.φ l.σ l.p a → Walk l.φ 2 l.env.e2 none a bottom a₁ G → (∀ b₀ ∈ bo, Tors 3 (A := l.φ a) b₀) →
      ∃ (bottom' right : List (Crv l.F × Pt l.F)) (a₃ : l.F) (G' H' : Pt l.K → Pt l.K),
        gridLoop l rows bottom = pure (bottom', right) ∧ bottom'.length = bottom.length ∧ right.length = rows.length ∧
        Walk l.φ 2 l.env.e2 none a₂ bottom' a₃ G' ∧ Walk l.φ 3 l.env.e3 (bo.map G) a₁ right a₃ H' := by
  have hS := l.setting
  have h2 := two_map l.φ hS.two
  have h3 := three_K l
  induction hl with
  | nil bo a =>
    intro bottom a₁ G ha hw _
    exact ⟨bottom, [], a₁, G, id, rfl, rfl, rfl, hw, Walk.nil _ _⟩
  | @cons bo a a' a₂ El Kl rest R fF fK d H hE hk kf hb hr ih =>
    intro bottom a₁ G ha hw hbo
    obtain ⟨bottom₁, Er, Kr, c, fF', fK', R', d', G₁, e1, e2, e3, e4, e5, e6, e7⟩ :=
      gridRow_walk l hw El Kl a' fF fK R d ha hE hk kf (by simp)
    have hdt := kf.back_tors h2 h3 (Or.inr rfl)
    obtain ⟨bottom', right, a₃, G', H', r1, r2, r3, r4, r5⟩ :=
      ih bottom₁ c G₁ (kf.super hS ha) e6 (by rintro _ ⟨rfl⟩; exact hdt)
    have hrun : gridLoop l ((El, Kl) :: rest) bottom = pure (bottom', (Er, Kr) :: right) := by
      unfold gridLoop
      rw [e1]
      change (gridLoop l rest bottom₁ >>= fun r => pure (r.1, (Er, Kr) :: r.2)) = _
      rw [r1]
      rfl
    refine ⟨bottom', (Er, Kr) :: right, a₃, G', H' ∘ fK', hrun, by rw [r2, e2], by simp [r3], r4, ?_⟩
    have p2 := Nat.prime_two
    have p3 := Nat.prime_three
    -- the directions back correspond
    have key : ∀ b₀ : Pt l.K, Tors 3 (A := l.φ a) b₀ → (fK b₀).Z ≠ 0 →
        (fK' (G b₀)).Z ≠ 0 ∧ PEq (G₁ d) (fK' (G b₀)) := by
      intro b₀ ht hz
      have hpe := kf.image_tors ht hz
      have e8 := (e6.congr hpe.symm).trans (e7 b₀ ht.nz)
      have ht' : Tors 3 (A := l.φ c) (G₁ d) := e6.push_tors h2 p2 p3 (by norm_num) hdt
      exact ⟨fun h0 => ht'.Z_ne (e8.Z_iff.1 h0), e8⟩
    refine Walk.cons e3 e4 e5 ?_ (r5.back ?_)
    · intro b₁ hb₁
      obtain ⟨b₀, hb₀, rfl⟩ := Option.map_eq_some_iff.1 hb₁
      exact (key b₀ (hbo b₀ hb₀) (hb b₀ hb₀)).1
    · obtain ⟨T, hT, hTR⟩ := exists_outside h2 h3 kf.cyc.src (Or.inr rfl) kf.cyc.pos (kf.order p3)
      have hTt : Tors 3 (A := l.φ a) (xr T) := ⟨T, rep_xr T, hT, by
        rintro rfl; exact hTR (zero_mem _)⟩
      obtain ⟨k1, k2⟩ := key (xr T) hTt (fun h0 => hTR ((kf.cyc.ker T).1 h0))
      exact k2.trans (e5.image_tors (hw.push_tors h2 p2 p3 (by norm_num) hTt) k1)

theorem lastA_walk {bo : Option (Pt l.K)} {a a'' : l.F} {cells : List (Crv l.F × Pt l.F)} {G : Pt l.K → Pt l.K}
    (hw : Walk l.φ 2 l.env.e2 bo a cells a'' G) (ha : Super l.φ l.σ l.p a) (hne : cells ≠ []) :
    ∃ E, lastA l cells = pure E ∧ On E a'' := by
  have hS := l.setting
  have h2 := two_map l.φ hS.two
  obtain ⟨c, hc⟩ : ∃ c, cells.getLast? = some c := ⟨_, List.getLast?_eq_getLast_of_ne_nil hne⟩
  obtain ⟨a', P, gF, gK, b, hE, ha', hk, kg⟩ := hw.last hS ha hc
  obtain ⟨E', q', hF, hK, hrun, hC, _, kh⟩ := runA hS hE ha' hk (kg.order Nat.prime_two) none
  obtain ⟨e, _⟩ := FIsog.unique h2 (three_K l) (Or.inl rfl) kh kg rfl
  refine ⟨E', ?_, hC, e⟩
  unfold lastA
  rw [hc]
  simp only
  rw [hrun, lift_ok_bind]

theorem lastB_walk {bo : Option (Pt l.K)} {a a'' : l.F} {cells : List (Crv l.F × Pt l.F)} {G : Pt l.K → Pt l.K}
    (hw : Walk l.φ 3 l.env.e3 bo a cells a'' G) (ha : Super l.φ l.σ l.p a) (hne : cells ≠ []) :
    ∃ E, lastB l cells = pure E ∧ On E a'' := by
  have hS := l.setting
  have h2 := two_map l.φ hS.two
  obtain ⟨c, hc⟩ : ∃ c, cells.getLast? = some c := ⟨_, List.getLast?_eq_getLast_of_ne_nil hne⟩
  obtain ⟨a', P, gF, gK, b, hE, ha', hk, kg⟩ := hw.last hS ha hc
  obtain ⟨E', q', hF, hK, b', hC, _, kh, _, hrun, _⟩ := runB hS hE ha' false hk (kg.order Nat.prime_three) none
  obtain ⟨e, _⟩ := FIsog.unique h2 (three_K l) (Or.inr rfl) kh kg rfl
  refine ⟨E', ?_, hC, e⟩
  unfold lastB
  rw [hc]
  simp only
  rw [hrun rfl]
  rfl

end Secuer.Protocol
