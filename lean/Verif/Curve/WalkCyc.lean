import Verif.Curve.Walk

/-!
# A walk is a cyclic isogeny
-/

namespace Secuer.Curve

open Secuer.Mont

variable {F K : Type} [Field F] [DecidableEq F] [Field K] [DecidableEq K] [IsAlgClosed K]
variable {φ : F →+* K} {σ : K →+* K} {p : ℕ} {env : Env F}

theorem Cyc.rebase {ℓ n : ℕ} {A B : K} {g : Pt K → Pt K} {P : (W A).Point} {b b' : Pt K} (h : Cyc ℓ n A B g P b)
    (hb : PEq b b') : Cyc ℓ n A B g P b' :=
  ⟨h.hom, h.src, h.tgt, h.ker, h.pos, h.kill, h.exact, h.surj, fun T h1 h2 => (h.back T h1 h2).trans hb⟩

/-- A walk that continues a cyclic isogeny. -/
theorem Walk.extend (h2 : (2 : K) ≠ 0) (h3 : (3 : K) ≠ 0) {ℓ e : ℕ} (hℓ : ℓ = 2 ∨ ℓ = 3) {bo : Option (Pt K)} {a a'' : F}
    {cells : List (Crv F × Pt F)} {G : Pt K → Pt K} (hw : Walk φ ℓ e bo a cells a'' G) :
    ∀ (b₀ : Pt K) (A : K) (n : ℕ) (g : Pt K → Pt K) (P : (W A).Point), bo = some b₀ → Tors ℓ (A := φ a) b₀ →
      Cyc ℓ n A (φ a) g P b₀ → DefOver φ (ℓ ^ n) g →
      ∃ P b, Cyc ℓ (n + e * cells.length) A (φ a'') (fun q => G (g q)) P b ∧
        DefOver φ (ℓ ^ (n + e * cells.length)) (fun q => G (g q)) := by
  induction hw with
  | nil bo a =>
    rintro b₀ A n g P rfl - hc hd
    exact ⟨P, b₀, by simpa using hc, by simpa using hd⟩
  | @cons bo a a' a'' E k rest P' gF gK b G hE hk hF hb hr ih =>
    rintro b₀ A n g P rfl ht hc hd
    have hz := hb b₀ rfl
    obtain ⟨Q, hQ, -⟩ := Cyc.comp_back (prime_of hℓ) h2 hc hF.cyc hz
    have hQ := hQ.rebase (hF.image_tors ht hz)
    have hd' := hF.defd.comp φ hd
    rw [← pow_add] at hd'
    obtain ⟨R, c, h5, h6⟩ := ih b A (n + e) _ Q rfl (hF.back_tors h2 h3 hℓ) hQ hd'
    have he : n + e * ((E, k) :: rest).length = n + e + e * rest.length := by rw [List.length_cons]; ring
    rw [he]
    exact ⟨R, c, h5, h6⟩

/-- **A walk is a cyclic isogeny** of degree `ℓ^(e·length)`. -/
theorem Walk.cyc (h2 : (2 : K) ≠ 0) (h3 : (3 : K) ≠ 0) {ℓ e : ℕ} (hℓ : ℓ = 2 ∨ ℓ = 3) {bo : Option (Pt K)} {a a'' : F}
    {cells : List (Crv F × Pt F)} {G : Pt K → Pt K} (hw : Walk φ ℓ e bo a cells a'' G) (hne : cells ≠ []) :
    ∃ P b, Cyc ℓ (e * cells.length) (φ a) (φ a'') G P b ∧ DefOver φ (ℓ ^ (e * cells.length)) G := by
  cases hw with
  | nil => exact absurd rfl hne
  | @cons bo a a' a'' E k rest P' gF gK b G hE hk hF hb hr =>
    obtain ⟨R, c, h5, h6⟩ := hr.extend h2 h3 hℓ b (φ a) e gK P' rfl (hF.back_tors h2 h3 hℓ) hF.cyc hF.defd
    have he : e * ((E, k) :: rest).length = e + e * rest.length := by rw [List.length_cons]; ring
    rw [he]
    exact ⟨R, c, h5, h6⟩

end Secuer.Curve
