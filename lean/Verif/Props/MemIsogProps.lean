import Verif.CMem.IsogB
import Verif.Props.MemModelProps
import Verif.Props.CurveProps
import Verif.WCurve.RefineMonad

/-!
# Isogenies on memory (C97)

`random_point`, `random_point_with_order`, `Isogeny_A` and `Isogeny_B` of `poik.c`, executed on memory digit by digit, in the portable build.
What they compute is stated with points on curves.
-/

set_option maxRecDepth 100000

namespace Secuer.MemProps

open Secuer.Word Secuer.Field Secuer.CMem
open Secuer.WCurve (V VC VP VI Draw TapeLen)
open Secuer.Curve (Pt Crv Iso Out Tape stratRows)
open Secuer.ChainProps (RightOrder rightOrder_iff rightOrder_zero)
open Secuer.Mont (W)
open Secuer.CurveProps (IsX IsImage IsIsogeny Torsion4 GoodSqrt isX_iff)

variable {l : Level}

/-- Below `s`, memory has changed at most in the areas of `4 n` digits at the addresses in `L`. -/
def OnlyAt (n s : ℕ) (L : List ℕ) (m m' : Mem) : Prop := ∀ x < s, (∀ a ∈ L, x < a ∨ a + 4 * n ≤ x) → m' x = m x

theorem optVars_ge {n : ℕ} {Q : Option ℕ} {P : Option (Pt F2)} {x : ℕ} (h : ∀ a ∈ Q.toList, x < a ∨ a + 4 * n ≤ x) :
    ∀ w ∈ optVars n Q P, ¬ (w.1 ≤ x ∧ x < w.1 + 2 * n) := by
  rcases Q with _ | a <;> rcases P with _ | P <;> simp [optVars, ptVars] at h ⊢
  omega

theorem elimVars_ge {n : ℕ} {Q : Option ℕ} {u v : F2} {x : ℕ} (h : ∀ a ∈ Q.toList, x < a ∨ a + 4 * n ≤ x) :
    ∀ w ∈ (Q.elim [] fun a => [(a, u), (a + 2 * n, v)] : List (ℕ × F2)), ¬ (w.1 ≤ x ∧ x < w.1 + 2 * n) := by
  rcases Q with _ | a <;> simp at h ⊢
  omega

theorem optVars_out {n s : ℕ} {Q : Option ℕ} {P : Option (Pt F2)} {m m' : Mem} {W : List (ℕ × F2)} (h : Effect n s m m' W)
    (hP : P.isSome = Q.isSome) (hW : ∀ w ∈ optVars n Q P, w ∈ W) : Q.map (rdP n m') = P := by
  rcases Q with _ | a <;> rcases P with _ | P <;> simp at hP ⊢
  exact congr (congrArg Pt.mk (h.out (a, P.X) (hW _ (by simp [optVars, ptVars])))) (h.out (a + 2 * n, P.Z) (hW _ (by simp [optVars, ptVars])))

theorem crv_out {n s : ℕ} {Q : Option ℕ} {E : Crv F2} {m m' : Mem} {W : List (ℕ × F2)} (h : Effect n s m m' W)
    (hW : ∀ w ∈ (Q.elim [] fun a => crvVars n a E : List (ℕ × F2)), w ∈ W) : ∀ a ∈ Q, rdC n m' a = E := by
  rintro a rfl
  exact congr (congrArg Crv.mk (h.out (a, E.A) (hW _ (by simp [crvVars])))) (h.out (a + 2 * n, E.C) (hW _ (by simp [crvVars])))

theorem pt_out {n s : ℕ} {Q : Option ℕ} {E : Pt F2} {m m' : Mem} {W : List (ℕ × F2)} (h : Effect n s m m' W)
    (hW : ∀ w ∈ (Q.elim [] fun a => ptVars n a E : List (ℕ × F2)), w ∈ W) : ∀ a ∈ Q, rdP n m' a = E := by
  rintro a rfl
  exact congr (congrArg Pt.mk (h.out (a, E.X) (hW _ (by simp [ptVars])))) (h.out (a + 2 * n, E.Z) (hW _ (by simp [ptVars])))

theorem goodSqrt (l : Level) : GoodSqrt l.env.sqrt := fun s => l.setting.sqrt _ ⟨s, rfl⟩

theorem torsion4 {a : l.F} (h : RightOrder l a) : Torsion4 a := by
  obtain ⟨⟨s, hs⟩, h⟩ := ((rightOrder_iff l).1 h).full4 l.setting.frob l.setting.two
  exact ⟨⟨s, hs.symm⟩, fun x hx => by obtain ⟨t, ht⟩ := h x hx; exact ⟨t, ht.symm⟩⟩

/-! ## `Isogeny_A` -/

section
variable {E K sp : ℕ} {EE Q back : Option ℕ} {E' : Crv l.F} {K' : Pt l.F} {Q' : Option (Pt l.F)} {P : (W (l.φ (E'.A / E'.C))).Point}

/-- If the point at `K` generates a group of order `2^e2`, `Isogeny_A` returns true.  It leaves at `EE` the codomain of an isogeny with this
kernel, at `Q` the image of the point that was there, and at `back` the image of the other points of order 2.  `EE` may be `E`. -/
theorem C97_A_accepts (h : IsoArgs (nw l) sp E K EE Q back) (m : Mem) (hE : VC l (rdC (nw l) m E) E') (hK : VP l (rdP (nw l) m K) K')
    (hQ : Option.Rel (VP l) (Q.map (rdP (nw l) m)) Q') (hC : E'.C ≠ 0) (h0 : RightOrder l (E'.A / E'.C)) (hP : IsX (K'.map l.φ) P)
    (ho : addOrderOf P = 2 ^ l.iso.e2) :
    ∃ m' E'' Q'' b g ψ, isogenyAM l E K EE Q back sp m = some (true, m') ∧ E''.C ≠ 0 ∧ IsIsogeny l.φ (E'.A / E'.C) (E''.A / E''.C) g P ψ ∧
      (∀ a ∈ EE, VC l (rdC (nw l) m' a) E'') ∧ Option.Rel (VP l) (Q.map (rdP (nw l) m')) Q'' ∧ IsImage l.φ ψ Q' Q'' ∧
      (∀ a ∈ back, VP l (rdP (nw l) m' a) b) ∧
      (∀ T : (W (l.φ (E'.A / E'.C))).Point, 2 • T = 0 → T ∉ AddSubgroup.zmultiples P → IsX (b.map l.φ) (ψ T)) ∧
      OnlyAt (nw l) sp (EE.toList ++ Q.toList ++ back.toList) m m' := by
  obtain ⟨E'', Q'', b, g, ψ, e, hC', hi, hq, hb⟩ := CurveProps.c38_A_accepts l.φ l.two (goodSqrt l) l.shipped hC h0.1 (torsion4 h0) K' Q' hP ho
  have r := WCurve.isogenyA_ref hE hK hQ
  have s := isogenyAM_spec h m
  rw [e] at r
  generalize WCurve.isogenyA l _ _ _ = o at r s
  generalize isogenyAM l E K EE Q back sp m = o' at s ⊢
  cases r with
  | ok r =>
  rename_i r'
  cases r with
  | some r =>
  rcases o' with _ | ⟨_ | _, m'⟩
  · exact s.elim
  · exact s.elim
  obtain ⟨s1, s2⟩ := s
  refine ⟨m', E'', Q'', b, g, ψ, rfl, hC', hi, fun a ha => ?_, ?_, hq, fun a ha => ?_, hb, fun x hx hn => s2.frame x hx ?_⟩
  · rw [crv_out s2 (fun w hw => by simp only [List.mem_append]; exact Or.inl (Or.inr hw)) a ha]
    exact r.1
  · rw [optVars_out s2 s1 (fun w hw => by simp only [List.mem_append]; exact Or.inl (Or.inl hw))]
    exact r.2.1
  · rw [pt_out s2 (fun w hw => by simp only [List.mem_append]; exact Or.inr hw) a ha]
    exact r.2.2
  · simp only [List.mem_append] at hn ⊢
    rintro w ((hw | hw) | hw)
    · exact optVars_ge (fun a ha => hn a (Or.inl (Or.inr ha))) w hw
    · exact elimVars_ge (fun a ha => hn a (Or.inl (Or.inl ha))) w hw
    · exact elimVars_ge (fun a ha => hn a (Or.inr ha)) w hw

/-- If the order is another one, `Isogeny_A` returns false.  It may have changed the point at `Q`; `EE` and `back` keep what they contained. -/
theorem C97_A_rejects (h : IsoArgs (nw l) sp E K EE Q back) (m : Mem) (hE : VC l (rdC (nw l) m E) E') (hK : VP l (rdP (nw l) m K) K')
    (hQ : Option.Rel (VP l) (Q.map (rdP (nw l) m)) Q') (hC : E'.C ≠ 0) (h0 : RightOrder l (E'.A / E'.C)) (hP : IsX (K'.map l.φ) P)
    (ho : addOrderOf P ≠ 2 ^ l.iso.e2) :
    ∃ m', isogenyAM l E K EE Q back sp m = some (false, m') ∧ OnlyAt (nw l) sp Q.toList m m' := by
  have e := (CurveProps.c38_A_rejects l.φ l.two (goodSqrt l) l.shipped hC h0.1 (torsion4 h0) K' Q' hP).2 ho
  have r := WCurve.isogenyA_ref hE hK hQ
  have s := isogenyAM_spec h m
  rw [e] at r
  generalize WCurve.isogenyA l _ _ _ = o at r s
  generalize isogenyAM l E K EE Q back sp m = o' at s ⊢
  cases r with
  | ok r =>
  cases r
  rcases o' with _ | ⟨_ | _, m'⟩
  · exact s.elim
  · obtain ⟨P, s⟩ := s
    exact ⟨m', rfl, fun x hx hn => s.frame x hx (optVars_ge hn)⟩
  · exact s.elim

/-! ## `Isogeny_B` -/

/-- If the point at `K` generates a group of order `3^e3`, `Isogeny_B` does not read or write out of bounds, and if it returns, it returns
true, with the codomain of the isogeny at `EE`, the image at `Q` and the image of a point of order 3 outside the kernel at `back`. -/
theorem C97_B_accepts (h : IsoArgsB (nw l) sp E K EE Q back) (t : Tape Draw) (ht : TapeLen l t) (m : Mem) (hE : VC l (rdC (nw l) m E) E')
    (hK : VP l (rdP (nw l) m K) K') (hQ : Option.Rel (VP l) (Q.map (rdP (nw l) m)) Q') (hC : E'.C ≠ 0) (h0 : (E'.A / E'.C) ^ 2 ≠ 4)
    (hP : IsX (K'.map l.φ) P) (ho : addOrderOf P = 3 ^ l.iso.e3) :
    isogenyBM l E K EE Q back sp t m ≠ .ub ∧ ∀ r m' t', isogenyBM l E K EE Q back sp t m = .ok ((r, m'), t') → r = true ∧
      ∃ E'' Q'' g ψ, E''.C ≠ 0 ∧ IsIsogeny l.φ (E'.A / E'.C) (E''.A / E''.C) g P ψ ∧
      (∀ a ∈ EE, VC l (rdC (nw l) m' a) E'') ∧ Option.Rel (VP l) (Q.map (rdP (nw l) m')) Q'' ∧ IsImage l.φ ψ Q' Q'' ∧
      (∀ a ∈ back, ∃ b, VP l (rdP (nw l) m' a) b ∧
        ∀ T : (W (l.φ (E'.A / E'.C))).Point, 3 • T = 0 → T ∉ AddSubgroup.zmultiples P → IsX (b.map l.φ) (ψ T)) ∧
      OnlyAt (nw l) sp (EE.toList ++ Q.toList ++ back.toList) m m' := by
  obtain ⟨E'', Q'', g, ψ, hC', hi, hq, hub, hr⟩ := CurveProps.c38_B_accepts (env := l.env) l.φ l.two l.shipped hC h0 back.isSome K' Q' hP ho
  have r := WCurve.isogenyB_ref back.isSome hE hK hQ t ht
  have s := isogenyBM_spec h t m
  have hub := hub (WCurve.fieldTape l t)
  have hr := hr (WCurve.fieldTape l t)
  generalize Curve.isogenyB l.env _ _ _ _ _ = c at r hub hr
  generalize WCurve.isogenyB l _ _ _ _ t = o at r s
  generalize isogenyBM l E K EE Q back sp t m = o' at s ⊢
  refine ⟨?_, ?_⟩
  · rintro rfl
    cases r <;> first | exact s | exact hub rfl
  · rintro r0 m' t' rfl
    cases r with
    | abort => exact s.elim
    | ub => exact s.elim
    | starved => exact s.elim
    | ok r =>
    rename_i x y
    obtain ⟨x, tx⟩ := x
    obtain ⟨y, ty⟩ := y
    obtain ⟨b, hb, hbs, hbT⟩ := hr _ _ rfl
    subst hb
    obtain ⟨r, -, -⟩ := r
    cases r with
    | some r =>
    obtain ⟨-, s⟩ := s
    cases r0 with
    | false => exact s.elim
    | true =>
    obtain ⟨s1, s2, s3⟩ := s
    refine ⟨rfl, E'', Q'', g, ψ, hC', hi, fun a ha => ?_, ?_, hq, fun a ha => ?_, fun x hx hn => s3.frame x hx ?_⟩
    · rw [crv_out s3 (fun w hw => by simp only [List.mem_append]; exact Or.inr hw) a ha]
      exact r.1
    · rw [optVars_out s3 s1 (fun w hw => by simp only [List.mem_append]; exact Or.inl (Or.inl hw))]
      exact r.2.1
    · have eb := optVars_out s3 s2 (fun w hw => by simp only [List.mem_append]; exact Or.inl (Or.inr hw))
      have r3 := r.2.2
      rw [← eb, Option.mem_def.1 ha] at r3
      cases r3 with
      | some hv => exact ⟨_, hv, hbT _ rfl⟩
    · simp only [List.mem_append] at hn ⊢
      rintro w ((hw | hw) | hw)
      · exact optVars_ge (fun a ha => hn a (Or.inl (Or.inr ha))) w hw
      · exact optVars_ge (fun a ha => hn a (Or.inr ha)) w hw
      · exact elimVars_ge (fun a ha => hn a (Or.inl (Or.inl ha))) w hw

theorem bind_some_ne {α β γ δ : Type} {R : Option α × Tape Draw → Option γ × Tape δ → Prop} (hR : ∀ a t t', ¬ R (some a, t) (none, t'))
    {f : Curve.M Draw β} {g : β → α} {t : Tape Draw} {t' : Tape δ}
    (h : WCurve.OR R (Curve.M.bind f (fun b => Curve.M.pure (some (g b))) t) (.ok (none, t'))) : False := by
  unfold Curve.M.bind at h
  generalize f t = z at h
  rcases z with ⟨z, t1⟩ | _ | _ | _
  · cases h with
    | ok h => exact hR _ _ _ h
  · cases h
  · cases h
  · cases h

/-- If the order is another one, `Isogeny_B` returns false, reads no random bytes and changes nothing outside its frame. -/
theorem C97_B_rejects (h : IsoArgsB (nw l) sp E K EE Q back) (t : Tape Draw) (ht : TapeLen l t) (m : Mem) (hE : VC l (rdC (nw l) m E) E')
    (hK : VP l (rdP (nw l) m K) K') (hQ : Option.Rel (VP l) (Q.map (rdP (nw l) m)) Q') (hC : E'.C ≠ 0) (h0 : (E'.A / E'.C) ^ 2 ≠ 4)
    (hP : IsX (K'.map l.φ) P) (ho : addOrderOf P ≠ 3 ^ l.iso.e3) :
    ∃ m', isogenyBM l E K EE Q back sp t m = .ok ((false, m'), t) ∧ OnlyAt (nw l) sp [] m m' := by
  have e := (CurveProps.c38_B_rejects (env := l.env) l.φ l.two l.shipped hC h0 back.isSome K' Q' hP).1 ho (WCurve.fieldTape l t)
  have r := WCurve.isogenyB_ref back.isSome hE hK hQ t ht
  have s := isogenyBM_spec h t m
  rw [e] at r
  have rj : WCurve.isogenyB l back.isSome (rdC (nw l) m E) (rdP (nw l) m K) (Q.map (rdP (nw l) m)) t = .ok (none, t) := by
    rw [isogenyB_eq] at r ⊢
    dsimp only at r ⊢
    generalize WCurve.iszero l _ ||| _ = bad at r ⊢
    generalize stratRows (WCurve.opsB l) _ _ _ = st at r ⊢
    by_cases hb : bad ≠ 0
    · rw [if_pos hb]
      rfl
    · rw [if_neg hb] at r
      rcases st with _ | st
      · cases r
      · dsimp only at r
        exact (bind_some_ne (fun _ _ _ h => by cases h.1) r).elim
  rw [rj] at s
  generalize isogenyBM l E K EE Q back sp t m = o' at s ⊢
  rcases o' with ⟨⟨_ | _, m'⟩, t'⟩ | _ | _ | _
  · obtain ⟨rfl, s⟩ := s
    exact ⟨m', rfl, fun x hx _ => s.frame x hx (by simp)⟩
  all_goals simp only [ResT, IsoResB, and_false] at s

end

/-! ## Random points -/

/-- `random_point_with_order` for 2 and 3, if it returns: at `P` there is a point of order `q^e`, where `e` is the number returned, and at
`Q` its multiple of order `q`; both are points over GF(p^2). -/
theorem C97_random {q A P Q s : ℕ} (hq : q = 2 ∨ q = 3) (hL : Layout (nw l) s [A, P, P + 2 * nw l, Q, Q + 2 * nw l]) (t : Tape Draw)
    (ht : TapeLen l t) (m : Mem) {a : l.F} (hA : V l 2 (rdF (nw l) m A) a) (ha : a ^ 2 ≠ 4) :
    randomPointWithOrderM l q A P Q s t m ≠ .ub ∧
    ∀ e m' t', randomPointWithOrderM l q A P Q s t m = .ok ((e, m'), t') → 1 ≤ e ∧
      ∃ (X : (W a).Point) (x y : Pt l.F), addOrderOf X = q ^ e ∧ VP l (rdP (nw l) m' P) x ∧ IsX x X ∧
        VP l (rdP (nw l) m' Q) y ∧ IsX y (q ^ (e - 1) • X) ∧ OnlyAt (nw l) s [P, Q] m m' := by
  have r := WCurve.randomPointWithOrder_ref hA q t ht
  have s' := randomPointWithOrderM_spec (q := q) hL t m
  have hr := Curve.randomPointWithOrder_ret (env := l.env) l.two ha hq (WCurve.fieldTape l t)
  have hu := Curve.randomPointWithOrder_noUB (env := l.env) a q (WCurve.fieldTape l t)
  generalize Curve.randomPointWithOrder l.env a q _ = c at r hr hu
  generalize WCurve.randomPointWithOrder l _ q t = o at r s'
  generalize randomPointWithOrderM l q A P Q s t m = o' at s' ⊢
  refine ⟨?_, ?_⟩
  · rintro rfl
    cases r <;> first | exact s' | exact hu rfl
  rintro e m' t' rfl
  cases r with
  | abort => exact s'.elim
  | ub => exact s'.elim
  | starved => exact s'.elim
  | ok r =>
  rename_i x y
  obtain ⟨⟨x, e1, z⟩, tx⟩ := x
  obtain ⟨⟨x', e2, z'⟩, ty⟩ := y
  obtain ⟨⟨r1, r2, r3⟩, -, -⟩ := r
  obtain ⟨Y, h1, h2, h3, h4, h5⟩ := hr _ _ rfl
  obtain ⟨-, h6, h7⟩ := s'
  dsimp only at r1 r2 r3 h1 h2 h3 h4 h5 h6 h7
  subst h6 r2
  have hp : q.Prime := by rcases hq with rfl | rfl <;> decide
  refine ⟨h2, Curve.cofactor l.env q • Y, x', z', (Curve.addOrderOf_two_pow_iff h2 hp).2 ⟨?_, ?_⟩, ?_, isX_iff.2 h1, ?_, isX_iff.2 h3,
    fun y hy hn => h7.frame y hy ?_⟩
  · exact h4
  · exact h5
  · rw [pt_out (Q := some P) h7 (fun w hw => List.mem_append_left _ hw) P rfl]
    exact r1
  · rw [pt_out (Q := some Q) h7 (fun w hw => List.mem_append_right _ hw) Q rfl]
    exact r3
  · simp only [List.forall_mem_cons] at hn
    simp only [ptVars, List.cons_append, List.nil_append, List.forall_mem_cons]
    exact ⟨by omega, by omega, by omega, by omega, by simp⟩

/-! ## The hypotheses can be met

The starting curve `(0 : 1)` at 46 at the lowest level.  `(1 : 1)` is a point of order 4 on it; other points are taken from the group, and
every element of the field has a representation as digits. -/

theorem exists_digits : ∀ (n v : ℕ), v < 2 ^ (64 * n) → ∃ d : List Digit, d.length = n ∧ val d = v
  | 0, v, h => ⟨[], rfl, by simp at h; simp [h, val]⟩
  | n + 1, v, h => by
    obtain ⟨d, h1, h2⟩ := exists_digits n (v / 2 ^ 64) (by
      rw [Nat.div_lt_iff_lt_mul (by decide), ← pow_add]
      exact lt_of_lt_of_le h (Nat.pow_le_pow_right (by decide) (by omega)))
    refine ⟨BitVec.ofNat 64 v :: d, by simp [h1], ?_⟩
    rw [val, h2, BitVec.toNat_ofNat]
    omega

theorem exists_fp (u : ZMod l.p) : ∃ d, Rng (tables l) (2 * l.p) d ∧ fpVal (tables l) l.p d = u := by
  have hp := (good l).pos
  have : NeZero l.p := ⟨by omega⟩
  have hv := val_lt (tables l).p
  rw [(good l).len_p, (good l).val_p] at hv
  obtain ⟨d, h1, h2⟩ := exists_digits (tables l).n (u * 2 ^ (64 * (tables l).n)).val (lt_trans (ZMod.val_lt _) hv)
  refine ⟨d, ⟨h1, ?_⟩, ?_⟩
  · rw [h2]
    exact lt_of_lt_of_le (ZMod.val_lt _) (by omega)
  · rw [fpVal, h2, ZMod.natCast_zmod_val, mul_assoc, mul_inv_cancel₀ (R_ne_zero (good l)), mul_one]

theorem exists_V (u : l.F) : ∃ x, V l 2 x u := by
  obtain ⟨a, a1, a2⟩ := exists_fp (l := l) u.re
  obtain ⟨b, b1, b2⟩ := exists_fp (l := l) u.im
  exact ⟨⟨a, b⟩, ⟨a1, b1⟩, by rw [f2Val, a2, b2]⟩

/-- A point of order `q^e` on the starting curve, with its x-coordinate -/
theorem exists_full {q : ℕ} (hq : q = 2 ∨ q = 3) : ∃ (x : l.F) (P : (W (l.φ ((0 : l.F) / 1))).Point),
    IsX ((⟨x, 1⟩ : Pt l.F).map l.φ) P ∧ addOrderOf P = q ^ Curve.expo l.env q := by
  have h0 : RightOrder l ((0 : l.F) / 1) := by rw [zero_div]; exact rightOrder_zero l
  obtain ⟨X, -, ho, -⟩ := ((rightOrder_iff l).1 h0).exists_full l.setting l.three_ne hq 0
  obtain ⟨ι, hi, hX⟩ := Curve.exists_pointMap l.φ ((0 : l.F) / 1)
  have he := Curve.expo_pos l.setting.good hq
  cases X with
  | zero =>
    rw [show (WeierstrassCurve.Affine.Point.zero : (W ((0 : l.F) / 1)).Point) = 0 from rfl, addOrderOf_zero] at ho
    have := Nat.one_lt_pow (n := Curve.expo l.env q) (by omega) (show 1 < q by omega)
    omega
  | some x y h =>
    obtain ⟨h', e⟩ := hX x y h
    refine ⟨x, ι (.some x y h), ?_, by rw [addOrderOf_injective ι hi, ho]⟩
    rw [e]
    exact ⟨by simp [Pt.map], by simp [Pt.map]⟩

/-- Memory with the curve `(0 : 1)` at 46 and a point at 0 -/
theorem exists_mem (x : Level.l434.F) : ∃ m, VC .l434 (rdC (nw .l434) m 46) ⟨0, 1⟩ ∧ VP .l434 (rdP (nw .l434) m 0) ⟨x, 1⟩ := by
  obtain ⟨w, hw⟩ := exists_V x
  have hl : Len (nw .l434) w := ⟨hw.rng.c0.len, hw.rng.c1.len⟩
  have k : ∀ b, 14 ≤ b → rdF (nw .l434) (wrF (nw .l434) exMemE 0 w) b = rdF (nw .l434) exMemE b := fun b hb =>
    rdF_wrF_disj hl (Or.inl (by change 14 ≤ b; exact hb))
  refine ⟨wrF (nw .l434) exMemE 0 w, ?_, ?_, ?_⟩
  · have e : rdC (nw .l434) (wrF (nw .l434) exMemE 0 w) 46 = rdC (nw .l434) exMemE 46 := by
      rw [rdC, k 46 (by decide), k _ (by decide)]
      rfl
    rw [e]
    exact exE
  · rw [rdP, rdF_wrF_same hl]
    exact hw
  · rw [rdP, k (0 + 2 * nw .l434) (by decide), show rdF (nw .l434) exMemE (0 + 2 * nw .l434) = fp2one (tables .l434) by decide +kernel]
    exact WCurve.one_v

example : ∃ m m', isogenyAM .l434 46 0 (some 46) none (some 80) 120 m = some (true, m') := by
  obtain ⟨x, P, hP, ho⟩ := exists_full (l := .l434) (Or.inl rfl)
  obtain ⟨m, h1, h2⟩ := exists_mem x
  obtain ⟨m', _, _, _, _, _, h, -⟩ := C97_A_accepts (l := .l434) (EE := some 46) (Q := none) (back := some 80) (sp := 120) (Q' := none)
    ⟨⟨by decide, by decide⟩, ⟨by decide, by decide⟩⟩ m h1 h2 .none one_ne_zero exE_right hP ho
  exact ⟨m, m', h⟩

example (t : Tape Draw) (ht : TapeLen .l434 t) : ∃ m, isogenyBM .l434 46 0 (some 46) none (some 80) 120 t m ≠ .ub := by
  obtain ⟨x, P, hP, ho⟩ := exists_full (l := .l434) (Or.inr rfl)
  obtain ⟨m, h1, h2⟩ := exists_mem x
  exact ⟨m, (C97_B_accepts (l := .l434) (EE := some 46) (Q := none) (back := some 80) (sp := 120) (Q' := none)
    ⟨⟨by decide, by decide⟩, ⟨by decide, by decide⟩⟩ t ht m h1 h2 .none one_ne_zero exE_right.1 hP ho).1⟩

example : ∃ m m', isogenyAM .l434 46 0 (some 46) none (some 80) 120 m = some (false, m') := by
  obtain ⟨x, P, hP, ho⟩ := exists_full (l := .l434) (Or.inr rfl)
  obtain ⟨m, h1, h2⟩ := exists_mem x
  obtain ⟨m', h, -⟩ := C97_A_rejects (l := .l434) (EE := some 46) (Q := none) (back := some 80) (sp := 120) (Q' := none)
    ⟨⟨by decide, by decide⟩, ⟨by decide, by decide⟩⟩ m h1 h2 .none one_ne_zero exE_right hP (by rw [ho]; decide +kernel)
  exact ⟨m, m', h⟩

example (t : Tape Draw) (ht : TapeLen .l434 t) : ∃ m m', isogenyBM .l434 46 0 (some 46) none (some 80) 120 t m = .ok ((false, m'), t) := by
  obtain ⟨x, P, hP, ho⟩ := exists_full (l := .l434) (Or.inl rfl)
  obtain ⟨m, h1, h2⟩ := exists_mem x
  obtain ⟨m', h, -⟩ := C97_B_rejects (l := .l434) (EE := some 46) (Q := none) (back := some 80) (sp := 120) (Q' := none)
    ⟨⟨by decide, by decide⟩, ⟨by decide, by decide⟩⟩ t ht m h1 h2 .none one_ne_zero exE_right.1 hP (by rw [ho]; decide +kernel)
  exact ⟨m, m', h⟩

example (t : Tape Draw) (ht : TapeLen .l434 t) : randomPointWithOrderM .l434 3 46 80 120 200 t exMem ≠ .ub :=
  (C97_random (l := .l434) (Or.inr rfl) (A := 46) (P := 80) (Q := 120) (s := 200) ⟨by decide, by decide⟩ t ht exMem
    (by rw [ex46]; exact WCurve.zero_v) (rightOrder_zero .l434).1).1

end Secuer.MemProps
