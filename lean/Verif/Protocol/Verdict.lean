import Verif.Protocol.Complete
import Verif.Curve.Det
import Verif.Threads.Lemmas

/-!
# What the verifier decides

The result of `Unpack_Response` does not depend on the random values it draws nor on uninitialised memory.
-/

namespace Secuer.Protocol

open Secuer.Curve Secuer.Mont Secuer.Field Secuer.Text Secuer.Scalar Secuer.Challenge Secuer.ChainProps Secuer.CurveProps

variable (l : Level)

theorem jInv_jOf {E : Crv l.F} (hC : E.C ≠ 0) : jInv E.A E.C = jOf (E.A / E.C) := jInv_eq l.two hC

theorem unpackResponse_det (H : Hash) {x₀ x₁ : PFp2} (h0 : Super l.φ l.σ l.p (decode l x₀))
    (h1 : Super l.φ l.σ l.p (decode l x₁)) (r : CResp) :
    ∃ o, ∀ mem, Ret (unpackResponse l H mem x₀ x₁ r) (fun a => a = o) := by
  have hS := l.setting
  unfold unpackResponse
  simp only
  by_cases c1 : int8 r.tag = -1
  · simp only [c1, if_true]
    obtain ⟨o, ho⟩ := unpackChainB_det hS l.po h0 (r.leftChain.map (decode l))
    cases o with
    | none =>
      refine ⟨none, fun mem => Ret.bind (ho mem.pts) ?_⟩
      rintro _ rfl
      exact Ret.pure rfl
    | some E =>
      refine ⟨some (-1, ⟨hashHiding l H r.leftR2 (encJ l E), r.leftH3⟩), fun mem => Ret.bind (ho mem.pts) ?_⟩
      rintro _ rfl
      exact Ret.pure rfl
  · simp only [c1, if_false]
    by_cases c2 : int8 r.tag = 0
    · simp only [c2, if_true]
      by_cases hs : Super l.φ l.σ l.p (decode l r.bottomE2)
      · obtain ⟨o, ho⟩ := unpackChainA_det hS l.po hs (r.bottomChain.map (decode l))
        have key : ∀ mem : Mem l, Ret (checkedCurve l mem r.bottomE2) (fun b => b = true) := fun mem =>
          (checkedCurve_ret l mem r.bottomE2).2.mono fun b hb => hb.2 hs
        cases o with
        | none =>
          refine ⟨none, fun mem => Ret.bind (key mem) ?_⟩
          rintro _ rfl
          simp only [Bool.true_eq_false, if_false]
          refine Ret.bind (ho mem.pts) ?_
          rintro _ rfl
          exact Ret.pure rfl
        | some E =>
          refine ⟨some (0, ⟨hashHiding l H r.bottomR2 (encJ l ⟨decode l r.bottomE2, 1⟩), hashHiding l H r.bottomR3 (encJ l E)⟩), fun mem => Ret.bind (key mem) ?_⟩
          rintro _ rfl
          simp only [Bool.true_eq_false, if_false]
          refine Ret.bind (ho mem.pts) ?_
          rintro _ rfl
          exact Ret.pure rfl
      · refine ⟨none, fun mem => Ret.bind (Q := fun b => b = false)
          ((checkedCurve_ret l mem r.bottomE2).2.mono fun b hb => ?_) ?_⟩
        · cases b with
          | true => exact absurd (hb.1 rfl) hs
          | false => rfl
        · rintro _ rfl
          simp only [if_true]
          exact Ret.pure rfl
    · simp only [c2, if_false]
      by_cases c3 : int8 r.tag = 1
      · simp only [c3, if_true]
        obtain ⟨o, ho⟩ := unpackChainB_det hS l.po h1 (r.rightChain.map (decode l))
        cases o with
        | none =>
          refine ⟨none, fun mem => Ret.bind (ho mem.pts) ?_⟩
          rintro _ rfl
          exact Ret.pure rfl
        | some E =>
          refine ⟨some (1, ⟨r.rightH2, hashHiding l H r.rightR3 (encJ l E)⟩), fun mem => Ret.bind (ho mem.pts) ?_⟩
          rintro _ rfl
          exact Ret.pure rfl
      · simp only [c3, if_false]
        exact ⟨none, fun mem => Ret.pure rfl⟩

/-! ### The outcome of unpacking all responses -/

theorem unpackAll_ret (H : Hash) (mem : Mem l) (x₀ x₁ : PFp2) : ∀ rs : List CResp,
    Ret (unpackAll l H mem x₀ x₁ rs) (fun o => match o with
      | some os => List.Forall₂ (fun r o => ∃ t t', unpackResponse l H mem x₀ x₁ r t = .ok (some o, t')) rs os
      | none => ∃ r ∈ rs, ∃ t t', unpackResponse l H mem x₀ x₁ r t = .ok (none, t'))
  | [] => Ret.pure .nil
  | r :: rs => by
    unfold unpackAll
    intro t o t' h
    obtain ⟨a, t1, h1, h2⟩ := bind_ok h
    cases a with
    | none =>
      cases h2
      exact ⟨r, by simp, t, _, h1⟩
    | some a =>
      obtain ⟨b, t2, h3, h4⟩ := bind_ok h2
      have ih := unpackAll_ret H mem x₀ x₁ rs _ _ _ h3
      cases b with
      | none =>
        cases h4
        obtain ⟨r', hr', hh⟩ := ih
        exact ⟨r', by simp [hr'], hh⟩
      | some b =>
        cases h4
        exact .cons ⟨t, t1, h1⟩ ih

end Secuer.Protocol
