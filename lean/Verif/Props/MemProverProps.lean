import Verif.CMem.Generate
import Verif.Props.MemVerifyProps
import Verif.Props.HonestProps

/-!
# `Generate` on memory (C100)

The portable build, digit by digit and byte by byte, with the starting curve and the secret anywhere below the stack.
-/

set_option maxRecDepth 100000

namespace Secuer.MemProps

open Secuer.Word Secuer.Field Secuer.CMem
open Secuer.Text (PFp2)
open Secuer.WCurve (Draw TapeLen)
open Secuer.Curve (Pt Crv Out Tape)
open Secuer.Protocol (params Secret)
open Secuer.ChainProps (RightOrder rightOrder_zero CyclicIsogeny)

attribute [local instance] Arith.portable

variable {l : Level}

/-- `sizeof(struct secret)` -/
def secretBytes : Level → ℕ
  | .l434 => 990
  | .l503 => 1134
  | .l610 => 1386
  | .l751 => 1692

/-- The `struct secret` at `sec` -/
def secretAt (l : Level) (m : Mem) (sec : ℕ) : Secret :=
  ⟨pfsAt l m sec ((params l).width + 1), pfsAt l m (sec + ((params l).width + 1) * (2 * fb l)) (params l).width⟩

theorem secretSize_eq : secretSize l = secretBytes l := by cases l <;> decide +kernel

theorem rdSecret_eq (m : Mem) (sec : ℕ) : rdSecret l m sec = secretAt l m sec := by
  rw [rdSecret, secretAt, rdPFs_eq, rdPFs_eq, sz_eq]

/-- `Generate` refuses exactly the curves of the wrong order. -/
theorem generate_none (mem : Protocol.Mem l) (x : PFp2) : Curve.Ret (Protocol.generate l mem x) fun r => r = none ↔ ¬ RightOrder l (Protocol.decode l x) := by
  unfold Protocol.generate
  refine Curve.Ret.bind (Protocol.checkedCurve_ret l mem x).2 ?_
  intro b hb
  rw [← ChainProps.rightOrder_iff] at hb
  cases b with
  | false => exact Curve.Ret.pure (by simpa using hb)
  | true =>
    simp only [Bool.true_eq_false, if_false]
    refine Curve.Ret.bind (Q := fun _ => True) (fun _ _ _ _ => trivial) fun c _ => Curve.Ret.pure ?_
    simpa using hb

/-- `Generate` with a starting curve at `E0` and room for a secret at `sec`: no undefined behaviour.  It returns true exactly if the starting curve
has `(p+1)²` points.  Then the first curve of the secret is that curve, the last one has `(p+1)²` points too, and there is a cyclic isogeny of
degree `2^(e2·width)` from the one to the other; nothing but the secret has changed.  If it returns false, nothing has changed. -/
theorem C100_generate {s E0 sec : ℕ} (h0 : E0 + 2 * fb l ≤ 8 * s) (hs : sec + secretBytes l ≤ 8 * s) (t : Tape Draw) (ht : TapeLen l t) (m : Mem) :
    generateM l E0 sec s t m ≠ .ub ∧ ∀ b m' t', generateM l E0 sec s t m = .ok ((b, m'), t') →
      (b = true ↔ RightOrder l (strVal l m E0)) ∧
      (∀ y < 8 * s, b = false ∨ y < sec ∨ sec + secretBytes l ≤ y → bytesAt m' y 1 = bytesAt m y 1) ∧
      (b = true → strVal l m' sec = strVal l m E0 ∧ RightOrder l (strVal l m' (sec + (params l).width * (2 * fb l))) ∧
        CyclicIsogeny l (2 ^ (l.iso.e2 * (params l).width)) (strVal l m E0) (strVal l m' (sec + (params l).width * (2 * fb l)))) := by
  have h2 := sz_eq (l := l)
  have hz := secretSize_eq (l := l)
  have hf := generateM_f (l := l) ⟨fun _ => (⟨0, 0⟩, ⟨0, 0⟩), []⟩ (E0 := E0) (sec := sec) (s := s) (by omega) (by omega) ht m
  rw [rdPF_eq] at hf
  have hu := (ProtocolProps.c24_no_ub l KeccakProps.shakeHash ⟨fun _ => (⟨0, 0⟩, ⟨0, 0⟩), []⟩ ⟨fun _ => (⟨0, 0⟩, ⟨0, 0⟩), List.replicate (params l).reps 0⟩
    (by simp) 0 (pfAt l m E0) (WCurve.fieldTape l t)).1
  have hn := fun r t' => generate_none ⟨fun _ => (⟨0, 0⟩, ⟨0, 0⟩), []⟩ (pfAt l m E0) (WCurve.fieldTape l t) r t'
  have hv := fun v t' => ProtocolProps.c63_generate l (mem := ⟨fun _ => (⟨0, 0⟩, ⟨0, 0⟩), []⟩) (x := pfAt l m E0) (t := WCurve.fieldTape l t)
    (sec := v) (t₁ := t')
  rw [decode_pfAt] at hn hv
  generalize Protocol.generate l _ _ _ = c at hf hu hn hv
  generalize generateM l _ _ _ _ _ = o at hf ⊢
  refine ⟨?_, ?_⟩
  · rintro rfl
    rcases c with ⟨c, tc⟩ | _ | _ | _ <;> simp only [FRes] at hf
    exact hu rfl
  · rintro b m' t' rfl
    rcases c with ⟨c, tc⟩ | _ | _ | _ <;> simp only [FRes] at hf
    obtain ⟨-, rfl, hf⟩ := hf
    have hn := hn _ _ rfl
    rcases c with _ | v
    · obtain ⟨rfl, hf⟩ := hf
      refine ⟨by simpa using hn, fun y hy _ => ?_, by simp⟩
      rw [← rdBytes_eq, ← rdBytes_eq]
      exact hf.bytes (by omega) (by simp)
    · obtain ⟨rfl, rfl, hf⟩ := hf
      refine ⟨by simpa using hn, fun y hy h => ?_, fun _ => ?_⟩
      · rw [← rdBytes_eq, ← rdBytes_eq]
        exact hf.bytes (by omega) (by simp at h ⊢; omega)
      · obtain ⟨-, x₀, x₁, e0, e1, h3, h4, h5⟩ := hv _ _ rfl
        rw [rdSecret_eq] at e0 e1
        have e0' : x₀ = pfAt l m' sec := by
          simpa [secretAt, pfsAt, List.head?_range] using e0.symm
        have e1' : x₁ = pfAt l m' (sec + (params l).width * (2 * fb l)) := by
          simpa [secretAt, pfsAt, List.getLast?_range] using e1.symm
        rw [e0', decode_pfAt] at h3
        rw [e1', decode_pfAt] at h4 h5
        exact ⟨h3, h4, h5⟩

/-- The bytes of the secret are those that `Generate` computes on field elements. -/
theorem C100_refines {s E0 sec : ℕ} (h0 : E0 + 2 * fb l ≤ 8 * s) (hs : sec + secretBytes l ≤ 8 * s) (mem : Protocol.Mem l) (t : Tape Draw)
    (ht : TapeLen l t) (m : Mem) (m' : Mem) (t' : Tape Draw) (h : generateM l E0 sec s t m = .ok ((true, m'), t')) :
    TapeLen l t' ∧ Protocol.generate l mem (pfAt l m E0) (WCurve.fieldTape l t) = .ok (some (secretAt l m' sec), WCurve.fieldTape l t') := by
  have h2 := sz_eq (l := l)
  have hz := secretSize_eq (l := l)
  have hf := generateM_f (l := l) mem (E0 := E0) (sec := sec) (s := s) (by omega) (by omega) ht m
  rw [rdPF_eq, h] at hf
  generalize Protocol.generate l _ _ _ = c at hf ⊢
  rcases c with ⟨c, tc⟩ | _ | _ | _ <;> simp only [FRes] at hf
  obtain ⟨hl, rfl, hf⟩ := hf
  rcases c with _ | v
  · exact absurd hf.1 (by simp)
  · obtain ⟨-, rfl, -⟩ := hf
    rw [rdSecret_eq]
    exact ⟨hl, rfl⟩

/-! ## The hypotheses can be met -/

example (t : Tape Draw) (ht : TapeLen .l434 t) : generateM .l434 5 200 200 t zeroMem ≠ .ub :=
  (C100_generate (l := .l434) (s := 200) (E0 := 5) (sec := 200) (by decide) (by decide) t ht zeroMem).1

end Secuer.MemProps
