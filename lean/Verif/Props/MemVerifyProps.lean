import Verif.CMem.Verify
import Verif.Props.MemChainProps
import Verif.Props.ProtocolProps
import Verif.Props.KeccakProps

/-!
# `Unpack_Response` and `Verify` on memory (C99)

The verifier of the portable build without threads, executed on memory digit by digit and byte by byte, on a `struct proof` that lies anywhere
below the stack.  The hash is SHAKE256 as computed by `fips202.c`.
-/

set_option maxRecDepth 100000

namespace Secuer.MemProps

open Secuer.Word Secuer.Field Secuer.CMem
open Secuer.Scalar (leNat leBytes)
open Secuer.Text (PFp2 CResp CProof)
open Secuer.WCurve (V VC VP VL Draw TapeLen)
open Secuer.Curve (Pt Crv Out Tape)
open Secuer.Protocol (params Comm)
open Secuer.ChainProps (RightOrder rightOrder_zero)
open Secuer.ProtocolProps (Valid Opens IsChallenge challengeBytes)
open Secuer.KeccakProps (shakeHash C13_hash)

attribute [local instance] Arith.portable

variable {l : Level}

/-! ## The structs in memory -/

/-- `sizeof(struct response)` -/
def respBytes : Level → ℕ
  | .l434 => 872
  | .l503 => 984
  | .l610 => 1228
  | .l751 => 1512

/-- `sizeof(struct proof)` -/
def proofBytes : Level → ℕ
  | .l434 => 191188
  | .l503 => 215748
  | .l610 => 404320
  | .l751 => 662632

/-- The number that `b` stands for as an `int8_t` -/
def signed8 (b : UInt8) : Int := if b.toNat < 128 then b.toNat else (b.toNat : Int) - 256

/-- The `packed_fp2` at `x` -/
def pfAt (l : Level) (m : Mem) (x : ℕ) : PFp2 := ⟨bytesAt m x (fb l), bytesAt m (x + fb l) (fb l)⟩

/-- The array of `n` of them at `x` -/
def pfsAt (l : Level) (m : Mem) (x n : ℕ) : List PFp2 := (List.range n).map fun i => pfAt l m (x + i * (2 * fb l))

/-- The `struct response` at `r`: an `int` of four bytes in two's complement, and a union, given here by what each of its members sees -/
def respAt (l : Level) (m : Mem) (r : ℕ) : CResp where
  tag := if leNat (bytesAt m r 4) < 2147483648 then leNat (bytesAt m r 4) else (leNat (bytesAt m r 4) : Int) - 4294967296
  leftR2 := bytesAt m (r + 4) (params l).hide
  leftH3 := bytesAt m (r + 4 + (params l).hide) (params l).hash
  leftChain := pfsAt l m (r + 4 + (params l).hide + (params l).hash) (params l).height
  bottomR2 := bytesAt m (r + 4) (params l).hide
  bottomR3 := bytesAt m (r + 4 + (params l).hide) (params l).hide
  bottomE2 := pfAt l m (r + 4 + (params l).hide + (params l).hide)
  bottomChain := pfsAt l m (r + 4 + (params l).hide + (params l).hide + 2 * fb l) (params l).width
  rightH2 := bytesAt m (r + 4) (params l).hash
  rightR3 := bytesAt m (r + 4 + (params l).hash) (params l).hide
  rightChain := pfsAt l m (r + 4 + (params l).hash + (params l).hide) (params l).height

/-- The `struct proof` at `prf` -/
def proofAt (l : Level) (m : Mem) (prf : ℕ) : CProof :=
  ⟨pfAt l m prf, pfAt l m (prf + 2 * fb l), (List.range (params l).reps).map fun i => respAt l m (prf + 4 * fb l + i * respBytes l)⟩

theorem respSize_eq : respSize l = respBytes l := by cases l <;> decide +kernel

theorem proofSize_eq : proofSize l = proofBytes l := by cases l <;> decide +kernel

theorem rdPF_eq (m : Mem) (x : ℕ) : rdPF l m x = pfAt l m x := by
  rw [rdPF, half_eq, rdBytes_eq, rdBytes_eq, pfAt]

theorem rdPFs_eq (m : Mem) (x n : ℕ) : rdPFs l m x n = pfsAt l m x n := by
  rw [rdPFs, pfsAt, ← sz_eq]
  exact List.map_congr_left fun i _ => rdPF_eq m _

theorem bmod32 {n : ℕ} (h : n < 4294967296) : Int.bmod n 4294967296 = if n < 2147483648 then (n : Int) else (n : Int) - 4294967296 := by
  rw [Int.bmod_def]
  omega

theorem rdInt_eq (m : Mem) (r : ℕ) :
    rdInt m r = if leNat (bytesAt m r 4) < 2147483648 then (leNat (bytesAt m r 4) : Int) else (leNat (bytesAt m r 4) : Int) - 4294967296 := by
  have h : leNat (bytesAt m r 4) < 4294967296 := lt_of_lt_of_le (Scalar.leNat_lt _) (by simp [bytesAt])
  unfold rdInt
  rw [rdBytes_eq]
  exact bmod32 h

attribute [local irreducible] rdInt in
theorem rdResp_eq (m : Mem) (r : ℕ) : rdResp l m r = respAt l m r := by
  have hu : uni r = r + 4 := rfl
  simp only [rdResp, respAt, rdInt_eq, rdPFs_eq, rdPF_eq, rdBytes_eq, hu, sz_eq]

theorem rdProof_eq (m : Mem) (prf : ℕ) : rdProof l m prf = proofAt l m prf := by
  have h4 : prf + 4 * fb l = prf + sz l + sz l := by have := sz_eq (l := l); omega
  rw [rdProof, proofAt, rdPF_eq, rdPF_eq, ← respSize_eq, h4, ← sz_eq]
  exact congrArg _ (List.map_congr_left fun i _ => rdResp_eq m _)

theorem i8_eq (b : UInt8) : i8 b = signed8 b := by
  have h := b.toNat_lt
  unfold i8 signed8
  rw [Int.bmod_def]
  omega

theorem bytesAt_length (m : Mem) (x n : ℕ) : (bytesAt m x n).length = n := by simp [bytesAt]

theorem pfAt_wf (m : Mem) (x : ℕ) : (pfAt l m x).WF (params l) := ⟨bytesAt_length _ _ _, bytesAt_length _ _ _⟩

theorem pfsAt_wf (m : Mem) (x n : ℕ) : (pfsAt l m x n).length = n ∧ ∀ v ∈ pfsAt l m x n, v.WF (params l) := by
  refine ⟨by simp [pfsAt], fun v hv => ?_⟩
  obtain ⟨i, -, rfl⟩ := List.mem_map.1 hv
  exact pfAt_wf m _

theorem respAt_wf (m : Mem) (r : ℕ) : (respAt l m r).WF (params l) := by
  have h : leNat (bytesAt m r 4) < 4294967296 := lt_of_lt_of_le (Scalar.leNat_lt _) (by simp [bytesAt])
  refine ⟨⟨bytesAt_length _ _ _, bytesAt_length _ _ _, pfsAt_wf _ _ _⟩,
    ⟨bytesAt_length _ _ _, bytesAt_length _ _ _, pfAt_wf _ _, pfsAt_wf _ _ _⟩,
    ⟨bytesAt_length _ _ _, bytesAt_length _ _ _, pfsAt_wf _ _ _⟩, ?_⟩
  simp only [respAt]
  generalize leNat (bytesAt m r 4) = n at h ⊢
  split <;> omega

theorem proofAt_wf (m : Mem) (prf : ℕ) : (proofAt l m prf).WF (params l) := by
  refine ⟨pfAt_wf _ _, pfAt_wf _ _, by simp [proofAt], fun r hr => ?_⟩
  obtain ⟨i, -, rfl⟩ := List.mem_map.1 hr
  exact respAt_wf m _

theorem shake_block (x : List UInt8) (k : ℕ) : (shakeHash.block x k).length = shakeRate := by
  obtain ⟨s, hs, -⟩ := Keccak.absorb_bits (fun _ => 0) x
  simp only [shakeHash, Keccak.xofBlock_eq hs k, Option.getD_some]
  exact Keccak.blockOf_length _

theorem decode_pfAt (m : Mem) (x : ℕ) : Protocol.decode l (pfAt l m x) = strVal l m x := by
  rw [Protocol.decode, strVal, pfAt]

/-! ## `Unpack_Response` -/

attribute [local irreducible] byteAt setByte i8 Protocol.int8 rdInt respAt Protocol.unpackResponse unpackResponseM in
/-- `Unpack_Response` on a proof whose end curves have `(p+1)²` points: no undefined behaviour; it changes `*which` and `*comm` at most; if it
returns true, these two are a tag and hashes that the response opens. -/
theorem C99_response {s prf r which comm : ℕ} (h0 : prf + 4 * fb l ≤ 8 * s) (hr : r + respBytes l ≤ 8 * s) (hw : which < 8 * s)
    (hc : comm + 2 * (params l).hash ≤ 8 * s) (hw0 : which < prf ∨ prf + 4 * fb l ≤ which) (hwr : which < r ∨ r + respBytes l ≤ which)
    (hwc : which < comm ∨ comm + 2 * (params l).hash ≤ which) (hcr : comm + 2 * (params l).hash ≤ r ∨ r + respBytes l ≤ comm)
    (t : Tape Draw) (ht : TapeLen l t) (m : Mem) (ha0 : RightOrder l (strVal l m prf)) (ha1 : RightOrder l (strVal l m (prf + 2 * fb l))) :
    unpackResponseM l shakeHash prf (prf + 2 * fb l) r which comm s t m ≠ .ub ∧
      ∀ b m' t', unpackResponseM l shakeHash prf (prf + 2 * fb l) r which comm s t m = .ok ((b, m'), t') →
        (∀ y < 8 * s, y ≠ which → (y < comm ∨ comm + 2 * (params l).hash ≤ y) → bytesAt m' y 1 = bytesAt m y 1) ∧
        (b = true → ∃ w, bytesAt m' which 1 = [w] ∧ Opens l shakeHash (strVal l m prf) (strVal l m (prf + 2 * fb l)) (respAt l m r)
          (signed8 w, ⟨bytesAt m' comm (params l).hash, bytesAt m' (comm + (params l).hash) (params l).hash⟩)) := by
  have h2 := sz_eq (l := l)
  have hrs := respSize_eq (l := l)
  have hA : RespArgs l s prf (prf + sz l) r which comm :=
    ⟨by omega, by omega, by omega, by omega, by omega, by omega, by omega, by omega, by omega, by omega⟩
  have hf := unpackResponseM_f shakeHash (fun n x => (C13_hash n x).1) ⟨fun _ => (⟨0, 0⟩, ⟨0, 0⟩), []⟩ hA ht m
  rw [rdPF_eq, rdPF_eq, rdResp_eq, ← h2] at hf
  obtain ⟨hu, hv⟩ := ProtocolProps.unpackResponse_noUB l shakeHash ⟨fun _ => (⟨0, 0⟩, ⟨0, 0⟩), []⟩ (x₀ := pfAt l m prf) (x₁ := pfAt l m (prf + 2 * fb l))
    (by rw [decode_pfAt]; exact ha0) (by rw [decode_pfAt]; exact ha1) (respAt_wf m r)
  have hu := hu (WCurve.fieldTape l t)
  have hv := fun a t' => hv (WCurve.fieldTape l t) t' a
  rw [decode_pfAt, decode_pfAt] at hv
  generalize Protocol.unpackResponse l shakeHash _ _ _ _ _ = c at hf hu hv
  generalize unpackResponseM l shakeHash _ _ _ _ _ _ _ _ = o at hf ⊢
  refine ⟨?_, ?_⟩
  · rintro rfl
    rcases c with ⟨c, tc⟩ | _ | _ | _ <;> simp only [FRes] at hf
    exact hu rfl
  · rintro b m' t' rfl
    rcases c with ⟨c, tc⟩ | _ | _ | _ <;> simp only [FRes] at hf
    obtain ⟨-, rfl, hf⟩ := hf
    have key : BF s [(which, 1), (comm, (params l).hash + (params l).hash)] m m' →
        ∀ y < 8 * s, y ≠ which → (y < comm ∨ comm + 2 * (params l).hash ≤ y) → bytesAt m' y 1 = bytesAt m y 1 := fun h y h1 h2 h3 => by
      rw [← rdBytes_eq, ← rdBytes_eq]
      exact h.bytes (by omega) (by simp; omega)
    rcases c with _ | c <;> rcases b with _ | _ <;> simp only [RespRes] at hf
    · exact ⟨key hf, by simp⟩
    · obtain ⟨h5, h6, h7⟩ := hf
      refine ⟨key h7, fun _ => ⟨byteAt m' which, ?_, ?_⟩⟩
      · rw [← rdBytes_eq]
        rfl
      · have ho := hv _ _ rfl _ rfl
        rw [rdBytes_append, rdBytes_eq, rdBytes_eq] at h6
        have hlen : c.2.h2.length = (params l).hash := by
          cases ho with
          | left => exact (C13_hash _ _).1
          | bottom => exact (C13_hash _ _).1
          | right => exact (respAt_wf m r).2.2.1.1
        obtain ⟨e2, e3⟩ := List.append_inj h6 (by rw [bytesAt_length, hlen])
        rw [e2, e3, ← i8_eq, h5]
        exact ho

/-! ## `Verify` -/

/-- `Verify` on whatever bytes lie at `prf`: no undefined behaviour; if it returns, it returns true exactly if the bytes are a valid proof; and it
changes nothing in the memory of its caller. -/
theorem C99_verify {s prf : ℕ} (hp : prf + proofBytes l ≤ 8 * s) (fuel : ℕ) (t : Tape Draw) (ht : TapeLen l t) (m : Mem) :
    verifyM l shakeHash fuel prf s t m ≠ .ub ∧ ∀ b m' t', verifyM l shakeHash fuel prf s t m = .ok ((b, m'), t') →
      (b = true ↔ Valid l shakeHash (proofAt l m prf)) ∧ ∀ y < 8 * s, bytesAt m' y 1 = bytesAt m y 1 := by
  have hf := verifyM_f (l := l) shakeHash (fun n x => (C13_hash n x).1) shake_block (fun _ => (⟨0, 0⟩, ⟨0, 0⟩)) fuel (prf := prf) (s := s)
    (by rw [proofSize_eq]; exact hp) ht m
  rw [rdProof_eq] at hf
  have hm := trits_length m (chalAddr l s) (params l).reps
  generalize trits m (chalAddr l s) (params l).reps = ch at hf hm
  have hu := ProtocolProps.c15_no_ub l shakeHash ⟨fun _ => (⟨0, 0⟩, ⟨0, 0⟩), ch⟩ hm fuel (proofAt_wf m prf) (WCurve.fieldTape l t)
  have hv := fun t' b => ProtocolProps.c15_verdict l shakeHash ⟨fun _ => (⟨0, 0⟩, ⟨0, 0⟩), ch⟩ hm fuel (proofAt l m prf) (WCurve.fieldTape l t) t' b
  generalize Protocol.verify l shakeHash _ _ _ _ = c at hf hu hv
  generalize verifyM l shakeHash _ _ _ _ _ = o at hf ⊢
  refine ⟨?_, ?_⟩
  · rintro rfl
    rcases c with ⟨c, tc⟩ | _ | _ | _ <;> simp only [FRes] at hf
    exact hu rfl
  · rintro b m' t' rfl
    rcases c with ⟨c, tc⟩ | _ | _ | _ <;> simp only [FRes] at hf
    obtain ⟨-, rfl, rfl, hf⟩ := hf
    refine ⟨hv _ _ rfl, fun y hy => ?_⟩
    rw [← rdBytes_eq, ← rdBytes_eq]
    exact hf.bytes (by omega) (by simp)

/-- What it means that `Verify` returns true, in terms of the bytes at `prf`: the curves in the first two strings have `(p+1)²` points, every
response opens a pair of hashes for its tag, and the tags are the challenge that SHAKE256 gives for the curves and the hashes. -/
theorem C99_sound {s prf : ℕ} (hp : prf + proofBytes l ≤ 8 * s) (fuel : ℕ) (t : Tape Draw) (ht : TapeLen l t) (m : Mem) (m' : Mem) (t' : Tape Draw)
    (h : verifyM l shakeHash fuel prf s t m = .ok ((true, m'), t')) :
    RightOrder l (strVal l m prf) ∧ RightOrder l (strVal l m (prf + 2 * fb l)) ∧ ∃ os : List (Int × Comm), os.length = (params l).reps ∧
      (∀ i (hi : i < os.length), Opens l shakeHash (strVal l m prf) (strVal l m (prf + 2 * fb l))
        (respAt l m (prf + 4 * fb l + i * respBytes l)) os[i]) ∧
      IsChallenge l shakeHash (challengeBytes l (strVal l m prf) (strVal l m (prf + 2 * fb l)) (os.map fun o => (o.2.h2, o.2.h3)))
        (os.map Prod.fst) := by
  have hf := verifyM_f (l := l) shakeHash (fun n x => (C13_hash n x).1) shake_block (fun _ => (⟨0, 0⟩, ⟨0, 0⟩)) fuel (prf := prf) (s := s)
    (by rw [proofSize_eq]; exact hp) ht m
  rw [rdProof_eq, h] at hf
  have hm := trits_length m (chalAddr l s) (params l).reps
  generalize trits m (chalAddr l s) (params l).reps = ch at hf hm
  have hv := fun t' => ProtocolProps.c15_sound l shakeHash ⟨fun _ => (⟨0, 0⟩, ⟨0, 0⟩), ch⟩ hm fuel (proofAt_wf m prf) (WCurve.fieldTape l t) t'
  generalize Protocol.verify l shakeHash _ _ _ _ = c at hf hv
  rcases c with ⟨c, tc⟩ | _ | _ | _ <;> simp only [FRes] at hf
  obtain ⟨-, rfl, rfl, -⟩ := hf
  obtain ⟨h0, h1, os, hl, ho, hc⟩ := hv _ rfl
  simp only [proofAt, decode_pfAt] at h0 h1 ho hc
  refine ⟨h0, h1, os, hl, fun i hi => ?_, hc⟩
  have := List.forall₂_iff_get.1 ho
  have h3 := this.2 i (by simpa [← hl] using hi) hi
  simpa using h3

/-! ## The hypotheses can be met -/

example (fuel : ℕ) (t : Tape Draw) (ht : TapeLen .l434 t) : verifyM .l434 shakeHash fuel 3 24000 t zeroMem ≠ .ub :=
  (C99_verify (l := .l434) (s := 24000) (prf := 3) (by decide) fuel t ht zeroMem).1

/-- The two curves in memory that is zero everywhere are the starting curve, and pass. -/
example (t : Tape Draw) (ht : TapeLen .l434 t) : unpackResponseM .l434 shakeHash 0 110 300 1200 1300 200 t zeroMem ≠ .ub :=
  (C99_response (l := .l434) (s := 200) (prf := 0) (r := 300) (which := 1200) (comm := 1300) (by decide) (by decide) (by decide) (by decide)
    (by decide) (by decide) (by decide) (by decide) t ht zeroMem (by rw [strVal_zero]; exact rightOrder_zero _)
    (by rw [strVal_zero]; exact rightOrder_zero _)).1

end Secuer.MemProps
