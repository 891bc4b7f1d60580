import Verif.Props.TestProps
import Verif.Props.ProofProps

/-!
# What the flipped bit of the test program hits (C103)

`test_poik` flips bit 0 of byte 345 of the proof and expects `Verify` to refuse it.  Which part of the proof this byte belongs to depends on the prime
and, for three of the primes, on the tag of the first response.  Here is what follows if `Verify` accepts both proofs.
-/

set_option maxRecDepth 100000
set_option exponentiation.threshold 1000

namespace Secuer.MemProps

open Secuer.Word Secuer.Field Secuer.CMem
open Secuer.Text (PFp2 CResp CProof)
open Secuer.Curve (Out Tape)
open Secuer.Protocol (params Comm Hash)
open Secuer.CurveProps (jOf)
open Secuer.ChainProps (RightOrder)
open Secuer.ProtocolProps (Valid Exceptional Opens IsChallenge challengeBytes commitBytes)
open Secuer.KeccakProps (shakeHash C13_hash)
open Secuer.WCurve (Draw TapeLen fieldTape)
open Secuer.ChainProps (rightOrder_zero)

attribute [local instance] Arith.portable

variable {l : Level}

/-- The curves of the proof at `prf` -/
abbrev curve0 (l : Level) (m : Mem) (prf : ℕ) : l.F := strVal l m prf
abbrev curve1 (l : Level) (m : Mem) (prf : ℕ) : l.F := strVal l m (prf + 2 * fb l)

/-- `os` opens, one by one, the responses of the proof at `prf`, and its first components are the challenge for what it commits to. -/
structure Accepted (l : Level) (m : Mem) (prf : ℕ) (os : List (Int × Comm)) : Prop where
  len : os.length = (params l).reps
  opens : ∀ i (h : i < os.length), Opens l shakeHash (curve0 l m prf) (curve1 l m prf) (respAt l m (prf + 4 * fb l + i * respBytes l)) os[i]
  chal : IsChallenge l shakeHash (challengeBytes l (curve0 l m prf) (curve1 l m prf) (os.map fun o => (o.2.h2, o.2.h3))) (os.map Prod.fst)

theorem accepted_of_valid {m : Mem} {prf : ℕ} (h : Valid l shakeHash (proofAt l m prf)) : ∃ os, Accepted l m prf os := by
  have hw := proofAt_wf (l := l) m prf
  obtain ⟨r0, r1, os, hos, hc⟩ := h
  have hl : os.length = (params l).reps := by rw [← hos.length_eq, hw.2.2.1]
  simp only [proofAt, decode_pfAt] at hc r0 r1
  refine ⟨os, hl, fun i hi => ?_, hc⟩
  have hr : i < (proofAt l m prf).resp.length := by rw [hw.2.2.1]; omega
  obtain ⟨mem, t, t', a⟩ := hos.get (i := i) hr hi
  have hw' := hw.2.2.2 _ (List.get_mem (proofAt l m prf).resp ⟨i, hr⟩)
  have := (ProtocolProps.unpackResponse_noUB l shakeHash mem (x₀ := (proofAt l m prf).E0) (x₁ := (proofAt l m prf).E1)
    (by simp only [proofAt, decode_pfAt]; exact r0) (by simp only [proofAt, decode_pfAt]; exact r1) hw').2 _ _ _ a _ rfl
  simpa [proofAt, decode_pfAt] using this

theorem opens_fst {H : Hash} {a₀ a₁ a₀' a₁' : l.F} {r r' : CResp} {o o' : Int × Comm} (h : Opens l H a₀ a₁ r o) (h' : Opens l H a₀' a₁' r' o')
    (ht : r'.tag = r.tag) : o'.1 = o.1 := by
  cases h <;> cases h' <;> first | rfl | omega

theorem flip_tag (m : Mem) (prf i : ℕ) :
    (respAt l (flipM prf m) (prf + 4 * fb l + i * respBytes l)).tag = (respAt l m (prf + 4 * fb l + i * respBytes l)).tag := by
  have : bytesAt (flipM prf m) (prf + 4 * fb l + i * respBytes l) 4 = bytesAt m (prf + 4 * fb l + i * respBytes l) 4 := by
    refine flip_out ?_
    have hf : fb .l434 = 55 ∧ fb .l503 = 63 ∧ fb .l610 = 77 ∧ fb .l751 = 94 := by decide +kernel
    cases l <;> simp only [respBytes] <;> rcases i with _ | i <;> omega
  simp only [respAt, this]

theorem Accepted.lengths {m : Mem} {prf : ℕ} {os : List (Int × Comm)} (h : Accepted l m prf os) :
    ∀ c ∈ os.map (fun o => (o.2.h2, o.2.h3)), c.1.length = (params l).hash ∧ c.2.length = (params l).hash := by
  intro c hc
  obtain ⟨o, ho, rfl⟩ := List.mem_map.1 hc
  obtain ⟨i, hi, rfl⟩ := List.getElem_of_mem ho
  have := ProtocolProps.opens_lengths l shakeHash (fun n x => (C13_hash n x).1) (rs := [_]) (os := [_]) (by
    intro r hr; rw [List.mem_singleton.1 hr]; exact respAt_wf m _) (.cons (h.opens i hi) .nil)
  exact this _ (by simp)

/-- If the proof is valid before and after the bit is flipped, then either the inputs of the challenge hash differ and give the same challenge, or both
proofs have the same commitments and the same j-invariants. -/
theorem flip_core {m : Mem} {prf : ℕ} (h : Valid l shakeHash (proofAt l m prf)) (h' : Valid l shakeHash (proofAt l (flipM prf m) prf)) :
    ∃ os os', Accepted l m prf os ∧ Accepted l (flipM prf m) prf os' ∧ os'.map Prod.fst = os.map Prod.fst ∧
      (challengeBytes l (curve0 l (flipM prf m) prf) (curve1 l (flipM prf m) prf) (os'.map fun o => (o.2.h2, o.2.h3)) ≠
        challengeBytes l (curve0 l m prf) (curve1 l m prf) (os.map fun o => (o.2.h2, o.2.h3)) ∨
      os' = os ∧ jOf (curve0 l (flipM prf m) prf) = jOf (curve0 l m prf) ∧ jOf (curve1 l (flipM prf m) prf) = jOf (curve1 l m prf)) := by
  obtain ⟨os, ho⟩ := accepted_of_valid h
  obtain ⟨os', ho'⟩ := accepted_of_valid h'
  have hlen : os'.length = os.length := by rw [ho.len, ho'.len]
  have hf : os'.map Prod.fst = os.map Prod.fst := by
    refine List.ext_getElem (by simpa using hlen) fun i h1 h2 => ?_
    simp only [List.getElem_map]
    simp only [List.length_map] at h1 h2
    exact opens_fst (ho.opens i h2) (ho'.opens i h1) (flip_tag m prf i)
  refine ⟨os, os', ho, ho', hf, or_iff_not_imp_left.2 fun hc => ?_⟩
  obtain ⟨j0, j1, hh⟩ := ProtocolProps.c12_challenge_injective l ho'.lengths ho.lengths (not_not.1 hc)
  refine ⟨List.ext_getElem hlen fun i h1 h2 => ?_, j0, j1⟩
  have e1 : (os'.map Prod.fst)[i]? = (os.map Prod.fst)[i]? := by rw [hf]
  have e2 : (os'.map fun o => (o.2.h2, o.2.h3))[i]? = (os.map fun o => (o.2.h2, o.2.h3))[i]? := by rw [hh]
  simp only [List.getElem?_map, List.getElem?_eq_getElem h1, List.getElem?_eq_getElem h2, Option.map_some, Option.some.injEq, Prod.mk.injEq] at e1 e2
  exact Prod.ext e1 (by
    rcases h : os'[i] with ⟨a, b, c⟩
    rcases h' : os[i] with ⟨a', b', c'⟩
    simp only [h, h'] at e2
    simp [e2.1, e2.2])

/-! ## What the byte belongs to -/

theorem leNat_flip {m : Mem} {prf x n : ℕ} (h1 : x ≤ prf + 345) (h2 : prf + 345 < x + n) : ∃ k,
    Scalar.leNat (bytesAt (flipM prf m) x n) = Scalar.leNat (bytesAt m x n) + 256 ^ k ∨
      Scalar.leNat (bytesAt m x n) = Scalar.leNat (bytesAt (flipM prf m) x n) + 256 ^ k := by
  obtain ⟨k, hk⟩ := Nat.exists_eq_add_of_le h1
  obtain ⟨r, rfl⟩ := Nat.exists_eq_add_of_le (show k + 1 ≤ n by omega)
  have e : ∀ m', bytesAt m' x (k + 1 + r) = bytesAt m' x k ++ ([byteAt m' (prf + 345)] ++ bytesAt m' (x + k + 1) r) := fun m' => by
    rw [← rdBytes_eq, ← rdBytes_eq, ← rdBytes_eq, rdBytes_append, rdBytes_append, List.append_assoc, hk]
    rfl
  have b1 : byteAt (flipM prf m) (prf + 345) = byteAt m (prf + 345) ^^^ 1 := by rw [flipM, byteAt_setByte, if_pos rfl]
  have hb : ∀ n < 256, n ^^^ 1 = n + 1 ∨ n = (n ^^^ 1) + 1 := by decide +kernel
  have hb := hb _ (byteAt m (prf + 345)).toNat_lt
  have b2 : (byteAt m (prf + 345) ^^^ 1).toNat = (byteAt m (prf + 345)).toNat ^^^ 1 := by rw [UInt8.toNat_xor]; rfl
  refine ⟨k, ?_⟩
  rw [e, e m, Word.leNat_append, Word.leNat_append, Word.leNat_append, Word.leNat_append, flip_out (by omega), flip_out (by omega), bytesAt_length, b1]
  simp only [Scalar.leNat, b2, mul_add, mul_zero, add_zero, List.length_cons, List.length_nil]
  rcases hb with hb | hb
  · left; rw [hb, mul_add]; omega
  · right; nth_rewrite 1 [hb]; rw [mul_add]; omega

theorem cast_flip {m : Mem} {prf x n : ℕ} (h1 : x ≤ prf + 345) (h2 : prf + 345 < x + n) :
    (Scalar.leNat (bytesAt (flipM prf m) x n) : ZMod l.p) ≠ (Scalar.leNat (bytesAt m x n) : ZMod l.p) := by
  intro e
  obtain ⟨k, hk⟩ := leNat_flip (m := m) h1 h2
  have hc : Nat.Coprime l.p 256 := by cases l <;> decide +kernel
  have hp : l.p ≠ 1 := by cases l <;> decide +kernel
  have h0 : ((256 ^ k : ℕ) : ZMod l.p) = 0 := by
    rcases hk with hk | hk <;> rw [hk, Nat.cast_add] at e
    · exact add_eq_left.1 e
    · exact add_eq_left.1 e.symm
  exact hp (Nat.Coprime.eq_one_of_dvd (hc.pow_right k) ((ZMod.natCast_eq_zero_iff _ _).1 h0))

theorem strVal_flip {m : Mem} {prf x : ℕ} (h1 : x ≤ prf + 345) (h2 : prf + 345 < x + 2 * fb l) : strVal l (flipM prf m) x ≠ strVal l m x := by
  intro e
  rw [strVal, strVal] at e
  injection e with e1 e2
  by_cases h : prf + 345 < x + fb l
  · exact cast_flip (l := l) h1 h e1
  · exact cast_flip (l := l) (x := x + fb l) (by omega) (by omega) e2

/-- Both proofs are accepted with the same challenge although the inputs of the challenge hash differ. -/
def OtherInput (l : Level) (m m' : Mem) (prf : ℕ) : Prop :=
  ∃ os os', Accepted l m prf os ∧ Accepted l m' prf os' ∧ os'.map Prod.fst = os.map Prod.fst ∧
    challengeBytes l (curve0 l m' prf) (curve1 l m' prf) (os'.map fun o => (o.2.h2, o.2.h3)) ≠
      challengeBytes l (curve0 l m prf) (curve1 l m prf) (os.map fun o => (o.2.h2, o.2.h3))

/-- The commitment `h` is opened with the string at `x`, before and after, although the string has changed: two inputs of SHAKE256 with the output `h`. -/
def TwoStrings (l : Level) (m m' : Mem) (x : ℕ) (h : List UInt8) : Prop :=
  bytesAt m' x (params l).hide ≠ bytesAt m x (params l).hide ∧ ∃ a a' : l.F, RightOrder l a ∧ RightOrder l a' ∧
    h = shakeHash.out (params l).hash (commitBytes l (bytesAt m x (params l).hide) a) ∧
    h = shakeHash.out (params l).hash (commitBytes l (bytesAt m' x (params l).hide) a')

/-- p751: the byte belongs to the second curve.  If both proofs are valid and the inputs of the challenge hash are the same, then this is now another
curve with the same j-invariant. -/
theorem C103_flip751 {m : Mem} {prf : ℕ} (h : Valid .l751 shakeHash (proofAt .l751 m prf)) (h' : Valid .l751 shakeHash (proofAt .l751 (flipM prf m) prf)) :
    OtherInput .l751 m (flipM prf m) prf ∨
      curve1 .l751 (flipM prf m) prf ≠ curve1 .l751 m prf ∧ jOf (curve1 .l751 (flipM prf m) prf) = jOf (curve1 .l751 m prf) := by
  obtain ⟨os, os', ho, ho', hf, hc | ⟨-, -, hj⟩⟩ := flip_core h h'
  · exact .inl ⟨os, os', ho, ho', hf, hc⟩
  · have hb : fb .l751 = 94 := by decide +kernel
    exact .inr ⟨strVal_flip (l := .l751) (by omega) (by omega), hj⟩

/-- The first opening, before and after -/
theorem Accepted.first {m : Mem} {prf : ℕ} {os : List (Int × Comm)} (h : Accepted l m prf os) : ∃ o, os.head? = some o ∧
    Opens l shakeHash (curve0 l m prf) (curve1 l m prf) (respAt l m (prf + 4 * fb l)) o := by
  have hr : 0 < (params l).reps := by cases l <;> decide
  have h0 : 0 < os.length := by rw [h.len]; exact hr
  refine ⟨os[0], by rw [List.head?_eq_getElem?, List.getElem?_eq_getElem h0], ?_⟩
  simpa using h.opens 0 h0

theorem opens_inv {H : Hash} {a₀ a₁ : l.F} {r : CResp} {o : Int × Comm} (h : Opens l H a₀ a₁ r o) :
    (o.1 = -1 ∧ ∃ a, RightOrder l a ∧ o.2.h2 = H.out (params l).hash (commitBytes l r.leftR2 a) ∧ o.2.h3 = r.leftH3) ∨
    (o.1 = 0 ∧ ∃ a b, RightOrder l a ∧ RightOrder l b ∧ o.2.h2 = H.out (params l).hash (commitBytes l r.bottomR2 a) ∧
      o.2.h3 = H.out (params l).hash (commitBytes l r.bottomR3 b)) ∨
    (o.1 = 1 ∧ ∃ a, RightOrder l a ∧ o.2.h2 = r.rightH2 ∧ o.2.h3 = H.out (params l).hash (commitBytes l r.rightR3 a)) := by
  cases h with
  | left a _ h1 => exact .inl ⟨rfl, a, h1, rfl, rfl⟩
  | bottom a b _ _ h1 h2 => exact .inr (.inl ⟨rfl, a, b, h1, h2, rfl, rfl⟩)
  | right a _ h1 => exact .inr (.inr ⟨rfl, a, h1, rfl, rfl⟩)

/-- p610: the byte belongs to the first string of the first response (challenge -1 or 0) or to its commitment `h2` (challenge 1).  If both proofs are valid
and the inputs of the challenge hash are the same, then the challenge is not 1, and the commitment `h2` is opened with two strings. -/
theorem C103_flip610 {m : Mem} {prf : ℕ} (h : Valid .l610 shakeHash (proofAt .l610 m prf)) (h' : Valid .l610 shakeHash (proofAt .l610 (flipM prf m) prf)) :
    OtherInput .l610 m (flipM prf m) prf ∨ ∃ os o, Accepted .l610 m prf os ∧ Accepted .l610 (flipM prf m) prf os ∧ os.head? = some o ∧
      o.1 ≠ 1 ∧ TwoStrings .l610 m (flipM prf m) (prf + 312) o.2.h2 := by
  obtain ⟨os, os', ho, ho', hf, hc | ⟨rfl, -, -⟩⟩ := flip_core h h'
  · exact .inl ⟨os, os', ho, ho', hf, hc⟩
  · have hb : fb .l610 = 77 := by decide +kernel
    have hH : (params .l610).hide = 96 := rfl
    have hA : (params .l610).hash = 48 := rfl
    obtain ⟨o, e, hop⟩ := ho.first
    obtain ⟨o', e', hop'⟩ := ho'.first
    cases e.symm.trans e'
    refine .inr ⟨os', o, ho, ho', e, ?_⟩
    rw [show prf + 4 * fb .l610 = prf + 308 by omega] at hop hop'
    have ht := flip_in (m := m) (prf := prf) (x := prf + 312) (n := (params .l610).hide) (by omega) (by omega)
    have hh := flip_in (m := m) (prf := prf) (x := prf + 312) (n := (params .l610).hash) (by omega) (by omega)
    rcases opens_inv hop with ⟨c, a, r, p, q⟩ | ⟨c, a, b, r, s, p, q⟩ | ⟨c, a, r, p, q⟩ <;>
    rcases opens_inv hop' with ⟨c', a', r', p', q'⟩ | ⟨c', a', b', r', s', p', q'⟩ | ⟨c', a', r', p', q'⟩ <;>
    first
    | exact absurd (c.symm.trans c') (by decide)
    | exact ⟨by rw [c]; decide, ht, a, a', r, r', p, p'⟩
    | exact absurd (p'.symm.trans p) hh

/-- p503: the byte belongs to the commitment `h3` of the first response (challenge -1) or to its string `r3` (challenge 0 or 1).  If both proofs are valid
and the inputs of the challenge hash are the same, then the challenge is not -1, and the commitment `h3` is opened with two strings. -/
theorem C103_flip503 {m : Mem} {prf : ℕ} (h : Valid .l503 shakeHash (proofAt .l503 m prf)) (h' : Valid .l503 shakeHash (proofAt .l503 (flipM prf m) prf)) :
    OtherInput .l503 m (flipM prf m) prf ∨ ∃ os o, Accepted .l503 m prf os ∧ Accepted .l503 (flipM prf m) prf os ∧ os.head? = some o ∧
      (o.1 = 0 ∧ TwoStrings .l503 m (flipM prf m) (prf + 320) o.2.h3 ∨ o.1 = 1 ∧ TwoStrings .l503 m (flipM prf m) (prf + 288) o.2.h3) := by
  obtain ⟨os, os', ho, ho', hf, hc | ⟨rfl, -, -⟩⟩ := flip_core h h'
  · exact .inl ⟨os, os', ho, ho', hf, hc⟩
  · have hb : fb .l503 = 63 := by decide +kernel
    have hH : (params .l503).hide = 64 := rfl
    have hA : (params .l503).hash = 32 := rfl
    obtain ⟨o, e, hop⟩ := ho.first
    obtain ⟨o', e', hop'⟩ := ho'.first
    cases e.symm.trans e'
    refine .inr ⟨os', o, ho, ho', e, ?_⟩
    rw [show prf + 4 * fb .l503 = prf + 252 by omega] at hop hop'
    have hl := flip_in (m := m) (prf := prf) (x := prf + 320) (n := (params .l503).hash) (by omega) (by omega)
    have hm := flip_in (m := m) (prf := prf) (x := prf + 320) (n := (params .l503).hide) (by omega) (by omega)
    have hr := flip_in (m := m) (prf := prf) (x := prf + 288) (n := (params .l503).hide) (by omega) (by omega)
    rcases opens_inv hop with ⟨c, a, r, p, q⟩ | ⟨c, a, b, r, s, p, q⟩ | ⟨c, a, r, p, q⟩ <;>
    rcases opens_inv hop' with ⟨c', a', r', p', q'⟩ | ⟨c', a', b', r', s', p', q'⟩ | ⟨c', a', r', p', q'⟩ <;>
    first
    | exact absurd (c.symm.trans c') (by decide)
    | exact absurd (q'.symm.trans q) hl
    | exact .inl ⟨c, hm, b, b', s, s', q, q'⟩
    | exact .inr ⟨c, hr, a, a', r, r', q, q'⟩

/-- p434: the byte belongs to the first string of the chain in the first response (challenge -1 or 1) or to its string `r3` (challenge 0).  If both proofs
are valid and the inputs of the challenge hash are the same, then the commitment `h3` is opened with two strings, or the point at the start of the chain
is another one and the commitment to the end of the chain is opened with the same string. -/
theorem C103_flip434 {m : Mem} {prf : ℕ} (h : Valid .l434 shakeHash (proofAt .l434 m prf)) (h' : Valid .l434 shakeHash (proofAt .l434 (flipM prf m) prf)) :
    OtherInput .l434 m (flipM prf m) prf ∨ ∃ os o, Accepted .l434 m prf os ∧ Accepted .l434 (flipM prf m) prf os ∧ os.head? = some o ∧
      (o.1 = 0 ∧ TwoStrings .l434 m (flipM prf m) (prf + 288) o.2.h3 ∨
      strVal .l434 (flipM prf m) (prf + 320) ≠ strVal .l434 m (prf + 320) ∧ ∃ (a a' : Level.F .l434) (r c : List UInt8), RightOrder .l434 a ∧ RightOrder .l434 a' ∧
        (o.1 = -1 ∧ r = bytesAt m (prf + 224) 64 ∧ c = o.2.h2 ∨ o.1 = 1 ∧ r = bytesAt m (prf + 256) 64 ∧ c = o.2.h3) ∧
        c = shakeHash.out 32 (commitBytes .l434 r a) ∧ c = shakeHash.out 32 (commitBytes .l434 r a')) := by
  obtain ⟨os, os', ho, ho', hf, hc | ⟨rfl, -, -⟩⟩ := flip_core h h'
  · exact .inl ⟨os, os', ho, ho', hf, hc⟩
  · have hb : fb .l434 = 55 := by decide +kernel
    have hH : (params .l434).hide = 64 := rfl
    have hA : (params .l434).hash = 32 := rfl
    obtain ⟨o, e, hop⟩ := ho.first
    obtain ⟨o', e', hop'⟩ := ho'.first
    cases e.symm.trans e'
    refine .inr ⟨os', o, ho, ho', e, ?_⟩
    rw [show prf + 4 * fb .l434 = prf + 220 by omega] at hop hop'
    have hm := flip_in (m := m) (prf := prf) (x := prf + 288) (n := (params .l434).hide) (by omega) (by omega)
    have hs := strVal_flip (l := .l434) (m := m) (prf := prf) (x := prf + 320) (by omega) (by omega)
    have k1 : bytesAt (flipM prf m) (prf + 224) 64 = bytesAt m (prf + 224) 64 := flip_out (by omega)
    have k2 : bytesAt (flipM prf m) (prf + 256) 64 = bytesAt m (prf + 256) 64 := flip_out (by omega)
    rcases opens_inv hop with ⟨c, a, r, p, q⟩ | ⟨c, a, b, r, s, p, q⟩ | ⟨c, a, r, p, q⟩ <;>
    rcases opens_inv hop' with ⟨c', a', r', p', q'⟩ | ⟨c', a', b', r', s', p', q'⟩ | ⟨c', a', r', p', q'⟩ <;>
    first
    | exact absurd (c.symm.trans c') (by decide)
    | exact .inr ⟨hs, a, a', _, _, r, r', .inl ⟨c, rfl, rfl⟩, p, by rw [← k1]; exact p'⟩
    | exact .inl ⟨c, hm, b, b', s, s', q, q'⟩
    | exact .inr ⟨hs, a, a', _, _, r, r', .inr ⟨c, rfl, rfl⟩, q, by rw [← k2]; exact q'⟩

/-! ## The test -/

/-- What it takes to make `Verify` accept the proof at `prf` in both memories, for the bit that `test.c` flips -/
def Escape : (l : Level) → Mem → Mem → ℕ → Prop
  | .l751, m, m', prf => OtherInput .l751 m m' prf ∨ curve1 .l751 m' prf ≠ curve1 .l751 m prf ∧ jOf (curve1 .l751 m' prf) = jOf (curve1 .l751 m prf)
  | .l610, m, m', prf => OtherInput .l610 m m' prf ∨ ∃ os o, Accepted .l610 m prf os ∧ Accepted .l610 m' prf os ∧ os.head? = some o ∧
      o.1 ≠ 1 ∧ TwoStrings .l610 m m' (prf + 312) o.2.h2
  | .l503, m, m', prf => OtherInput .l503 m m' prf ∨ ∃ os o, Accepted .l503 m prf os ∧ Accepted .l503 m' prf os ∧ os.head? = some o ∧
      (o.1 = 0 ∧ TwoStrings .l503 m m' (prf + 320) o.2.h3 ∨ o.1 = 1 ∧ TwoStrings .l503 m m' (prf + 288) o.2.h3)
  | .l434, m, m', prf => OtherInput .l434 m m' prf ∨ ∃ os o, Accepted .l434 m prf os ∧ Accepted .l434 m' prf os ∧ os.head? = some o ∧
      (o.1 = 0 ∧ TwoStrings .l434 m m' (prf + 288) o.2.h3 ∨
      strVal .l434 m' (prf + 320) ≠ strVal .l434 m (prf + 320) ∧ ∃ (a a' : Level.F .l434) (r c : List UInt8), RightOrder .l434 a ∧ RightOrder .l434 a' ∧
        (o.1 = -1 ∧ r = bytesAt m (prf + 224) 64 ∧ c = o.2.h2 ∨ o.1 = 1 ∧ r = bytesAt m (prf + 256) 64 ∧ c = o.2.h3) ∧
        c = shakeHash.out 32 (commitBytes .l434 r a) ∧ c = shakeHash.out 32 (commitBytes .l434 r a'))

theorem C103_flip {m : Mem} {prf : ℕ} (h : Valid l shakeHash (proofAt l m prf)) (h' : Valid l shakeHash (proofAt l (flipM prf m) prf)) :
    Escape l m (flipM prf m) prf := by
  cases l
  · exact C103_flip434 h h'
  · exact C103_flip503 h h'
  · exact C103_flip610 h h'
  · exact C103_flip751 h h'

theorem bindT_eq_ok {γ β : Type} {r : Out (γ × Tape Draw)} {k : γ → Tape Draw → Out β} {b : β} (h : bindT r k = .ok b) :
    ∃ g t, r = .ok (g, t) ∧ k g t = .ok b := by
  rcases r with ⟨g, t⟩ | _ | _ | _
  · exact ⟨g, t, rfl, h⟩
  all_goals simp [bindT] at h

/-- `test_poik`, if it returns and has got a block for the proof, returns true, except that
* a curve strictly inside one of the chains of the prover has j-invariant 0 or 1728 (then `Verify` may refuse the proof it should accept), or
* the proof with the flipped bit is accepted: `Escape`. -/
theorem C103_test {E0 sp x : ℕ} (h0 : E0 + 2 * fb l ≤ 8 * sp) {h : Heap} (hh : HeapOk l E0 sp h) (hx : h.prf = some x) (fuel : ℕ) (t : Tape Draw)
    (ht : TapeLen l t) (m : Mem) (hE : strVal l m E0 = 0) : ∀ b m' t', testM l shakeHash fuel E0 h sp t m = .ok ((b, m'), t') →
    b = true ∨
    (∃ m₁ t₁ vs u, generateM l E0 (8 * sp) (sp + secretSize l) t m = .ok ((true, m₁), t₁) ∧
      Protocol.instances l shakeHash (secretAt l m₁ (8 * sp)) (params l).reps (fieldTape l t₁) = .ok (vs, u) ∧ ∃ v ∈ vs, Exceptional l v.1) ∨
    ∃ m₀, proofAt l m' x = proofAt l (flipM x m₀) x ∧ Escape l m₀ (flipM x m₀) x := by
  have hz := secretSize_eq (l := l)
  have hxb := hh.prf _ hx
  intro b m' t' hr
  obtain ⟨⟨b₁, m₁⟩, t₁, hg, hr⟩ := bindT_eq_ok hr
  have hgs := C100_generate (l := l) (s := sp + secretSize l) (E0 := E0) (sec := 8 * sp) (by omega) (by omega) t ht m
  have hb : b₁ = true := (hgs.2 _ _ _ hg).1.2 (by rw [hE]; exact rightOrder_zero l)
  subst hb
  have hl := (C100_refines (l := l) (by omega) (by omega) ⟨fun _ => (⟨0, 0⟩, ⟨0, 0⟩), []⟩ t ht m m₁ t₁ hg).1
  have hG := C101_generated (l := l) (by omega) (by omega) t ht m m₁ t₁ hg m₁ (8 * sp) rfl
  simp only [Bool.true_eq_false, if_false, hx] at hr
  obtain ⟨m₂, t₂, hp, hr⟩ := bindT_eq_ok hr
  rcases hi : h.inst with _ | a
  · rw [hi, C101_malloc] at hp; cases hp
  rw [hi] at hp
  have ha := hh.inst _ hi
  have hxa := hh.sep _ _ hx hi
  have hC := C101_complete (l := l) (s := sp + secretSize l) (sec := 8 * sp) (prf := x) (inst := a) (by omega) (by omega) (by omega) (by omega) hxa
    fuel t₁ hl m₁ hG m₂ t₂ hp
  have hl₂ := (C101_refines (l := l) (s := sp + secretSize l) (sec := 8 * sp) (prf := x) (inst := a) (by omega) (by omega) (by omega) (by omega) hxa
    fuel t₁ hl m₁ m₂ t₂ hp).1
  obtain ⟨⟨b₃, m₃⟩, t₃, hv, hr⟩ := bindT_eq_ok hr
  obtain ⟨⟨b₄, m₄⟩, t₄, hv', hr⟩ := bindT_eq_ok hr
  have hl₃ := verify_tape (l := l) (by omega) hl₂ hv
  cases hr
  rcases hC with ⟨vs, u, hA, hB⟩ | hC
  · exact .inr (.inl ⟨m₁, t₁, vs, u, hg, hA, hB⟩)
  · have e3 : b₃ = true := (hC (sp + secretSize l) x fuel t₂ m₂ (by omega) hl₂ rfl).2 _ _ _ hv
    obtain ⟨v1, f1⟩ := (C99_verify (l := l) (s := sp + secretSize l) (prf := x) (by omega) fuel t₂ hl₂ m₂).2 _ _ _ hv
    obtain ⟨v2, f2⟩ := (C99_verify (l := l) (s := sp + secretSize l) (prf := x) (by omega) fuel t₃ hl₃ (flipM x m₃)).2 _ _ _ hv'
    have g1 : proofAt l m₃ x = proofAt l m₂ x := proofAt_congr (bytesAt_ones fun y _ _ => f1 y (by omega))
    have g2 : proofAt l m₄ x = proofAt l (flipM x m₃) x := proofAt_congr (bytesAt_ones fun y _ _ => f2 y (by omega))
    subst e3
    cases b₄ with
    | false => exact .inl rfl
    | true => exact .inr (.inr ⟨m₃, g2, C103_flip (by rw [g1]; exact v1.1 rfl) (v2.1 rfl)⟩)

/-! ## The hypotheses can be met

Proofs that are valid before and after cannot be exhibited: that would be two inputs of SHAKE256 that do what `Escape` says. -/

example (t : Tape Draw) (ht : TapeLen .l434 t) (m' : Mem) (t' : Tape Draw)
    (h : testM .l434 shakeHash 9 0 ⟨some 200, some 100000⟩ 1000000 t zeroMem = .ok ((false, m'), t')) :
    (∃ m₁ t₁ vs u, generateM .l434 0 (8 * 1000000) (1000000 + secretSize .l434) t zeroMem = .ok ((true, m₁), t₁) ∧
      Protocol.instances .l434 shakeHash (secretAt .l434 m₁ (8 * 1000000)) (params .l434).reps (fieldTape .l434 t₁) = .ok (vs, u) ∧
        ∃ v ∈ vs, Exceptional .l434 v.1) ∨
    ∃ m₀, proofAt .l434 m' 200 = proofAt .l434 (flipM 200 m₀) 200 ∧ Escape .l434 m₀ (flipM 200 m₀) 200 := by
  have hp : proofBytes .l434 ≤ 700000 := by decide +kernel
  have ha : arrayBytes .l434 ≤ 7000000 := by decide +kernel
  have hf : fb .l434 = 55 := by decide +kernel
  refine (C103_test (l := .l434) (E0 := 0) (sp := 1000000) (x := 200) (h := ⟨some 200, some 100000⟩) (by omega) ⟨?_, ?_, ?_⟩ rfl 9 t ht zeroMem
    (strVal_zeroMem 0) _ _ _ h).resolve_left (by decide)
  · rintro x ⟨⟩; omega
  · rintro x ⟨⟩; omega
  · rintro x a ⟨⟩ ⟨⟩; omega

example (m : Mem) : strVal .l751 (flipM 7 m) (7 + 188) ≠ strVal .l751 m (7 + 188) := by
  have hf : fb .l751 = 94 := by decide +kernel
  exact strVal_flip (l := .l751) (by omega) (by omega)

end Secuer.MemProps
