import Verif.Keccak.Lemmas
import Verif.Props.HonestProps

/-!
# Properties of the hash function (C13, C14)

The specification is `Verif.Keccak.Spec`, a transcription of FIPS 202 on bit strings. It shares no function with the model of
`fips202.c` in `Verif.Keccak.Model`.
-/

namespace Secuer.KeccakProps

set_option maxRecDepth 8000

open Secuer.Text Secuer.Keccak Secuer.Protocol

/-! ## C13 -/

/-- The bit string of the 25 words of a state: bit `z` of word `i` is bit `64 i + z`. -/
def StateString (s : Fin 25 → BitVec 64) (S : Spec.Bits) : Prop :=
  S.length = 1600 ∧ ∀ (i : Fin 25) (z : Fin 64), S[64 * (i : ℕ) + z]? = some ((s i).getLsbD z)

theorem stateString_iff (s : State) (S : Spec.Bits) : StateString s S ↔ S = bitsS s := by
  constructor
  · rintro ⟨h1, h2⟩
    refine List.ext_getElem (by rw [h1, bitsS_length]) fun k hk hk' => ?_
    rw [h1] at hk
    have := h2 ⟨k / 64, by omega⟩ ⟨k % 64, by omega⟩
    dsimp only at this
    rw [Nat.div_add_mod, List.getElem?_eq_getElem (by omega), Option.some.injEq] at this
    rw [this, bitsS_getElem]
    congr 2
    apply Fin.ext
    simp only [Fin.ofNat]
    omega
  · rintro rfl
    refine ⟨bitsS_length s, fun i z => ?_⟩
    rw [List.getElem?_eq_getElem (by rw [bitsS_length]; omega), bitsS_getElem]
    congr 2
    · congr 1
      apply Fin.ext
      simp only [Fin.ofNat]
      omega
    · omega

/-- **C13.** The unrolled permutation is KECCAK-f[1600], on every state. -/
theorem C13_permutation (s : State) (S : Spec.Bits) (h : StateString s S) : StateString (permute s) (Spec.keccakF S) := by
  rw [stateString_iff] at h ⊢
  rw [h, keccakF_bitsS]

/-- Every state has a string, so the premise is met. -/
example (s : State) : ∃ S, StateString s S := ⟨bitsS s, (stateString_iff s _).2 rfl⟩

/-- **C13.** For every message and every length, `shake256` stays within its buffers and writes SHAKE256 of the message. -/
theorem C13_shake256 (input : Bytes) (n : ℕ) :
    ∃ out, shake256 n input = some out ∧ out.length = n ∧
      Spec.bitsOf out = Spec.shake256 (Spec.bitsOf input) (8 * n) := shake256_refines input n

/-- **C13**, as a characterisation: these bytes and no others. -/
theorem C13_shake256_iff (input : Bytes) (n : ℕ) (out : Bytes) :
    shake256 n input = some out ↔ Spec.bitsOf out = Spec.shake256 (Spec.bitsOf input) (8 * n) := by
  obtain ⟨o, h1, -, h2⟩ := shake256_refines input n
  rw [h1, ← h2]
  constructor
  · intro h
    cases h
    rfl
  · intro h
    rw [bitsOf_injective h]

/-- A known answer, to show that the two sides are not both degenerate: the first 32 bytes for the empty message. -/
example : shake256 32 [] = some [70, 185, 221, 43, 11, 168, 141, 19, 35, 59, 63, 235, 116, 62, 235, 36, 63, 205, 82, 234, 98,
    184, 27, 130, 181, 12, 39, 100, 110, 213, 118, 47] := by
  unfold shake256 absorb
  decide +kernel

/-! ## C14 -/

/-- **C14.** Shorter outputs are prefixes of longer ones. -/
theorem C14_prefix (input : Bytes) {n m : ℕ} (h : n ≤ m) {a b : Bytes} (ha : shake256 n input = some a)
    (hb : shake256 m input = some b) : a <+: b := by
  obtain ⟨s, hs, -⟩ := absorb_bits (fun _ => 0) input
  rw [shake256_blocks hs] at ha hb
  cases ha
  cases hb
  have hd : n / 136 ≤ m / 136 := Nat.div_le_div_right h
  obtain ⟨d, hd⟩ := Nat.exists_eq_add_of_le hd
  rw [hd, show n / 136 + d + 1 = (n / 136 + 1) + d by omega, List.range_add (n := n / 136 + 1) (m := d), List.flatMap_append]
  have hl : n ≤ ((List.range (n / 136 + 1)).flatMap fun i => blockOf (permute^[i + 1] s)).length := by
    rw [flatMap_length (c := 136) fun i _ => blockOf_length _, List.length_range]
    omega
  generalize (List.range (n / 136 + 1)).flatMap (fun i => blockOf (permute^[i + 1] s)) = L at hl
  generalize List.flatMap _ _ = X
  have e : L.take n = ((L ++ X).take m).take n := by
    rw [List.take_take, Nat.min_eq_left h, List.take_append_of_le_length hl]
  rw [e]
  exact List.take_prefix _ _

/-- 3 and 200 bytes of the output for the empty message -/
example : ∃ a b, shake256 3 [] = some a ∧ shake256 200 [] = some b ∧ a.length = 3 ∧ b.length = 200 := by
  obtain ⟨a, h1, h2, -⟩ := C13_shake256 [] 3
  obtain ⟨b, h3, h4, -⟩ := C13_shake256 [] 200
  exact ⟨a, b, h1, h3, h2, h4⟩

/-- **C14.** Squeezing `a` blocks and then `b` blocks is squeezing `a + b` blocks: state and bytes. -/
theorem C14_split (a b : ℕ) (s : State) :
    squeezeBlocks (a + b) s =
      ((squeezeBlocks b (squeezeBlocks a s).1).1, (squeezeBlocks a s).2 ++ (squeezeBlocks b (squeezeBlocks a s).1).2) := by
  induction a generalizing s with
  | zero => simp [squeezeBlocks]
  | succ a ih =>
    rw [Nat.succ_add, squeezeBlocks, squeezeBlocks, squeezeBlock_eq]
    dsimp only
    rw [ih]
    simp only [List.append_assoc]

/-- **C14.** Squeezing block by block gives the stream that `shake256` gives in one go: the first `k` blocks are the output of
length `136 k`. -/
theorem C14_blocks (input : Bytes) (k : ℕ) : ∃ bs : List Bytes, bs.length = k ∧
    (∀ i : ℕ, i < k → ∃ b, bs[i]? = some b ∧ xofBlock input i = some b ∧ b.length = 136) ∧
    shake256 (136 * k) input = some bs.flatten := by
  obtain ⟨s, hs, -⟩ := absorb_bits (fun _ => 0) input
  refine ⟨(List.range k).map fun i => blockOf (permute^[i + 1] s), by rw [List.length_map, List.length_range], ?_, ?_⟩
  · intro i hi
    refine ⟨blockOf (permute^[i + 1] s), ?_, xofBlock_eq hs i, blockOf_length _⟩
    rw [List.getElem?_map, List.getElem?_range hi]
    rfl
  · rw [shake256_blocks hs, Nat.mul_div_cancel_left _ (by norm_num), List.range_succ, List.flatMap_append,
      List.take_append_of_le_length (by rw [flatMap_length (c := 136) fun i _ => blockOf_length _, List.length_range]),
      List.take_of_length_le (by rw [flatMap_length (c := 136) fun i _ => blockOf_length _, List.length_range])]
    rw [List.flatMap_def]

/-! ## The protocol with this hash function -/

/-- The two ways in which `poik.c` uses `fips202.c`. -/
def shakeHash : Hash where
  out n x := (shake256 n x).getD []
  block x k := (xofBlock x k).getD []

theorem shakeHash_out (n : ℕ) (x : Bytes) : shake256 n x = some (shakeHash.out n x) := by
  obtain ⟨o, h1, -⟩ := shake256_refines x n
  simp only [shakeHash, h1, Option.getD_some]

/-- **C13** for the commitments: `shakeHash.out` is SHAKE256. -/
theorem C13_hash (n : ℕ) (x : Bytes) : (shakeHash.out n x).length = n ∧
    Spec.bitsOf (shakeHash.out n x) = Spec.shake256 (Spec.bitsOf x) (8 * n) := by
  obtain ⟨o, h1, h2, h3⟩ := shake256_refines x n
  rw [shakeHash_out, Option.some.injEq] at h1
  rw [h1]
  exact ⟨h2, h3⟩

/-- **C14** for the challenge: the blocks are the stream of `shake256`. -/
theorem C14_hash (x : Bytes) (k : ℕ) :
    Challenge.Spec.firstBlocks (shakeHash.block x) k = shakeHash.out (136 * k) x := by
  obtain ⟨s, hs, -⟩ := absorb_bits (fun _ => 0) x
  have h1 := shake256_blocks hs (136 * k)
  rw [Nat.mul_div_cancel_left _ (by norm_num), List.range_succ, List.flatMap_append,
      List.take_append_of_le_length (by rw [flatMap_length (c := 136) fun i _ => blockOf_length _, List.length_range]),
      List.take_of_length_le (by rw [flatMap_length (c := 136) fun i _ => blockOf_length _, List.length_range]),
      shakeHash_out, Option.some.injEq] at h1
  rw [h1]
  unfold Challenge.Spec.firstBlocks
  congr 1
  funext i
  simp only [shakeHash, xofBlock_eq hs i, Option.getD_some]

/-- **C14.** The challenge that `Challenge` derives from SHAKE256 consists of the first trits of every long enough SHAKE256
output, of whatever length and however it is squeezed. -/
theorem C14_challenge (reps fuel : ℕ) (x : Bytes) (challs t : List Int) (k : ℕ) (hc : challs.length = reps)
    (h : Challenge.challenge reps (shakeHash.block x) fuel challs = .finished t k) (n : ℕ) (hn : 136 * k ≤ n)
    (out : Bytes) (ho : Spec.bitsOf out = Spec.shake256 (Spec.bitsOf x) (8 * n)) :
    t = (Challenge.Spec.tritStream out).take reps := by
  have ho := (C13_shake256_iff x n out).2 ho
  obtain ⟨X, hX⟩ := C14_prefix x hn (shakeHash_out _ x) ho
  have hs := Challenge.challenge_spec reps (shakeHash.block x) fuel challs hc
  rw [h] at hs
  obtain ⟨-, h1, h2, -⟩ := hs
  rw [Challenge.seg_zero, C14_hash] at h1 h2
  rw [h1, ← hX, Challenge.tritStream_append, List.take_append_of_le_length h2]

/-- The first block for the empty message already carries the 219 trits of the two smaller parameter sets. -/
example : ∃ t k, Challenge.challenge 219 (shakeHash.block []) 1 (List.replicate 219 99) = .finished t k := by
  have e : absorb (fun _ => 0) [] 0x1F = some (xorBlock (lastBlock [] 0x1F) (fun _ => 0)) := by
    unfold absorb
    rw [if_neg (by decide), xorLoop_block (by decide)]
  have h := Challenge.challenge_spec 219 (shakeHash.block []) 1 (List.replicate 219 99) List.length_replicate
  have hseg : 219 ≤ (Challenge.seg (shakeHash.block []) 0 1).length := by
    have hb : shakeHash.block [] 0 = blockOf (permute (xorBlock (lastBlock [] 0x1F) (fun _ => 0))) := by
      simp only [shakeHash, xofBlock_eq e, Option.getD_some]
      rfl
    rw [Challenge.seg_zero, Challenge.Spec.firstBlocks, show List.range 1 = [0] from rfl, List.flatMap_singleton, hb]
    decide +kernel
  generalize Challenge.challenge 219 (shakeHash.block []) 1 (List.replicate 219 99) = r at h
  match r with
  | .finished t k => exact ⟨t, k, rfl⟩
  | .oob => exact h.elim
  | .running =>
    dsimp only at h
    omega

/-- **C24** with the hash function of the code: what `Dump` writes for an honest proof is parsed back, and the parsed proof is
accepted, unless the path led through a curve with additional automorphisms. No assumption about hashing is left. -/
theorem C24_shake (l : Field.Level) {mem mem' : Mem l}
    (hm : mem'.challs.length = (params l).reps) {fuel : ℕ} {x : PFp2} {t t₁ u u' : Curve.Tape l.F} {sec : Secret} {prf : Proof}
    (hg : generate l mem x t = .ok (some sec, t₁)) (hp : prove l shakeHash mem' fuel sec u = .ok (prf, u')) (f : Sink)
    (hf : ∀ n, f.fault n = none) (he : f.out = []) :
    ∃ f' prf' rest, dump f prf = (true, f') ∧ parse (params l) f'.out = .ok prf' rest ∧
      ((∃ vs u₁, instances l shakeHash sec (params l).reps u = .ok (vs, u₁) ∧ ∃ v ∈ vs, ProtocolProps.Exceptional l v.1) ∨
        ProtocolProps.AcceptedBy l shakeHash prf') :=
  ProtocolProps.c24_via_file l shakeHash (fun n x => (C13_hash n x).1) hm hg hp f hf he

end Secuer.KeccakProps
