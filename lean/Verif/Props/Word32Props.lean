import Verif.Word32.Out610
import Verif.Word32.Out751
import Verif.Word32.Ladder3
import Verif.Props.BuildProps
import Verif.Props.WSidhProps

/-!
# The portable build with 32-bit digits (C92 - C94)

`RADIX` is 32 on x86 and ARM (`PQCrypto-SIDH/src/config.h`).  `split a` is the array of `uint32_t` at the place of the array `a` of
`uint64_t`.  C92: the functions of the field arithmetic leave the same memory as those of the build with 64-bit digits.  C93: for
p434 and p503 the protocol does what it does over the field; the key exchange does for all levels.  C94: `fprand` does not reduce
below `2 p` for p610 and p751, and what becomes of it.
-/

set_option maxRecDepth 100000

namespace Secuer.Word32Props

open Secuer.Word Secuer.Field Secuer.Text Secuer.WCurve Secuer.WProtocol Secuer.WProtocolProps Secuer.BuildProps
open Secuer.Word32 (split split2 join)
open Secuer.Curve (Pt Crv Out M Tape)
open Secuer.Protocol (Hash Comm Secret params)
open Secuer.ChainProps (RightOrder)
open Secuer.ProtocolProps (Valid Opens IsChallenge challengeBytes Exceptional)
open Secuer.KeccakProps (shakeHash)
open Secuer.Scalar (leNat leBytes)
open Secuer.Sidh (Three skABytes skBBytes)
open Secuer.WSidh (Sized)

/-! ## C92 -/

section C92
variable (l : Level)

/-- **C92.** The same memory: the 32-bit array at the place of a 64-bit one has the same bytes and twice as many digits, and every
array of an even number of 32-bit digits is at the place of one. -/
theorem C92_memory (a : List Digit) :
    Word32.digitBytes (split a) = digitBytes a ∧ (split a).length = 2 * a.length ∧ Word32.val (split a) = val a ∧
      ∀ (n : ℕ) (c : List Word32.Digit), c.length = 2 * n → ∃ c' : List Digit, c'.length = n ∧ split c' = c :=
  ⟨Word32.digitBytes_split a, Word32.split_length a, Word32.val_split a,
    fun n c h => ⟨join c, (Word32.join_val n c h).1, (Word32.join_val n c h).2.2⟩⟩

/-- **C92.** The functions without a multiplication leave, for all arrays of the right lengths, the same memory as with 64-bit
digits. -/
theorem C92_linear (a b : List Digit) (ha : a.length = (tables l).n) (hb : b.length = (tables l).n) :
    Word32.fpaddC (Word32.tables l) (split a) (split b) = split (fpaddC (tables l) a b) ∧
    Word32.fpsubC (Word32.tables l) (split a) (split b) = split (fpsubC (tables l) a b) ∧
    Word32.fpneg (Word32.tables l) (split a) = split (fpneg (tables l) a) ∧
    Word32.fpdiv2 (Word32.tables l) (split a) = split (fpdiv2 (tables l) a) ∧
    Word32.fpcorrection (Word32.tables l) (split a) = split (fpcorrection (tables l) a) ∧
    Word32.subP2C (Word32.tables l) (split a) (split b) = split (subP2C (tables l) a b) ∧
    Word32.subP4 (Word32.tables l) (split a) (split b) = split (subP4 (tables l) a b) ∧
    Word32.mpAddfastC (split a) (split b) = split (mpAddfastC a b) ∧
    Word32.mpSub (split a) (split b) = ((mpSub a b).1, split (mpSub a b).2) ∧
    Word32.shiftr1 (split a) = split (shiftr1 a) :=
  ⟨Word32.fpaddC_split ha hb, Word32.fpsubC_split ha hb, Word32.fpneg_split ha, Word32.fpdiv2_split ha,
    Word32.fpcorrection_split ha, Word32.subP2C_split ha hb, Word32.subP4_split ha hb, Word32.mpAddfastC_split ha hb,
    Word32.mpSub_split ha hb, Word32.shiftr1_split a⟩

/-- **C92.** `mp_mul` for all arrays; `rdc_mont`, `fpmul_mont` below `R p`; squaring and multiplication in `GF(p²)` for components
below `4 p` resp. `B p` and `C p` with `B, C ≤ 64`, `2 B C ≤ 256` (in the code `8 p` at most) -/
theorem C92_mult :
    (∀ a b : List Digit, a.length = (tables l).n → b.length = (tables l).n →
      Word32.mpMul (Word32.tables l).n (split a) (split b) = (mpMul (tables l).n a b).map split) ∧
    (∀ m : List Digit, m.length = 2 * (tables l).n → val m < 2 ^ (64 * (tables l).n) * l.p →
      Word32.rdcMont (Word32.tables l) (split m) = (rdcMont (tables l) m).map split) ∧
    (∀ a b : List Digit, a.length = (tables l).n → b.length = (tables l).n → val a * val b < 2 ^ (64 * (tables l).n) * l.p →
      Word32.fpmulC (Word32.tables l) (split a) (split b) = split (fpmulC (tables l) a b)) ∧
    (∀ a : F2, Rng2 (tables l) (4 * l.p) a →
      Word32.fp2sqrC (Word32.tables l) (split2 a) = split2 (fp2sqrC (tables l) a)) ∧
    (∀ (a b : F2) (B C : ℕ), Rng2 (tables l) (B * l.p) a → Rng2 (tables l) (C * l.p) b → B ≤ 64 → C ≤ 64 → 2 * B * C ≤ 256 →
      Word32.fp2mulC (Word32.tables l) (split2 a) (split2 b) = split2 (fp2mulC (tables l) a b)) := by
  refine ⟨fun a b ha hb => ?_, fun m => Word32.rdcMont_split, fun a b => Word32.fpmulC_split, fun a => Word32.fp2sqrC_split,
    fun a b B C => Word32.fp2mulC_split⟩
  rw [Word32.tables_n]
  exact Word32.mpMul_split (good l).n_pos (good l).n_lt ha hb

/-- **C92.** Bytes: `encode_to_bytes` writes the same bytes; `decode_to_digits` of half an encoded field element leaves the same
memory, whatever was there; `fp_lt` returns the same; the conditional swap of `Ladder` swaps the same memory, and it reads the same
bits of a scalar. -/
theorem C92_bytes (a b dec : List Digit) (ha : a.length = (tables l).n) (hb : b.length = (tables l).n)
    (hd : dec.length = (tables l).n) (k : ℕ) (x : List UInt8) (hx : half (tables l) ≤ x.length) (c : UInt) (hc : c = 0 ∨ c = 1) :
    Word32.encodeToBytes (split a) k = encodeToBytes a k ∧
    Word32.decodeToDigits (split dec) x (half (tables l)) (Word32.tables l).n =
      split (decodeToDigits dec x (half (tables l)) (tables l).n) ∧
    Word32.fpLt (split a) (split b) = fpLt a b ∧
    Word32.swapWords (Word32.ladderMask c) (split a) (split b) =
      (split (swapWords (- c.setWidth 64) a b).1, split (swapWords (- c.setWidth 64) a b).2) ∧
    ∀ i, Word32.scalarBit (split a) i = (a[i / 64]?).map fun w : Digit => ((w >>> (i % 64)) &&& 1).setWidth 32 := by
  have hc' : Bit c := by rcases hc with rfl | rfl <;> unfold Bit <;> decide
  refine ⟨Word32.encodeToBytes_split a k, ?_, Word32.fpLt_split ha hb, Word32.swapWords_split hc' a b, fun i => ?_⟩
  · rw [Word32.tables_n]
    exact Word32.decodeToDigits_split (good l).n_pos hd hx (by cases l <;> decide) (by cases l <;> decide)
  · rw [Word32.scalarBit_split, Word32.scalarBit64]
    cases a[i / 64]? <;> rfl

/-- **C92.** `Ladder` on a scalar as `Pack_Chain_A` makes it: the same point, although with 32-bit digits and p434 a byte of the
array for the scalar is never written.  The result does not depend on it. -/
theorem C92_ladder (old : List Word32.Digit) (old' : List Digit) (ho : old.length = Word32.nwordsOrder l)
    (ho' : old'.length = nwordsOrder l) (P : Pt F2) (A : F2) (m : ℕ) :
    letI := Word32.arith l
    Word32.ladder l P (Word32.scalarOf l old m) A l.iso.e2 = ladder l P (scalarOf l old' m) A l.iso.e2 :=
  letI := Word32.arith l
  Word32.ladder_eq ho ho' P A m

/-- **C92.** Reading a private key and `LADDER3PT` with it, for both parties of the key exchange: the same point, and an access
outside the key in the same cases -/
theorem C92_ladder3pt (k : List UInt8) (xP xQ xPQ A : F2) :
    letI := Word32.arith l
    (((Word32.readKey l (skABytes l) k).bind fun m => Word32.ladder3pt l xP xQ xPQ m l.iso.e2 A) =
      (WSidh.readKey l (skABytes l) k).bind fun m => WSidh.ladder3pt l xP xQ xPQ m l.iso.e2 A) ∧
    ((Word32.readKey l (skBBytes l) k).bind fun m => Word32.ladder3pt l xP xQ xPQ m (Sidh.obobBits l - 1) A) =
      (WSidh.readKey l (skBBytes l) k).bind fun m => WSidh.ladder3pt l xP xQ xPQ m (Sidh.obobBits l - 1) A :=
  letI := Word32.arith l
  ⟨Word32.ladder3pt_eq (by cases l <;> decide) (by cases l <;> decide) k xP xQ xPQ A,
    Word32.ladder3pt_eq (by cases l <;> decide) (by cases l <;> decide) k xP xQ xPQ A⟩

/-- The byte that is not written: the array of 8 digits has 32 bytes; `decode_to_digits` clears the last digit, bytes 28 to 31, and
writes bytes 0 to 26. -/
example : Word32.nwordsOrder .l434 = 8 ∧ Scalar.keyBytes Level.l434.iso.e2 = 27 := by decide

/-- Numbers in range, and not small: `4 p - 1` for each component -/
example : Rng2 (tables .l610) (4 * Level.l610.p) ⟨digitsOf 10 (leBytes 80 (4 * Level.l610.p - 1)), digitsOf 10 (leBytes 80 (4 * Level.l610.p - 1))⟩ := by
  constructor <;> constructor <;> decide +kernel

end C92

/-! ## C93 -/

/-- `Verify` in the portable build with 32-bit digits -/
def verify32 (l : Level) (H : Hash) (mem : WProtocol.Mem) (fuel : ℕ) (prf : CProof) : M Draw Bool :=
  letI := Word32.arith l
  verify l H mem fuel prf

/-- `Prove` in the portable build with 32-bit digits -/
def prove32 (l : Level) (H : Hash) (mem : WProtocol.Mem) (fuel : ℕ) (sec : Secret) : M Draw Proof :=
  letI := Word32.arith l
  prove l H mem fuel sec

/-- `Generate` in the portable build with 32-bit digits -/
def generate32 (l : Level) (mem : WProtocol.Mem) (x : PFp2) : M Draw (Option Secret) :=
  letI := Word32.arith l
  generate l mem x

/-- Bits that `fprand` keeps of the random bytes: the number of digits less one, and in the last the mask
`(digit_t)(-1) >> (NBITS_FIELD % RADIX)` -/
def keptBits : Level → ℕ
  | .l434 => 13 * 32 + (32 - 434 % 32)
  | .l503 => 15 * 32 + (32 - 503 % 32)
  | .l610 => 19 * 32 + (32 - 610 % 32)
  | .l751 => 23 * 32 + (32 - 751 % 32)

/-- The element of `GF(p)` that random bytes stand for in this build -/
def drawn32 (l : Level) (b : List UInt8) : ZMod l.p := ((leNat b % 2 ^ keptBits l : ℕ) : ZMod l.p) / 2 ^ (64 * (tables l).n)

/-- The random tape over the field -/
def tape32 (l : Level) (t : Tape Draw) : Tape l.F := ⟨t.pts.map fun d => ⟨drawn32 l d.1, drawn32 l d.2⟩, t.hide, t.scal⟩

/-- An outcome with the rest of the random tape over the field -/
def onField32 (l : Level) {α : Type} : Out (α × Tape Draw) → Out (α × Tape l.F)
  | .ok (a, t) => .ok (a, tape32 l t)
  | .abort => .abort
  | .ub => .ub
  | .starved => .starved

/-- **C94 (range).** What `fprand` returns, for all random bytes -/
theorem C94_fprand (l : Level) (b : List UInt8) (hb : b.length = 8 * (tables l).n) :
    (Word32.fprand (Word32.tables l) b).length = 2 * (tables l).n ∧
      Word32.val (Word32.fprand (Word32.tables l) b) = leNat b % 2 ^ keptBits l := by
  obtain ⟨h1, h2⟩ := Word32.fprand_val (l := l) hb
  refine ⟨h1.trans Word32.tables_n, h2.trans ?_⟩
  cases l <;> rfl

theorem fieldTape_eq (l : Level) (t : Tape Draw) (ht : TapeLen l t) :
    @fieldTape (Word32.arith l) l t = tape32 l t := by
  letI := Word32.arith l
  unfold fieldTape tape32
  congr 1
  refine List.map_congr_left fun d hd => ?_
  obtain ⟨h1, h2⟩ := ht d hd
  have key : ∀ b : List UInt8, b.length = 8 * (tables l).n →
      fpVal (tables l) l.p (join (Word32.fprand (Word32.tables l) b)) = drawn32 l b := by
    intro b hb
    obtain ⟨k1, k2⟩ := C94_fprand l b hb
    rw [fpVal, (Word32.join_val (tables l).n _ k1).2.1, k2, drawn32, div_eq_mul_inv]
  show (⟨fpVal (tables l) l.p (join (Word32.fprand (Word32.tables l) d.1)),
    fpVal (tables l) l.p (join (Word32.fprand (Word32.tables l) d.2))⟩ : l.F) = _
  rw [key _ h1, key _ h2]

theorem onField32_ub {l : Level} {α : Type} {o : Out (α × Tape Draw)} (h : onField32 l o ≠ .ub) : o ≠ .ub := by
  rintro rfl
  exact h rfl

theorem onField32_of {l : Level} {α : Type} {m : M Draw α} {m' : M l.F α} (h : @Ref (Word32.arith l) α α l (· = ·) m m')
    {t : Tape Draw} (ht : TapeLen l t) :
    m' (tape32 l t) = onField32 l (m t) ∧ ∀ a t', m t = .ok (a, t') → TapeLen l t' := by
  obtain ⟨h1, h2⟩ := @onField_of l (Word32.arith l) α m m' h t ht
  rw [fieldTape_eq l t ht] at h1
  refine ⟨h1.trans ?_, h2⟩
  cases hm : m t with
  | ok r =>
    obtain ⟨a, t'⟩ := r
    show Out.ok (a, @fieldTape (Word32.arith l) l t') = Out.ok (a, tape32 l t')
    rw [fieldTape_eq l t' (h2 a t' hm)]
  | _ => rfl

section C93
variable (l : Level) (hl : l = .l434 ∨ l = .l503)
include hl

/-- **C93.** `Verify` with 32-bit digits and p434 or p503 ends as the verifier over the field does on the elements that the random
bytes stand for in this build. -/
theorem C93_verify (H : Hash) (mem : WProtocol.Mem) (hm : mem.WF l) (pts : ℕ → Pt l.F × Pt l.F) (fuel : ℕ) (prf : CProof)
    (hw : prf.WF (params l)) (t : Tape Draw) (ht : TapeLen l t) :
    Protocol.verify l H (fieldMem l mem pts) fuel prf (tape32 l t) = onField32 l (verify32 l H mem fuel prf t) ∧
      ∀ b t', verify32 l H mem fuel prf t = .ok (b, t') → TapeLen l t' :=
  letI := Word32.arith l
  haveI := Word32.arith_ok l
  haveI := Word32.rand_ok hl
  onField32_of (verify_ref hm rfl fuel hw) ht

/-- **C93.** `Prove` -/
theorem C93_prove (H : Hash) (mem : WProtocol.Mem) (hm : mem.WF l) (pts : ℕ → Pt l.F × Pt l.F) (fuel : ℕ) (sec : Secret)
    (hs : SecWF l sec) (t : Tape Draw) (ht : TapeLen l t) :
    Protocol.prove l H (fieldMem l mem pts) fuel sec (tape32 l t) = onField32 l (prove32 l H mem fuel sec t) ∧
      ∀ b t', prove32 l H mem fuel sec t = .ok (b, t') → TapeLen l t' :=
  letI := Word32.arith l
  haveI := Word32.arith_ok l
  haveI := Word32.rand_ok hl
  onField32_of (prove_ref hm rfl fuel hs) ht

/-- **C93.** `Generate` -/
theorem C93_generate (mem : WProtocol.Mem) (hm : mem.WF l) (pts : ℕ → Pt l.F × Pt l.F) (x : PFp2)
    (hx : x.WF (params l)) (t : Tape Draw) (ht : TapeLen l t) :
    Protocol.generate l (fieldMem l mem pts) x (tape32 l t) = onField32 l (generate32 l mem x t) ∧
      ∀ b t', generate32 l mem x t = .ok (b, t') → TapeLen l t' :=
  letI := Word32.arith l
  haveI := Word32.arith_ok l
  haveI := Word32.rand_ok hl
  onField32_of (generate_ref hm hx) ht

/-- **C93.** With SHAKE256 as implemented: `Verify` has no undefined behaviour on any proof in memory, if it returns then it returns
true exactly if the proof is valid, and an accepted proof contains isogenies with cyclic kernels that open the commitments. -/
theorem C93_verdict (mem : WProtocol.Mem) (hm : mem.WF l) (hc : mem.challs.length = (params l).reps) (fuel : ℕ)
    (prf : CProof) (hw : prf.WF (params l)) (t : Tape Draw) (ht : TapeLen l t) :
    verify32 l shakeHash mem fuel prf t ≠ .ub ∧
    (∀ b t', verify32 l shakeHash mem fuel prf t = .ok (b, t') → (b = true ↔ Valid l shakeHash prf)) ∧
    (∀ t', verify32 l shakeHash mem fuel prf t = .ok (true, t') →
      RightOrder l (Protocol.decode l prf.E0) ∧ RightOrder l (Protocol.decode l prf.E1) ∧ ∃ os : List (Int × Comm),
        os.length = (params l).reps ∧
        List.Forall₂ (fun r o => Opens l shakeHash (Protocol.decode l prf.E0) (Protocol.decode l prf.E1) r o) prf.resp os ∧
        IsChallenge l shakeHash (challengeBytes l (Protocol.decode l prf.E0) (Protocol.decode l prf.E1)
          (os.map fun o => (o.2.h2, o.2.h3))) (os.map Prod.fst)) := by
  have h1 := (C93_verify l hl shakeHash mem hm (fun _ => (⟨0, 0⟩, ⟨0, 0⟩)) fuel prf hw t ht).1
  refine ⟨onField32_ub (h1 ▸ ProtocolProps.c15_no_ub l shakeHash _ hc fuel hw _), fun b t' h => ?_, fun t' h => ?_⟩
  · rw [h] at h1
    exact ProtocolProps.c15_verdict l shakeHash _ hc fuel prf _ _ b h1
  · rw [h] at h1
    exact ProtocolProps.c15_sound l shakeHash _ hc fuel hw _ _ h1

/-- **C93.** Whenever `Verify` returns with 32-bit digits and with 64-bit digits (portable or x86-64 assembly), on the same proof with
any random bytes and memory contents, it returns the same verdict. -/
theorem C93_agree (bd : Build) (mem mem' : WProtocol.Mem) (hm : mem.WF l) (hm' : mem'.WF l)
    (hc : mem.challs.length = (params l).reps) (hc' : mem'.challs.length = (params l).reps) (fuel fuel' : ℕ)
    (prf : CProof) (hw : prf.WF (params l)) (t t' u u' : Tape Draw) (ht : TapeLen l t) (hu : TapeLen l u) (b b' : Bool)
    (h : verify32 l shakeHash mem fuel prf t = .ok (b, t')) (h' : verifyB bd l shakeHash mem' fuel' prf u = .ok (b', u')) :
    b = b' := by
  have h1 := (C93_verdict l hl mem hm hc fuel prf hw t ht).2.1 b t' h
  have h2 := C71_verdict bd l mem' hm' hc' fuel' prf hw u u' hu b' h'
  exact Bool.eq_iff_iff.2 (h1.trans h2.symm)

theorem secWF_generate32 {mem : WProtocol.Mem} (hm : mem.WF l) {x : PFp2} (hx : x.WF (params l)) {t t₁ : Tape Draw}
    (ht : TapeLen l t) {sec : Secret} (h : generate32 l mem x t = .ok (some sec, t₁)) : SecWF l sec := by
  have h1 := (C93_generate l hl mem hm (fun _ => (⟨0, 0⟩, ⟨0, 0⟩)) x hx t ht).1
  rw [h] at h1
  unfold Protocol.generate at h1
  obtain ⟨b, t2, -, h1⟩ := Secuer.Curve.bind_ok h1
  cases b with
  | false => cases h1
  | true =>
    simp only [Bool.true_eq_false, if_false] at h1
    obtain ⟨c, t3, -, h1⟩ := Secuer.Curve.bind_ok h1
    cases h1
    constructor
    · intro a ha
      obtain ⟨E, -, rfl⟩ := List.mem_map.1 ha
      exact ProtocolProps.encode_wf l _
    · intro a ha
      obtain ⟨E, -, rfl⟩ := List.mem_map.1 ha
      exact ProtocolProps.encode_wf l _

/-- **C93.** `Generate` has no undefined behaviour, and neither has `Prove` on what it returns. -/
theorem C93_prover_no_ub (mem mem' : WProtocol.Mem) (hm : mem.WF l) (hm' : mem'.WF l)
    (hc : mem'.challs.length = (params l).reps) (fuel : ℕ) (x : PFp2) (hx : x.WF (params l)) (t : Tape Draw) (ht : TapeLen l t) :
    generate32 l mem x t ≠ .ub ∧ ∀ sec t₁, generate32 l mem x t = .ok (some sec, t₁) →
      ∀ u, TapeLen l u → prove32 l shakeHash mem' fuel sec u ≠ .ub := by
  have h1 := (C93_generate l hl mem hm (fun _ => (⟨0, 0⟩, ⟨0, 0⟩)) x hx t ht).1
  have h2 := ProtocolProps.c24_no_ub l shakeHash (fieldMem l mem fun _ => (⟨0, 0⟩, ⟨0, 0⟩))
    (fieldMem l mem' fun _ => (⟨0, 0⟩, ⟨0, 0⟩)) hc fuel x (tape32 l t)
  refine ⟨onField32_ub (h1 ▸ h2.1), fun sec t₁ h u hu => ?_⟩
  have h3 := (C93_prove l hl shakeHash mem' hm' (fun _ => (⟨0, 0⟩, ⟨0, 0⟩)) fuel sec (secWF_generate32 l hl hm hx ht h) u hu).1
  rw [h] at h1
  exact onField32_ub (h3 ▸ h2.2 sec _ h1 _)

/-- **C93.** A proof that `Prove` with 32-bit digits computes from a secret of `Generate` with 32-bit digits, written with `Dump` and
read back with `Parse`, is accepted with 32-bit digits, and by the portable and the x86-64 build with 64-bit digits, whenever
`Verify` returns - unless the path led through a curve with additional automorphisms. -/
theorem C93_complete (mem mem' : WProtocol.Mem) (hm : mem.WF l) (hm' : mem'.WF l)
    (hc : mem'.challs.length = (params l).reps) (fuel : ℕ) (x : PFp2) (hx : x.WF (params l)) (t t₁ u u' : Tape Draw)
    (ht : TapeLen l t) (hu : TapeLen l u) (sec : Secret) (prf : Proof) (hg : generate32 l mem x t = .ok (some sec, t₁))
    (hp : prove32 l shakeHash mem' fuel sec u = .ok (prf, u')) (f : Sink) (hf : ∀ n, f.fault n = none) (he : f.out = []) :
    ∃ f' prf' rest, dump f prf = (true, f') ∧ parse (params l) f'.out = .ok prf' rest ∧
      ((∃ vs u₁, Protocol.instances l shakeHash sec (params l).reps (tape32 l u) = .ok (vs, u₁) ∧ ∃ v ∈ vs, Exceptional l v.1) ∨
        ∀ (mem₂ : WProtocol.Mem) (fuel₂ : ℕ) (prf₂ : CProof), mem₂.WF l →
          mem₂.challs.length = (params l).reps →
          prf₂.WF (params l) → prf₂.E0 = prf'.E0 → prf₂.E1 = prf'.E1 → prf₂.resp.map CResp.active = prf'.resp.map some →
          ∀ s, TapeLen l s →
            (∀ b s', verify32 l shakeHash mem₂ fuel₂ prf₂ s = .ok (b, s') → b = true) ∧
            ∀ bv b s', verifyB bv l shakeHash mem₂ fuel₂ prf₂ s = .ok (b, s') → b = true) := by
  have h1 := (C93_generate l hl mem hm (fun _ => (⟨0, 0⟩, ⟨0, 0⟩)) x hx t ht).1
  have h2 := (C93_prove l hl shakeHash mem' hm' (fun _ => (⟨0, 0⟩, ⟨0, 0⟩)) fuel sec (secWF_generate32 l hl hm hx ht hg) u hu).1
  rw [hg] at h1
  rw [hp] at h2
  obtain ⟨f', prf', rest, e1, e2, e3⟩ := KeccakProps.C24_shake l (mem' := fieldMem l mem' fun _ => (⟨0, 0⟩, ⟨0, 0⟩)) hc h1 h2 f hf he
  refine ⟨f', prf', rest, e1, e2, e3.imp id ?_⟩
  intro hA mem₂ fuel₂ prf₂ hm₂ hc₂ hw₂ hE0 hE1 hr s hs
  refine ⟨fun b s' h => ?_, fun bv b s' h => ?_⟩
  · obtain ⟨q1, q2⟩ := hA (fieldMem l mem₂ fun _ => (⟨0, 0⟩, ⟨0, 0⟩)) fuel₂ prf₂ hc₂ hE0 hE1 hr (tape32 l s)
    have h3 := (C93_verify l hl shakeHash mem₂ hm₂ (fun _ => (⟨0, 0⟩, ⟨0, 0⟩)) fuel₂ prf₂ hw₂ s hs).1
    rw [h] at h3
    exact q2 b _ h3
  · obtain ⟨q1, q2⟩ := hA (fieldMem l mem₂ fun _ => (⟨0, 0⟩, ⟨0, 0⟩)) fuel₂ prf₂ hc₂ hE0 hE1 hr (fieldTape l s)
    have h3 := (C71_verify bv l shakeHash mem₂ hm₂ (fun _ => (⟨0, 0⟩, ⟨0, 0⟩)) fuel₂ prf₂ hw₂ s hs).1
    rw [h] at h3
    exact q2 b _ h3

omit hl in
/-- **C93.** The key exchange (`sidh.c`) with 32-bit digits, all levels: on buffers that are large enough the functions return what
they do over the field, whatever uninitialised arrays hold, hence the same bytes as in the builds with 64-bit digits. -/
theorem C93_sidh (bd : Build) (old old' : Three F2) (ho : Sized l old) (ho' : Sized l old') (kA kB pk : Bytes)
    (hA : skABytes l ≤ kA.length) (hB : skBBytes l ≤ kB.length) (hpk : 6 * (params l).fpBytes ≤ pk.length) (sike : ℕ) :
    letI := Word32.arith l
    (WSidh.ephGenA l kA = Sidh.ephGenA l kA ∧ WSidh.ephGenB l kB = Sidh.ephGenB l kB ∧
      WSidh.ephAgreeA l old kA pk = Sidh.ephAgreeA l kA pk ∧
      WSidh.ephAgreeBExt l sike old kB pk = Sidh.ephAgreeBExt l sike kB pk) ∧
    (WSidh.ephGenA l kA = WSidhProps.genA bd l kA ∧ WSidh.ephGenB l kB = WSidhProps.genB bd l kB ∧
      WSidh.ephAgreeA l old kA pk = WSidhProps.agreeA bd l old' kA pk ∧
      WSidh.ephAgreeBExt l sike old kB pk = WSidhProps.agreeBExt bd l sike old' kB pk) := by
  letI := Word32.arith l
  haveI := Word32.arith_ok l
  obtain ⟨w1, w2, w3, w4, -⟩ := WSidhProps.C81_words bd l old' ho' kA kB pk hA hB hpk sike
  have v1 := WSidh.ephGenA_ref hA
  have v2 := WSidh.ephGenB_ref hB
  have v3 := WSidh.ephAgreeA_ref ho hA hpk
  have v4 := WSidh.ephAgreeBExt_ref sike ho hB hpk
  exact ⟨⟨v1, v2, v3, v4⟩, v1.trans w1.symm, v2.trans w2.symm, v3.trans w3.symm, v4.trans w4.symm⟩

omit hl in
/-- The hypotheses on memory, proof and random bytes can be met together. -/
example : (someMem .l503).WF .l503 ∧ (someMem .l503).challs.length = (params .l503).reps ∧
    (flatProof .l503 77 (-1)).WF (params .l503) ∧ (Level.l503 = .l434 ∨ Level.l503 = .l503) ∧
    TapeLen .l503 ⟨[(List.replicate 64 255, List.replicate 64 1)], [], [5]⟩ := by
  refine ⟨someMem_wf _, List.length_replicate, flatProof_wf _ 77 (-1) (by norm_num), Or.inr rfl, ?_⟩
  intro d hd
  rw [List.mem_singleton] at hd
  subst hd
  exact ⟨List.length_replicate, List.length_replicate⟩

end C93

/-! ## C94 -/

/-- The candidate `x` of `random_point` from random bytes -/
def cand32 (l : Level) (d : Draw) : F2 :=
  letI := Word32.arith l
  candidate l d

theorem cand32_val (l : Level) (d : Draw) (h1 : d.1.length = 8 * (tables l).n) (h2 : d.2.length = 8 * (tables l).n) :
    (cand32 l d).c0.length = (tables l).n ∧ (cand32 l d).c1.length = (tables l).n ∧
      val (cand32 l d).c0 = leNat d.1 % 2 ^ keptBits l ∧ val (cand32 l d).c1 = leNat d.2 % 2 ^ keptBits l ∧
      f2Val (tables l) l.p (cand32 l d) = ⟨drawn32 l d.1, drawn32 l d.2⟩ := by
  have key : ∀ b : List UInt8, b.length = 8 * (tables l).n →
      (join (Word32.fprand (Word32.tables l) b)).length = (tables l).n ∧
      val (join (Word32.fprand (Word32.tables l) b)) = leNat b % 2 ^ keptBits l ∧
      fpVal (tables l) l.p (join (Word32.fprand (Word32.tables l) b)) = drawn32 l b := by
    intro b hb
    obtain ⟨k1, k2⟩ := C94_fprand l b hb
    obtain ⟨j1, j2, _⟩ := Word32.join_val (tables l).n _ k1
    exact ⟨j1, j2.trans k2, by rw [fpVal, j2, k2, drawn32, div_eq_mul_inv]⟩
  obtain ⟨a1, a2, a3⟩ := key d.1 h1
  obtain ⟨b1, b2, b3⟩ := key d.2 h2
  exact ⟨a1, b1, a2, b2, QuadraticAlgebra.ext a3 b3⟩

/-- **C94 (range).** `fprand` with 32-bit digits: always below `2 p`, as the arithmetic requires, for p434 and p503.  For p610 the
numbers have 638 bits, and fewer than one in `2^26` is below `2 p`; for p751 they have 753 bits, more than half of them are not. -/
theorem C94_range :
    (∀ b : List UInt8, b.length = 56 → Word32.val (Word32.fprand (Word32.tables .l434) b) < 2 * Level.l434.p) ∧
    (∀ b : List UInt8, b.length = 64 → Word32.val (Word32.fprand (Word32.tables .l503) b) < 2 * Level.l503.p) ∧
    (∀ b : List UInt8, b.length = 80 → Word32.val (Word32.fprand (Word32.tables .l610) b) = leNat b % 2 ^ 638) ∧
    2 ^ 26 * (2 * Level.l610.p) < 2 ^ 638 ∧
    (∀ b : List UInt8, b.length = 96 → Word32.val (Word32.fprand (Word32.tables .l751) b) = leNat b % 2 ^ 753) ∧
    2 * (2 * Level.l751.p) < 2 ^ 753 ∧ 2 ^ 753 < 5 * Level.l751.p := by
  refine ⟨fun b hb => ?_, fun b hb => ?_, fun b hb => (C94_fprand .l610 b hb).2, by decide +kernel,
    fun b hb => (C94_fprand .l751 b hb).2, by decide +kernel, by decide +kernel⟩
  · rw [(C94_fprand .l434 b hb).2]
    exact lt_of_lt_of_le (Nat.mod_lt _ (by positivity)) (by decide +kernel)
  · rw [(C94_fprand .l503 b hb).2]
    exact lt_of_lt_of_le (Nat.mod_lt _ (by positivity)) (by decide +kernel)

/-- **C94 (p610).** The right-hand side of the curve equation in `random_point`, for every draw in which the second number has at
least 631 bits and the first is at most a third of it: it stands for `x³ + A x² + 2 x`, not for `x³ + A x² + x`, and its imaginary
part is far out of the range of the functions it is passed to. -/
theorem C94_rhs610 (A : F2) (hA : Rng2 (tables .l610) (2 * Level.l610.p) A) (d : Draw) (h1 : d.1.length = 80) (h2 : d.2.length = 80)
    (hd : 2 ^ 630 ≤ leNat d.2 % 2 ^ 638) (hd' : 3 * (leNat d.1 % 2 ^ 638) ≤ leNat d.2 % 2 ^ 638) :
    letI := Word32.arith .l610
    let x : Level.F .l610 := ⟨drawn32 .l610 d.1, drawn32 .l610 d.2⟩
    f2Val (tables .l610) Level.l610.p (rhsOf .l610 A (candidate .l610 d)) =
      x ^ 3 + f2Val (tables .l610) Level.l610.p A * x ^ 2 + 2 * x ∧
    2 ^ 629 ≤ val (rhsOf .l610 A (candidate .l610 d)).c1 := by
  letI := Word32.arith .l610
  obtain ⟨l0, l1, v0, v1, ev⟩ := cand32_val .l610 d h1 h2
  change val (cand32 .l610 d).c0 = leNat d.1 % 2 ^ 638 at v0
  change val (cand32 .l610 d).c1 = leNat d.2 % 2 ^ 638 at v1
  have hlt : leNat d.2 % 2 ^ 638 < 2 ^ 638 := Nat.mod_lt _ (by positivity)
  rw [← v1] at hd hd' hlt
  rw [← v0] at hd'
  have hR : 2 ^ (64 * (tables .l610).n) = 4 * 2 ^ 638 := by
    rw [show 64 * (tables .l610).n = 640 from rfl]; decide +kernel
  have hR' : 2 ^ (64 * (tables .l610).n) = 2 ^ 10 * 2 ^ 630 := by
    rw [show 64 * (tables .l610).n = 640 from rfl]; decide +kernel
  obtain ⟨r1, r2⟩ := Word32.rhs_wide (l := .l610) hA l0 l1 (by decide +kernel)
    (by rw [hR]; exact Nat.mul_le_mul_left _ hlt.le) (by rw [hR']; exact Nat.mul_le_mul_left _ hd) hd'
  rw [ev] at r1
  refine ⟨r1, ?_⟩
  change 7 * val (cand32 .l610 d).c1 ≤ 8 * val (rhsOf .l610 A (candidate .l610 d)).c1 at r2
  have e : (2 : ℕ) ^ 630 = 2 * 2 ^ 629 := by decide +kernel
  rw [e] at hd
  generalize (2 : ℕ) ^ 629 = w at *
  omega

/-- Such a draw: the two numbers are `2^600` and `2^637` (the values of the bits that count). -/
example : (leBytes 80 (2 ^ 600)).length = 80 ∧ 2 ^ 630 ≤ leNat (leBytes 80 (2 ^ 637)) % 2 ^ 638 ∧
    3 * (leNat (leBytes 80 (2 ^ 600)) % 2 ^ 638) ≤ leNat (leBytes 80 (2 ^ 637)) % 2 ^ 638 ∧
    Rng2 (tables .l610) (2 * Level.l610.p) (fp2one (tables .l610)) := by
  refine ⟨by decide +kernel, by decide +kernel, by decide +kernel, ?_⟩
  constructor <;> constructor <;> decide +kernel

/-- **C94 (p751).** The decision in `random_point` is right for every draw: it is accepted if and only if it is the x-coordinate of
a point on the curve. -/
theorem C94_accept751 (A : F2) (hA : Rng2 (tables .l751) (2 * Level.l751.p) A) (d : Draw) (h1 : d.1.length = 96)
    (h2 : d.2.length = 96) :
    letI := Word32.arith .l751
    let x : Level.F .l751 := ⟨drawn32 .l751 d.1, drawn32 .l751 d.2⟩
    (fp2sqrt (tables .l751) Level.l751.chain Level.l751.iso.e2 Level.l751.iso.e3 false
      (rhsOf .l751 A (candidate .l751 d))).2 = true ↔
      ∃ y : Level.F .l751, y ^ 2 = x ^ 3 + f2Val (tables .l751) Level.l751.p A * x ^ 2 + x := by
  letI := Word32.arith .l751
  haveI := Word32.arith_ok .l751
  intro x
  obtain ⟨l0, l1, v0, v1, ev⟩ := cand32_val .l751 d h1 h2
  have hb : 2 ^ keptBits .l751 ≤ 5 * Level.l751.p := by decide +kernel
  have hpos : 0 < 2 ^ keptBits .l751 := by positivity
  have hx : V .l751 5 (cand32 .l751 d) x :=
    ⟨⟨⟨l0, by rw [v0]; exact lt_of_lt_of_le (Nat.mod_lt _ hpos) hb⟩, ⟨l1, by rw [v1]; exact lt_of_lt_of_le (Nat.mod_lt _ hpos) hb⟩⟩, ev⟩
  have hr := rhsOf_wide (l := .l751) (A' := f2Val (tables .l751) Level.l751.p A) ⟨hA, rfl⟩ hx
  have hs := sqrt_bool hr
  rw [show Curve.rhsOf (f2Val (tables .l751) Level.l751.p A) x =
    x ^ 3 + f2Val (tables .l751) Level.l751.p A * x ^ 2 + x by unfold Curve.rhsOf; ring] at hs
  refine hs.trans ⟨fun h => ⟨_, (pow_two _).trans h⟩, fun ⟨y, hy⟩ => ?_⟩
  exact Level.sqrtOK .l751 _ ⟨y, by rw [← hy, pow_two]⟩

/-- **C94.** Squaring in `GF(p²)` with components up to `8 p` (the squarings in `xDBL` of a fresh random point see up to `7 p`):
right unless the imaginary part exceeds the real part by more than `4 p`; then the result is too large by the sum of the
components. -/
theorem C94_sqr (l : Level) (a : F2) (ha : Rng2 (tables l) (8 * l.p) a) :
    letI := Word32.arith l
    (val a.c1 ≤ val a.c0 + 4 * l.p → f2Val (tables l) l.p (fp2sqr (tables l) a) = f2Val (tables l) l.p a ^ 2) ∧
    (val a.c0 + 4 * l.p < val a.c1 → f2Val (tables l) l.p (fp2sqr (tables l) a) =
      f2Val (tables l) l.p a ^ 2 + ⟨fpVal (tables l) l.p a.c0 + fpVal (tables l) l.p a.c1, 0⟩) := by
  have h := Word32.fp2sqr_wide ha
  refine ⟨fun hc => ?_, fun hc => ?_⟩
  · rw [if_pos hc, add_zero] at h
    exact h
  · rw [if_neg (by omega)] at h
    exact h

/-- Random bytes with the value `3 p + 3 (2^768 mod p)` -/
def badBytes : List UInt8 := leBytes 96 (3 * Level.l751.p + 3 * (2 ^ 768 % Level.l751.p))

/-- Zero bytes and these -/
def badDraw : Draw := (List.replicate 96 0, badBytes)

/-- The constants 2 and 4, made from 1 as in the code -/
def two32 : F2 :=
  letI := Word32.arith .l751
  fp2add (tables .l751) (fp2one (tables .l751)) (fp2one (tables .l751))

def four32 : F2 :=
  letI := Word32.arith .l751
  fp2add (tables .l751) two32 two32

/-- The double of the point with these random bytes on `y² = x³ + x` -/
def badDouble : Pt F2 :=
  letI := Word32.arith .l751
  xDBL .l751 ⟨candidate .l751 badDraw, fp2one (tables .l751)⟩ two32 four32

theorem badDouble_value : (24 * val badDouble.X.c0 + 25 * val badDouble.Z.c1) % Level.l751.p ≠ 0 := by decide +kernel

theorem two_ne_zero_751 : (2 : ZMod Level.l751.p) ≠ 0 := by
  have h : ((2 : ℕ) : ZMod Level.l751.p) ≠ 0 := by
    rw [Ne, ZMod.natCast_eq_zero_iff]
    intro h
    exact absurd (Nat.le_of_dvd (by norm_num) h) (by decide +kernel)
  exact_mod_cast h

theorem bad_drawn : drawn32 .l751 (List.replicate 96 0) = 0 ∧ drawn32 .l751 badBytes = 3 := by
  have e0 : leNat (List.replicate 96 (0 : UInt8)) = 0 := by decide +kernel
  have e1 : leNat badBytes % 2 ^ keptBits .l751 = 3 * Level.l751.p + 3 * (2 ^ 768 % Level.l751.p) := by decide +kernel
  have h2 : (2 : ZMod Level.l751.p) ^ 768 ≠ 0 := pow_ne_zero _ (two_ne_zero_751)
  have eR : 64 * (tables .l751).n = 768 := rfl
  constructor
  · rw [drawn32, e0, Nat.zero_mod, Nat.cast_zero, zero_div]
  · rw [drawn32, e1, eR, Nat.cast_add, Nat.cast_mul, Nat.cast_mul, ZMod.natCast_self, ZMod.natCast_mod, Nat.cast_pow]
    rw [div_eq_iff h2]
    push_cast
    ring

theorem randomPoint_accept [Arith] (l : Level) (A : F2) (d : Draw)
    (h : (fp2sqrt (tables l) l.chain l.iso.e2 l.iso.e3 false (rhsOf l A (candidate l d))).2 = true) (t : Tape Draw) :
    randomPoint l A { t with pts := d :: t.pts } = .ok (⟨candidate l d, fp2one (tables l)⟩, t) := by
  simp only [randomPoint, randomPointAux, h, if_true]

theorem bad_square : ∃ y : Level.F .l751, y ^ 2 = (⟨0, 3⟩ : Level.F .l751) ^ 3 + 0 * (⟨0, 3⟩ : Level.F .l751) ^ 2 + ⟨0, 3⟩ := by
  have hp : (12 : ZMod Level.l751.p) = (2 ^ 187 * 3 ^ 120) ^ 2 := by
    have e : (2 ^ 187 * 3 ^ 120) ^ 2 = 12 * Level.l751.p + 12 := by decide +kernel
    have e' := congrArg (Nat.cast : ℕ → ZMod Level.l751.p) e
    rw [Nat.cast_add, Nat.cast_mul, ZMod.natCast_self, mul_zero, zero_add] at e'
    push_cast at e'
    exact e'.symm
  generalize (2 ^ 187 * 3 ^ 120 : ZMod Level.l751.p) = a at hp
  refine ⟨⟨a, -a⟩, QuadraticAlgebra.ext ?_ ?_⟩
  · simp [pow_succ]
  · simp [pow_succ]
    linear_combination 2 * hp

/-- The doubling formula over the field -/
theorem true_double (l : Level) : Curve.xDBL (⟨⟨0, 3⟩, 1⟩ : Pt l.F) 2 4 = ⟨⟨400, 0⟩, ⟨0, -384⟩⟩ := by
  have e2 : (2 : l.F) = ⟨2, 0⟩ := QuadraticAlgebra.ext rfl rfl
  have e4 : (4 : l.F) = ⟨4, 0⟩ := QuadraticAlgebra.ext rfl rfl
  have e1 : (1 : l.F) = ⟨1, 0⟩ := QuadraticAlgebra.ext rfl rfl
  rw [e2, e4, e1]
  simp only [Curve.xDBL, Pt.mk.injEq]
  constructor <;> refine QuadraticAlgebra.ext ?_ ?_ <;>
    simp only [QuadraticAlgebra.re_mul, QuadraticAlgebra.im_mul, QuadraticAlgebra.re_add, QuadraticAlgebra.im_add,
      QuadraticAlgebra.re_sub, QuadraticAlgebra.im_sub] <;> ring

/-- A fraction that is not `25 i / 24` -/
theorem not_double {p : ℕ} [Fact p.Prime] (h2 : (2 : ZMod p) ≠ 0) {r : ZMod p} (x z : Fp2 p) {X Z : ℕ}
    (hx : x.re = X * r) (hz : z.im = Z * r) (hr : r ≠ 0) (h : (24 * X + 25 * Z) % p ≠ 0) :
    x * ⟨0, -384⟩ ≠ ⟨400, 0⟩ * z := by
  intro e
  have e' := congrArg QuadraticAlgebra.im e
  simp only [QuadraticAlgebra.im_mul, hx, hz] at e'
  apply h
  have e2 : ((24 * X + 25 * Z : ℕ) : ZMod p) = 0 := by
    have e3 : (2 : ZMod p) ^ 4 * r * ((24 * X + 25 * Z : ℕ) : ZMod p) = 0 := by
      push_cast
      linear_combination -e'
    exact (mul_eq_zero.1 e3).resolve_left (mul_ne_zero (pow_ne_zero _ h2) hr)
  rw [ZMod.natCast_eq_zero_iff] at e2
  exact Nat.mod_eq_zero_of_dvd e2

/-- **C94 (p751).** There are random bytes (`badDraw`, standing for `x = 3 i`) that `random_point` accepts on the curve `A = 0` and for
which the doubling formula of the code, with the constants of this curve, does not give the double of the point: over the field
the double is `25 i / 24`. -/
theorem C94_wrong751 :
    letI := Word32.arith .l751
    badDraw.1.length = 96 ∧ badDraw.2.length = 96 ∧
    f2Val (tables .l751) Level.l751.p (candidate .l751 badDraw) = ⟨0, 3⟩ ∧
    (∀ t : Tape Draw, ∃ P, randomPoint .l751 (fp2zero (tables .l751)) { t with pts := badDraw :: t.pts } = .ok (P, t) ∧
      P = ⟨candidate .l751 badDraw, fp2one (tables .l751)⟩) ∧
    f2Val (tables .l751) Level.l751.p two32 = 2 ∧ f2Val (tables .l751) Level.l751.p four32 = 4 ∧
    (let Q := xDBL .l751 ⟨candidate .l751 badDraw, fp2one (tables .l751)⟩ two32 four32
    let Q' := Curve.xDBL (⟨⟨0, 3⟩, 1⟩ : Pt (Level.F .l751)) 2 4
    Q'.Z ≠ 0 ∧ f2Val (tables .l751) Level.l751.p Q.X * Q'.Z ≠ Q'.X * f2Val (tables .l751) Level.l751.p Q.Z) := by
  letI := Word32.arith .l751
  haveI := Word32.arith_ok .l751
  have b1 : badDraw.1.length = 96 := List.length_replicate
  have b2 : badDraw.2.length = 96 := by decide +kernel
  obtain ⟨-, -, -, -, ev⟩ := cand32_val .l751 badDraw b1 b2
  rw [show badDraw.1 = List.replicate 96 0 from rfl, show badDraw.2 = badBytes from rfl, bad_drawn.1, bad_drawn.2] at ev
  have hone : V .l751 2 (fp2one (tables .l751)) 1 := one_v
  have h2 : V .l751 2 two32 (1 + 1) := hone.add hone
  have h4 : V .l751 2 four32 (1 + 1 + (1 + 1)) := h2.add h2
  have hacc := (C94_accept751 (fp2zero (tables .l751)) (zero_v (l := .l751)).rng badDraw b1 b2).2 (by
    rw [show badDraw.1 = List.replicate 96 0 from rfl, show badDraw.2 = badBytes from rfl, bad_drawn.1, bad_drawn.2,
      (zero_v (l := .l751)).val]
    exact bad_square)
  refine ⟨b1, b2, ev, fun t => ⟨_, randomPoint_accept .l751 _ _ hacc t, rfl⟩, by rw [h2.val]; norm_num, by rw [h4.val]; norm_num, ?_⟩
  show (Curve.xDBL (⟨⟨0, 3⟩, 1⟩ : Pt (Level.F .l751)) 2 4).Z ≠ 0 ∧
    f2Val (tables .l751) Level.l751.p badDouble.X * (Curve.xDBL (⟨⟨0, 3⟩, 1⟩ : Pt (Level.F .l751)) 2 4).Z ≠
      (Curve.xDBL (⟨⟨0, 3⟩, 1⟩ : Pt (Level.F .l751)) 2 4).X * f2Val (tables .l751) Level.l751.p badDouble.Z
  rw [true_double]
  have hn : (384 : ZMod Level.l751.p) ≠ 0 := by
    have h : ((384 : ℕ) : ZMod Level.l751.p) ≠ 0 := by
      rw [Ne, ZMod.natCast_eq_zero_iff]
      intro h
      exact absurd (Nat.le_of_dvd (by norm_num) h) (by decide +kernel)
    exact_mod_cast h
  refine ⟨fun h => hn (neg_eq_zero.1 (congrArg QuadraticAlgebra.im h)), ?_⟩
  exact not_double two_ne_zero_751 _ _ rfl rfl (inv_ne_zero (pow_ne_zero _ two_ne_zero_751)) badDouble_value

end Secuer.Word32Props
