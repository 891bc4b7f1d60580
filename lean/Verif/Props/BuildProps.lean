import Verif.X64.Build
import Verif.Props.WordProps
import Verif.Props.WProtocolProps

/-!
# The protocol in both builds (C71)

`Secuer.WProtocolProps` is about the portable build.  Here a `Build` is either that one or the default build for x86-64, in
which the field arithmetic is done by the assembly routines of `Verif.X64`.  The protocol functions are those of
`Verif.WProtocol.Model`, with the routines of the build.
-/

namespace Secuer.BuildProps

open Secuer.Word Secuer.Field Secuer.Text Secuer.WCurve Secuer.WProtocol Secuer.WProtocolProps
open Secuer.Curve (Pt Crv Out M Tape)
open Secuer.Protocol (Hash Comm Secret params)
open Secuer.ChainProps (RightOrder)
open Secuer.ProtocolProps (Valid Opens IsChallenge challengeBytes Exceptional)
open Secuer.KeccakProps (shakeHash)
open Secuer.Scalar (leBytes)

/-- The builds: portable C (`OPT_LEVEL=GENERIC`), and the default on x86-64 -/
inductive Build
  | generic
  | x64
deriving DecidableEq

/-- The routines of a build compiled for a level -/
@[reducible] def Build.arith : Build → Level → Arith
  | .generic, _ => Arith.portable
  | .x64, l => X64.arith l

theorem Build.ok (bd : Build) (l : Level) : @ArithOK (tables l) l.p (bd.arith l) := by
  cases bd with
  | generic => exact ArithOK.portable
  | x64 => exact X64.arith_ok l

theorem Build.rok (bd : Build) (l : Level) : @RandOK (tables l) l.p (bd.arith l) := by
  cases bd with
  | generic => exact RandOK.portable
  | x64 => exact X64.rand_ok l

theorem Build.rand (bd : Build) (l : Level) : (bd.arith l).rand = Arith.portable.rand := by
  cases bd <;> rfl

/-- `Verify` in a build -/
def verifyB (bd : Build) (l : Level) (H : Hash) (mem : WProtocol.Mem) (fuel : ℕ) (prf : CProof) : M Draw Bool :=
  letI := bd.arith l
  verify l H mem fuel prf

/-- `Prove` in a build -/
def proveB (bd : Build) (l : Level) (H : Hash) (mem : WProtocol.Mem) (fuel : ℕ) (sec : Secret) : M Draw Proof :=
  letI := bd.arith l
  prove l H mem fuel sec

/-- `Generate` in a build -/
def generateB (bd : Build) (l : Level) (mem : WProtocol.Mem) (x : PFp2) : M Draw (Option Secret) :=
  letI := bd.arith l
  generate l mem x

variable (bd : Build) (l : Level)

/-- **C71.** `Verify`, in either build, ends as the verifier over the field does on the elements the random bytes stand for. -/
theorem C71_verify (H : Hash) (mem : WProtocol.Mem) (hm : mem.WF l) (pts : ℕ → Pt l.F × Pt l.F) (fuel : ℕ) (prf : CProof)
    (hw : prf.WF (params l)) (t : Tape Draw) (ht : TapeLen l t) :
    Protocol.verify l H (fieldMem l mem pts) fuel prf (fieldTape l t) = onField l (verifyB bd l H mem fuel prf t) ∧
      ∀ b t', verifyB bd l H mem fuel prf t = .ok (b, t') → TapeLen l t' :=
  letI := bd.arith l
  haveI := bd.ok l
  haveI := bd.rok l
  @onField_of l Arith.portable _ _ _ (Ref.congr (bd.rand l) (verify_ref hm rfl fuel hw)) _ ht

/-- **C71.** `Prove` in either build -/
theorem C71_prove (H : Hash) (mem : WProtocol.Mem) (hm : mem.WF l) (pts : ℕ → Pt l.F × Pt l.F) (fuel : ℕ) (sec : Secret)
    (hs : SecWF l sec) (t : Tape Draw) (ht : TapeLen l t) :
    Protocol.prove l H (fieldMem l mem pts) fuel sec (fieldTape l t) = onField l (proveB bd l H mem fuel sec t) ∧
      ∀ b t', proveB bd l H mem fuel sec t = .ok (b, t') → TapeLen l t' :=
  letI := bd.arith l
  haveI := bd.ok l
  haveI := bd.rok l
  @onField_of l Arith.portable _ _ _ (Ref.congr (bd.rand l) (prove_ref hm rfl fuel hs)) _ ht

/-- **C71.** `Generate` in either build -/
theorem C71_generate (mem : WProtocol.Mem) (hm : mem.WF l) (pts : ℕ → Pt l.F × Pt l.F) (x : PFp2)
    (hx : x.WF (params l)) (t : Tape Draw) (ht : TapeLen l t) :
    Protocol.generate l (fieldMem l mem pts) x (fieldTape l t) = onField l (generateB bd l mem x t) ∧
      ∀ b t', generateB bd l mem x t = .ok (b, t') → TapeLen l t' :=
  letI := bd.arith l
  haveI := bd.ok l
  haveI := bd.rok l
  @onField_of l Arith.portable _ _ _ (Ref.congr (bd.rand l) (generate_ref hm hx)) _ ht

/-- **C71.** From the same inputs and the same random bytes the two builds give the same verdict, the same proof and the same
secret, byte by byte - or both abort. -/
theorem C71_same (H : Hash) (mem : WProtocol.Mem) (hm : mem.WF l) (fuel : ℕ) (t : Tape Draw) (ht : TapeLen l t) :
    (∀ prf : CProof, prf.WF (params l) →
      result (verifyB .x64 l H mem fuel prf t) = result (verifyB .generic l H mem fuel prf t)) ∧
    (∀ sec : Secret, SecWF l sec →
      result (proveB .x64 l H mem fuel sec t) = result (proveB .generic l H mem fuel sec t)) ∧
    (∀ x : PFp2, x.WF (params l) → result (generateB .x64 l mem x t) = result (generateB .generic l mem x t)) := by
  refine ⟨fun prf hw => result_of l ?_, fun sec hs => result_of l ?_, fun x hx => result_of l ?_⟩
  · rw [← (C71_verify .x64 l H mem hm (fun _ => (⟨0, 0⟩, ⟨0, 0⟩)) fuel prf hw t ht).1,
      ← (C71_verify .generic l H mem hm (fun _ => (⟨0, 0⟩, ⟨0, 0⟩)) fuel prf hw t ht).1]
  · rw [← (C71_prove .x64 l H mem hm (fun _ => (⟨0, 0⟩, ⟨0, 0⟩)) fuel sec hs t ht).1,
      ← (C71_prove .generic l H mem hm (fun _ => (⟨0, 0⟩, ⟨0, 0⟩)) fuel sec hs t ht).1]
  · rw [← (C71_generate .x64 l mem hm (fun _ => (⟨0, 0⟩, ⟨0, 0⟩)) x hx t ht).1,
      ← (C71_generate .generic l mem hm (fun _ => (⟨0, 0⟩, ⟨0, 0⟩)) x hx t ht).1]

/-- **C71.** In either build, with SHAKE256 as implemented, `Verify` has no undefined behaviour on any proof in memory. -/
theorem C71_verify_no_ub (mem : WProtocol.Mem) (hm : mem.WF l) (hc : mem.challs.length = (params l).reps) (fuel : ℕ)
    (prf : CProof) (hw : prf.WF (params l)) (t : Tape Draw) (ht : TapeLen l t) :
    verifyB bd l shakeHash mem fuel prf t ≠ .ub := by
  have h := (C71_verify bd l shakeHash mem hm (fun _ => (⟨0, 0⟩, ⟨0, 0⟩)) fuel prf hw t ht).1
  exact onField_ub l (h ▸ ProtocolProps.c15_no_ub l shakeHash _ hc fuel hw _)

/-- **C71.** In either build: if `Verify` returns, it returns true exactly if the proof is valid. -/
theorem C71_verdict (mem : WProtocol.Mem) (hm : mem.WF l) (hc : mem.challs.length = (params l).reps) (fuel : ℕ)
    (prf : CProof) (hw : prf.WF (params l)) (t t' : Tape Draw) (ht : TapeLen l t) (b : Bool)
    (h : verifyB bd l shakeHash mem fuel prf t = .ok (b, t')) : b = true ↔ Valid l shakeHash prf := by
  have h1 := (C71_verify bd l shakeHash mem hm (fun _ => (⟨0, 0⟩, ⟨0, 0⟩)) fuel prf hw t ht).1
  rw [h] at h1
  exact ProtocolProps.c15_verdict l shakeHash _ hc fuel prf _ _ b h1

/-- **C71.** In either build: an accepted proof contains, for every repetition, isogenies with cyclic kernels that open the
commitments bound by the challenge. -/
theorem C71_sound (mem : WProtocol.Mem) (hm : mem.WF l) (hc : mem.challs.length = (params l).reps) (fuel : ℕ)
    (prf : CProof) (hw : prf.WF (params l)) (t t' : Tape Draw) (ht : TapeLen l t)
    (h : verifyB bd l shakeHash mem fuel prf t = .ok (true, t')) :
    RightOrder l (Protocol.decode l prf.E0) ∧ RightOrder l (Protocol.decode l prf.E1) ∧ ∃ os : List (Int × Comm),
      os.length = (params l).reps ∧
      List.Forall₂ (fun r o => Opens l shakeHash (Protocol.decode l prf.E0) (Protocol.decode l prf.E1) r o) prf.resp os ∧
      IsChallenge l shakeHash (challengeBytes l (Protocol.decode l prf.E0) (Protocol.decode l prf.E1)
        (os.map fun o => (o.2.h2, o.2.h3))) (os.map Prod.fst) := by
  have h1 := (C71_verify bd l shakeHash mem hm (fun _ => (⟨0, 0⟩, ⟨0, 0⟩)) fuel prf hw t ht).1
  rw [h] at h1
  exact ProtocolProps.c15_sound l shakeHash _ hc fuel hw _ _ h1

/-- The strings in a secret that `Generate` returns have the right lengths. -/
theorem secWF_generateB {mem : WProtocol.Mem} (hm : mem.WF l) {x : PFp2} (hx : x.WF (params l)) {t t₁ : Tape Draw}
    (ht : TapeLen l t) {sec : Secret} (h : generateB bd l mem x t = .ok (some sec, t₁)) : SecWF l sec := by
  have h1 := (C71_same l shakeHash mem hm 0 t ht).2.2 x hx
  have h2 : ∃ t₂, generateB .generic l mem x t = .ok (some sec, t₂) := by
    cases bd with
    | generic => exact ⟨_, h⟩
    | x64 =>
      rw [h] at h1
      cases h3 : generateB .generic l mem x t with
      | ok r =>
        obtain ⟨s, t₂⟩ := r
        rw [h3] at h1
        cases h1
        exact ⟨t₂, rfl⟩
      | _ => rw [h3] at h1; cases h1
  obtain ⟨t₂, h2⟩ := h2
  exact secWF_generate l hm hx ht h2

/-- **C71.** In either build, with SHAKE256 as implemented: `Generate` has no undefined behaviour, and neither has `Prove`, in
the same or the other build, on what it returns. -/
theorem C71_prover_no_ub (bd' : Build) (mem mem' : WProtocol.Mem) (hm : mem.WF l) (hm' : mem'.WF l)
    (hc : mem'.challs.length = (params l).reps) (fuel : ℕ) (x : PFp2) (hx : x.WF (params l)) (t : Tape Draw) (ht : TapeLen l t) :
    generateB bd l mem x t ≠ .ub ∧ ∀ sec t₁, generateB bd l mem x t = .ok (some sec, t₁) →
      ∀ u, TapeLen l u → proveB bd' l shakeHash mem' fuel sec u ≠ .ub := by
  have h1 := (C71_generate bd l mem hm (fun _ => (⟨0, 0⟩, ⟨0, 0⟩)) x hx t ht).1
  have h2 := ProtocolProps.c24_no_ub l shakeHash (fieldMem l mem fun _ => (⟨0, 0⟩, ⟨0, 0⟩))
    (fieldMem l mem' fun _ => (⟨0, 0⟩, ⟨0, 0⟩)) hc fuel x (fieldTape l t)
  refine ⟨onField_ub l (h1 ▸ h2.1), fun sec t₁ h u hu => ?_⟩
  have h3 := (C71_prove bd' l shakeHash mem' hm' (fun _ => (⟨0, 0⟩, ⟨0, 0⟩)) fuel sec (secWF_generateB bd l hm hx ht h) u hu).1
  rw [h] at h1
  exact onField_ub l (h3 ▸ h2.2 sec _ h1 _)

/-- **C71.** Interoperation of builds, with SHAKE256 as implemented: a proof that `Prove` in one build computes from a secret
of `Generate` in some build, written with `Dump` and read back with `Parse`, is accepted by every build whenever `Verify`
returns - unless the path led through a curve with additional automorphisms. -/
theorem C71_complete (bg bp : Build) (mem mem' : WProtocol.Mem) (hm : mem.WF l) (hm' : mem'.WF l)
    (hc : mem'.challs.length = (params l).reps) (fuel : ℕ) (x : PFp2) (hx : x.WF (params l)) (t t₁ u u' : Tape Draw)
    (ht : TapeLen l t) (hu : TapeLen l u) (sec : Secret) (prf : Proof) (hg : generateB bg l mem x t = .ok (some sec, t₁))
    (hp : proveB bp l shakeHash mem' fuel sec u = .ok (prf, u')) (f : Sink) (hf : ∀ n, f.fault n = none) (he : f.out = []) :
    ∃ f' prf' rest, dump f prf = (true, f') ∧ parse (params l) f'.out = .ok prf' rest ∧
      ((∃ vs u₁, Protocol.instances l shakeHash sec (params l).reps (fieldTape l u) = .ok (vs, u₁) ∧ ∃ v ∈ vs, Exceptional l v.1) ∨
        ∀ (bv : Build) (mem₂ : WProtocol.Mem) (fuel₂ : ℕ) (prf₂ : CProof), mem₂.WF l →
          mem₂.challs.length = (params l).reps →
          prf₂.WF (params l) → prf₂.E0 = prf'.E0 → prf₂.E1 = prf'.E1 → prf₂.resp.map CResp.active = prf'.resp.map some →
          ∀ s, TapeLen l s → verifyB bv l shakeHash mem₂ fuel₂ prf₂ s ≠ .ub ∧
            ∀ b s', verifyB bv l shakeHash mem₂ fuel₂ prf₂ s = .ok (b, s') → b = true) := by
  have h1 := (C71_generate bg l mem hm (fun _ => (⟨0, 0⟩, ⟨0, 0⟩)) x hx t ht).1
  have h2 := (C71_prove bp l shakeHash mem' hm' (fun _ => (⟨0, 0⟩, ⟨0, 0⟩)) fuel sec (secWF_generateB bg l hm hx ht hg) u hu).1
  rw [hg] at h1
  rw [hp] at h2
  obtain ⟨f', prf', rest, e1, e2, e3⟩ := KeccakProps.C24_shake l (mem' := fieldMem l mem' fun _ => (⟨0, 0⟩, ⟨0, 0⟩)) hc h1 h2 f hf he
  refine ⟨f', prf', rest, e1, e2, e3.imp id ?_⟩
  intro hA bv mem₂ fuel₂ prf₂ hm₂ hc₂ hw₂ hE0 hE1 hr s hs
  obtain ⟨q1, q2⟩ := hA (fieldMem l mem₂ fun _ => (⟨0, 0⟩, ⟨0, 0⟩)) fuel₂ prf₂ hc₂ hE0 hE1 hr (fieldTape l s)
  have h3 := (C71_verify bv l shakeHash mem₂ hm₂ (fun _ => (⟨0, 0⟩, ⟨0, 0⟩)) fuel₂ prf₂ hw₂ s hs).1
  refine ⟨onField_ub l (h3 ▸ q1), fun b s' h => ?_⟩
  rw [h] at h3
  exact q2 b _ h3

/-- **C71.** The field functions that are written in C above the routines of the build: on inputs below `2p`, in either build,
`fpinv_mont`, `fp2inv_mont`, `fp2sqrt`, `fp_equal` and `fp2_encode` do what they do in the portable one. -/
theorem C71_field (a b : List Digit) (x : F2) (ha : In l (2 * l.p) a) (hb : In l (2 * l.p) b)
    (hx : In2 l (2 * l.p) x) :
    letI := bd.arith l
    (In l (2 * l.p) (fpinv (tables l) l.chain a) ∧
      fpVal (tables l) l.p (fpinv (tables l) l.chain a) = (fpVal (tables l) l.p a)⁻¹) ∧
    (In2 l (2 * l.p) (fp2inv (tables l) l.chain x) ∧
      f2Val (tables l) l.p (fp2inv (tables l) l.chain x) = (f2Val (tables l) l.p x)⁻¹) ∧
    ((fp2sqrt (tables l) l.chain l.iso.e2 l.iso.e3 false x).2 = true ↔ ∃ z, z ^ 2 = f2Val (tables l) l.p x) ∧
    ((∃ z, z ^ 2 = f2Val (tables l) l.p x) → ∀ known,
      f2Val (tables l) l.p (fp2sqrt (tables l) l.chain l.iso.e2 l.iso.e3 known x).1 ^ 2 = f2Val (tables l) l.p x) ∧
    (fpEqual (tables l) a b = if val a % l.p = val b % l.p then 255 else 0) ∧
    fp2encode (tables l) x = leBytes (params l).fpBytes (f2Val (tables l) l.p x).re.val ++
      leBytes (params l).fpBytes (f2Val (tables l) l.p x).im.val := by
  letI := bd.arith l
  haveI := bd.ok l
  have g := good l
  have hp := g.pos
  obtain ⟨i1, i2⟩ := fpinv_spec g l.chain_exp ha.rng
  obtain ⟨j1, j2⟩ := fp2inv_spec g l.chain_exp (hx.rng.mono (by omega : 2 * l.p ≤ 2 * l.p + 1))
  obtain ⟨r, v⟩ := fp2sqrtY_spec g l.chain_exp (sqrt_two_lt l) (half_bounds l).2.1 (half_bounds l).2.2
    (e3 := l.iso.e3) (hx.rng.c0.mono (by omega)) hx.rng.c1
  obtain ⟨r2, v2⟩ := fp2sqr_spec g (r.mono (by omega : 2 * l.p ≤ 4 * l.p)) (le_refl 4)
  have heq := fp2equal_ne g r2 (hx.rng.mono (by omega : 2 * l.p ≤ 2 * l.p + 1))
  have root : (∃ z, z ^ 2 = f2Val (tables l) l.p x) →
      f2Val (tables l) l.p (fp2sqrtY (tables l) l.chain l.iso.e2 l.iso.e3 x) ^ 2 = f2Val (tables l) l.p x := by
    rintro ⟨z, hz⟩
    rw [v, sq]
    exact sqrtF_ok l.p_succ (sqrt_two_lt l).le (fun _ => rfl) _ ⟨z, by rw [← hz, sq]⟩
  have yes : (fp2sqrt (tables l) l.chain l.iso.e2 l.iso.e3 false x).2 = true ↔
      f2Val (tables l) l.p (fp2sqrtY (tables l) l.chain l.iso.e2 l.iso.e3 x) ^ 2 = f2Val (tables l) l.p x := by
    rw [sq, ← v2, ← heq]
    exact decide_eq_true_iff
  refine ⟨⟨i1.in, i2⟩, ⟨j1.in, j2⟩, yes.trans ⟨fun h => ⟨_, h⟩, root⟩, fun h known => ?_, ?_, ?_⟩
  · have e1 : (fp2sqrt (tables l) l.chain l.iso.e2 l.iso.e3 known x).1 = fp2sqrtY (tables l) l.chain l.iso.e2 l.iso.e3 x := by
      cases known <;> rfl
    rw [e1]
    exact root h
  · rw [fpEqual_spec g ha.rng (hb.rng.mono (by omega))]
    have h2 : fpVal (tables l) l.p a = fpVal (tables l) l.p b ↔ val a % l.p = val b % l.p := by
      rw [fpVal_eq_iff g, ZMod.natCast_eq_natCast_iff]
      rfl
    by_cases h : val a % l.p = val b % l.p
    · rw [if_pos (h2.2 h), if_pos h]; rfl
    · rw [if_neg (fun h3 => h (h2.1 h3)), if_neg h]; rfl
  · exact fp2encode_of l (fromMont_spec g (hx.rng.c0.mono (by omega))) (fromMont_spec g (hx.rng.c1.mono (by omega)))

/-- The hypotheses on memory, proof and random bytes can be met together. -/
example : (someMem l).WF l ∧ (someMem l).challs.length = (params l).reps ∧ (flatProof l 77 (-1)).WF (params l) ∧
    TapeLen l ⟨[(List.replicate (8 * (tables l).n) 255, List.replicate (8 * (tables l).n) 1)], [], [5]⟩ := by
  refine ⟨someMem_wf l, List.length_replicate, flatProof_wf l 77 (-1) (by norm_num), ?_⟩
  intro d hd
  rw [List.mem_singleton] at hd
  subst hd
  exact ⟨List.length_replicate, List.length_replicate⟩

end Secuer.BuildProps
