import Verif.WProtocol.Refine
import Verif.Props.KeccakProps

/-!
# Properties of the protocol on machine words (C66, C48)

`Secuer.WProtocol.verify`, `prove`, `generate` compute on arrays of 64-bit words and take their randomness as bytes. The
theorems say that they end as the functions over `GF(p²)` in `Verif.Protocol.Model` do on the elements that those bytes stand
for, and carry the theorems on the latter over.
-/

namespace Secuer.WProtocolProps

open Secuer.Word Secuer.Field Secuer.Text Secuer.WCurve Secuer.WProtocol
open Secuer.Curve (Pt Crv Out M Tape)
open Secuer.Protocol (Hash Comm Secret params)
open Secuer.ChainProps (RightOrder)
open Secuer.ProtocolProps (Valid Opens IsChallenge challengeBytes Exceptional)
open Secuer.KeccakProps (shakeHash)

variable (l : Level)

/-! ## C66 -/

/-- An outcome, with the random bytes left over replaced by the field elements they stand for -/
def onField [Arith] {α : Type} : Out (α × Tape Draw) → Out (α × Tape l.F)
  | .ok (a, t) => .ok (a, fieldTape l t)
  | .abort => .abort
  | .ub => .ub
  | .starved => .starved

theorem onField_of [Arith] {α : Type} {m : M Draw α} {m' : M l.F α} (h : Ref l (· = ·) m m') {t : Tape Draw} (ht : TapeLen l t) :
    m' (fieldTape l t) = onField l (m t) ∧ ∀ a t', m t = .ok (a, t') → TapeLen l t' := by
  have h := h t ht
  generalize m t = o at h ⊢
  generalize m' (fieldTape l t) = o' at h ⊢
  cases h with
  | abort => exact ⟨rfl, by intro a t' h; cases h⟩
  | ub => exact ⟨rfl, by intro a t' h; cases h⟩
  | starved => exact ⟨rfl, by intro a t' h; cases h⟩
  | ok h =>
    rename_i r s
    obtain ⟨a, t1⟩ := r
    obtain ⟨b, t2⟩ := s
    obtain ⟨h1, h2, h3⟩ := h
    dsimp only at h1 h2 h3
    subst h1
    rw [h3]
    exact ⟨rfl, by rintro _ _ ⟨⟩; exact h2⟩

/-- The model of memory over the field that goes with one on words -/
def fieldMem (mem : WProtocol.Mem) (pts : ℕ → Pt l.F × Pt l.F) : Protocol.Mem l := ⟨pts, mem.challs⟩

/-- **C66.** `Verify` on words, for any proof in memory, random bytes and uninitialised memory, ends as the verifier over the
field does on the elements the random bytes stand for: same verdict, same abort, same undefined behaviour. -/
theorem C66_verify (H : Hash) (mem : WProtocol.Mem) (hm : mem.WF l) (pts : ℕ → Pt l.F × Pt l.F) (fuel : ℕ) (prf : CProof)
    (hw : prf.WF (params l)) (t : Tape Draw) (ht : TapeLen l t) :
    Protocol.verify l H (fieldMem l mem pts) fuel prf (fieldTape l t) = onField l (verify l H mem fuel prf t) ∧
      ∀ b t', verify l H mem fuel prf t = .ok (b, t') → TapeLen l t' :=
  onField_of l (verify_ref hm rfl fuel hw) ht

/-- **C66.** `Prove` on words -/
theorem C66_prove (H : Hash) (mem : WProtocol.Mem) (hm : mem.WF l) (pts : ℕ → Pt l.F × Pt l.F) (fuel : ℕ) (sec : Secret)
    (hs : SecWF l sec) (t : Tape Draw) (ht : TapeLen l t) :
    Protocol.prove l H (fieldMem l mem pts) fuel sec (fieldTape l t) = onField l (prove l H mem fuel sec t) ∧
      ∀ b t', prove l H mem fuel sec t = .ok (b, t') → TapeLen l t' :=
  onField_of l (prove_ref hm rfl fuel hs) ht

/-- **C66.** `Generate` on words -/
theorem C66_generate (mem : WProtocol.Mem) (hm : mem.WF l) (pts : ℕ → Pt l.F × Pt l.F) (x : PFp2)
    (hx : x.WF (params l)) (t : Tape Draw) (ht : TapeLen l t) :
    Protocol.generate l (fieldMem l mem pts) x (fieldTape l t) = onField l (generate l mem x t) ∧
      ∀ b t', generate l mem x t = .ok (b, t') → TapeLen l t' :=
  onField_of l (generate_ref hm hx) ht

/-- The element of `GF(p)` that random bytes stand for: the lowest `randBits` bits as a little-endian integer, divided by the
Montgomery constant `R = 2^(64 n)` -/
def drawn (b : List UInt8) : ZMod l.p := ((Scalar.leNat b % 2 ^ randBits l : ℕ) : ZMod l.p) / 2 ^ (64 * (tables l).n)

/-- **C66.** What the random bytes stand for: each draw of two byte strings for one element of `GF(p²)`, in order; hiding strings
and scalars as they are. -/
theorem C66_draws (t : Tape Draw) (ht : TapeLen l t) :
    fieldTape l t = ⟨t.pts.map fun d => ⟨drawn l d.1, drawn l d.2⟩, t.hide, t.scal⟩ := by
  unfold fieldTape
  congr 1
  refine List.map_congr_left fun d hd => ?_
  obtain ⟨h1, h2⟩ := ht d hd
  have key : ∀ b : List UInt8, b.length = 8 * (tables l).n → fpVal (tables l) l.p (fprand (tables l) b) = drawn l b := by
    intro b hb
    rw [fpVal, (fprand_val l hb).2, drawn, div_eq_mul_inv]
  show (⟨fpVal (tables l) l.p (fprand (tables l) d.1), fpVal (tables l) l.p (fprand (tables l) d.2)⟩ : l.F) = _
  rw [key _ h1, key _ h2]

/-- Some memory -/
def someMem : WProtocol.Mem :=
  ⟨fun n => (⟨⟨[n], []⟩, ⟨[], [1]⟩⟩, ⟨⟨[], []⟩, ⟨[], []⟩⟩), List.replicate (params l).reps 7,
    ⟨List.replicate (tables l).n 5, List.replicate (tables l).n 6⟩, List.replicate (nwordsOrder l) 3⟩

theorem someMem_wf : (someMem l).WF l := ⟨List.length_replicate, List.length_replicate, List.length_replicate⟩

example : (someMem l).WF l ∧ (someMem l).challs.length = (params l).reps := ⟨someMem_wf l, List.length_replicate⟩

example : TapeLen l ⟨[(List.replicate (8 * (tables l).n) 255, List.replicate (8 * (tables l).n) 1)], [], [5]⟩ := by
  intro d hd
  rw [List.mem_singleton] at hd
  subst hd
  exact ⟨List.length_replicate, List.length_replicate⟩

/-- A proof full of one byte -/
def flatProof (b : UInt8) (tag : Int) : CProof :=
  let e : PFp2 := ⟨List.replicate (params l).fpBytes b, List.replicate (params l).fpBytes b⟩
  let r := List.replicate (params l).hide b
  let h := List.replicate (params l).hash b
  ⟨e, e, List.replicate (params l).reps ⟨tag, r, h, List.replicate (params l).height e, r, r, e,
    List.replicate (params l).width e, h, r, List.replicate (params l).height e⟩⟩

theorem flatProof_wf (b : UInt8) (tag : Int) (h : -2147483648 ≤ tag ∧ tag ≤ 2147483647) : (flatProof l b tag).WF (params l) := by
  have he : PFp2.WF (params l) ⟨List.replicate (params l).fpBytes b, List.replicate (params l).fpBytes b⟩ :=
    ⟨List.length_replicate, List.length_replicate⟩
  have hl : ∀ n, ∀ v ∈ List.replicate n (⟨List.replicate (params l).fpBytes b, List.replicate (params l).fpBytes b⟩ : PFp2),
      v.WF (params l) := by
    intro n v hv
    rw [List.eq_of_mem_replicate hv]
    exact he
  refine ⟨he, he, List.length_replicate, ?_⟩
  intro r hr
  rw [List.eq_of_mem_replicate hr]
  exact ⟨⟨List.length_replicate, List.length_replicate, List.length_replicate, hl _⟩,
    ⟨List.length_replicate, List.length_replicate, he, List.length_replicate, hl _⟩,
    ⟨List.length_replicate, List.length_replicate, List.length_replicate, hl _⟩, h⟩

example : (flatProof l 77 (-1)).WF (params l) := flatProof_wf l 77 (-1) (by norm_num)

/-! ### What carries over -/

theorem onField_ub [Arith] {α : Type} {o : Out (α × Tape Draw)} (h : onField l o ≠ .ub) : o ≠ .ub := by
  rintro rfl
  exact h rfl

/-- **C66.** On words, with SHAKE256 as implemented, `Verify` has no undefined behaviour on any proof in memory. -/
theorem C66_verify_no_ub (mem : WProtocol.Mem) (hm : mem.WF l) (hc : mem.challs.length = (params l).reps) (fuel : ℕ)
    (prf : CProof) (hw : prf.WF (params l)) (t : Tape Draw) (ht : TapeLen l t) : verify l shakeHash mem fuel prf t ≠ .ub := by
  have h := (C66_verify l shakeHash mem hm (fun _ => (⟨0, 0⟩, ⟨0, 0⟩)) fuel prf hw t ht).1
  exact onField_ub l (h ▸ ProtocolProps.c15_no_ub l shakeHash _ hc fuel hw _)

/-- **C66.** On words, with SHAKE256 as implemented: if `Verify` returns, it returns true exactly if the proof is valid, in the
sense of the specification over the field. -/
theorem C66_verdict (mem : WProtocol.Mem) (hm : mem.WF l) (hc : mem.challs.length = (params l).reps) (fuel : ℕ)
    (prf : CProof) (hw : prf.WF (params l)) (t t' : Tape Draw) (ht : TapeLen l t) (b : Bool)
    (h : verify l shakeHash mem fuel prf t = .ok (b, t')) : b = true ↔ Valid l shakeHash prf := by
  have h1 := (C66_verify l shakeHash mem hm (fun _ => (⟨0, 0⟩, ⟨0, 0⟩)) fuel prf hw t ht).1
  rw [h] at h1
  exact ProtocolProps.c15_verdict l shakeHash _ hc fuel prf _ _ b h1

/-- **C66.** On words, with SHAKE256 as implemented: an accepted proof contains, for every repetition, isogenies with cyclic
kernels that open the commitments bound by the challenge. -/
theorem C66_sound (mem : WProtocol.Mem) (hm : mem.WF l) (hc : mem.challs.length = (params l).reps) (fuel : ℕ)
    (prf : CProof) (hw : prf.WF (params l)) (t t' : Tape Draw) (ht : TapeLen l t)
    (h : verify l shakeHash mem fuel prf t = .ok (true, t')) :
    RightOrder l (Protocol.decode l prf.E0) ∧ RightOrder l (Protocol.decode l prf.E1) ∧ ∃ os : List (Int × Comm),
      os.length = (params l).reps ∧
      List.Forall₂ (fun r o => Opens l shakeHash (Protocol.decode l prf.E0) (Protocol.decode l prf.E1) r o) prf.resp os ∧
      IsChallenge l shakeHash (challengeBytes l (Protocol.decode l prf.E0) (Protocol.decode l prf.E1)
        (os.map fun o => (o.2.h2, o.2.h3))) (os.map Prod.fst) := by
  have h1 := (C66_verify l shakeHash mem hm (fun _ => (⟨0, 0⟩, ⟨0, 0⟩)) fuel prf hw t ht).1
  rw [h] at h1
  exact ProtocolProps.c15_sound l shakeHash _ hc fuel hw _ _ h1

/-- The strings in a secret that `Generate` returns have the right lengths. -/
theorem secWF_generate {mem : WProtocol.Mem} (hm : mem.WF l) {x : PFp2} (hx : x.WF (params l)) {t t₁ : Tape Draw}
    (ht : TapeLen l t) {sec : Secret} (h : generate l mem x t = .ok (some sec, t₁)) : SecWF l sec := by
  have h1 := (C66_generate l mem hm (fun _ => (⟨0, 0⟩, ⟨0, 0⟩)) x hx t ht).1
  rw [h] at h1
  unfold Protocol.generate at h1
  obtain ⟨b, t2, -, h1⟩ := Secuer.Curve.bind_ok h1
  cases b with
  | false => cases h1
  | true =>
    simp only [Bool.true_eq_false, if_false] at h1
    obtain ⟨c, t3, -, h1⟩ := Secuer.Curve.bind_ok h1
    cases h1
    constructor
    · intro a ha
      obtain ⟨E, -, rfl⟩ := List.mem_map.1 ha
      exact ProtocolProps.encode_wf l _
    · intro a ha
      obtain ⟨E, -, rfl⟩ := List.mem_map.1 ha
      exact ProtocolProps.encode_wf l _

/-- **C66.** On words, with SHAKE256 as implemented: `Generate` has no undefined behaviour, and neither has `Prove` on what it
returns. -/
theorem C66_prover_no_ub (mem mem' : WProtocol.Mem) (hm : mem.WF l) (hm' : mem'.WF l)
    (hc : mem'.challs.length = (params l).reps) (fuel : ℕ) (x : PFp2) (hx : x.WF (params l)) (t : Tape Draw) (ht : TapeLen l t) :
    generate l mem x t ≠ .ub ∧ ∀ sec t₁, generate l mem x t = .ok (some sec, t₁) →
      ∀ u, TapeLen l u → prove l shakeHash mem' fuel sec u ≠ .ub := by
  have h1 := (C66_generate l mem hm (fun _ => (⟨0, 0⟩, ⟨0, 0⟩)) x hx t ht).1
  have h2 := ProtocolProps.c24_no_ub l shakeHash (fieldMem l mem fun _ => (⟨0, 0⟩, ⟨0, 0⟩))
    (fieldMem l mem' fun _ => (⟨0, 0⟩, ⟨0, 0⟩)) hc fuel x (fieldTape l t)
  refine ⟨onField_ub l (h1 ▸ h2.1), fun sec t₁ h u hu => ?_⟩
  have h3 := (C66_prove l shakeHash mem' hm' (fun _ => (⟨0, 0⟩, ⟨0, 0⟩)) fuel sec (secWF_generate l hm hx ht h) u hu).1
  rw [h] at h1
  exact onField_ub l (h3 ▸ h2.2 sec _ h1 _)

/-- **C66.** On words, with SHAKE256 as implemented: a proof that `Prove` computes from a secret of `Generate`, written with
`Dump` and read back with `Parse`, is accepted whenever `Verify` returns - unless the path led through a curve with additional
automorphisms. -/
theorem C66_complete (mem mem' : WProtocol.Mem) (hm : mem.WF l) (hm' : mem'.WF l)
    (hc : mem'.challs.length = (params l).reps) (fuel : ℕ) (x : PFp2) (hx : x.WF (params l)) (t t₁ u u' : Tape Draw)
    (ht : TapeLen l t) (hu : TapeLen l u) (sec : Secret) (prf : Proof) (hg : generate l mem x t = .ok (some sec, t₁))
    (hp : prove l shakeHash mem' fuel sec u = .ok (prf, u')) (f : Sink) (hf : ∀ n, f.fault n = none) (he : f.out = []) :
    ∃ f' prf' rest, dump f prf = (true, f') ∧ parse (params l) f'.out = .ok prf' rest ∧
      ((∃ vs u₁, Protocol.instances l shakeHash sec (params l).reps (fieldTape l u) = .ok (vs, u₁) ∧ ∃ v ∈ vs, Exceptional l v.1) ∨
        ∀ (mem₂ : WProtocol.Mem) (fuel₂ : ℕ) (prf₂ : CProof), mem₂.WF l → mem₂.challs.length = (params l).reps →
          prf₂.WF (params l) → prf₂.E0 = prf'.E0 → prf₂.E1 = prf'.E1 → prf₂.resp.map CResp.active = prf'.resp.map some →
          ∀ s, TapeLen l s → verify l shakeHash mem₂ fuel₂ prf₂ s ≠ .ub ∧
            ∀ b s', verify l shakeHash mem₂ fuel₂ prf₂ s = .ok (b, s') → b = true) := by
  have h1 := (C66_generate l mem hm (fun _ => (⟨0, 0⟩, ⟨0, 0⟩)) x hx t ht).1
  have h2 := (C66_prove l shakeHash mem' hm' (fun _ => (⟨0, 0⟩, ⟨0, 0⟩)) fuel sec (secWF_generate l hm hx ht hg) u hu).1
  rw [hg] at h1
  rw [hp] at h2
  obtain ⟨f', prf', rest, e1, e2, e3⟩ := KeccakProps.C24_shake l (mem' := fieldMem l mem' fun _ => (⟨0, 0⟩, ⟨0, 0⟩)) hc h1 h2 f hf he
  refine ⟨f', prf', rest, e1, e2, e3.imp id ?_⟩
  intro hA mem₂ fuel₂ prf₂ hm₂ hc₂ hw₂ hE0 hE1 hr s hs
  obtain ⟨q1, q2⟩ := hA (fieldMem l mem₂ fun _ => (⟨0, 0⟩, ⟨0, 0⟩)) fuel₂ prf₂ hc₂ hE0 hE1 hr (fieldTape l s)
  have h3 := (C66_verify l shakeHash mem₂ hm₂ (fun _ => (⟨0, 0⟩, ⟨0, 0⟩)) fuel₂ prf₂ hw₂ s hs).1
  refine ⟨onField_ub l (h3 ▸ q1), fun b s' h => ?_⟩
  rw [h] at h3
  exact q2 b _ h3

/-! ## C48, the callers -/

/-- The outcome without the random bytes left over -/
def result {α : Type} : Out (α × Tape Draw) → Out α
  | .ok (a, _) => .ok a
  | .abort => .abort
  | .ub => .ub
  | .starved => .starved

theorem result_of [Arith] {α : Type} {o o' : Out (α × Tape Draw)} (h : onField l o = onField l o') : result o = result o' := by
  cases o <;> cases o' <;> simp only [onField, Out.ok.injEq, Prod.mk.injEq, reduceCtorEq] at h <;> simp only [result, h]

/-- A comparison that answers like `fp_equal` if the left array is below `2p` and the right one at most `2p`, and anything
otherwise -/
def LikeFpEqual (eq : Tables → List Digit → List Digit → BitVec 8) : Prop :=
  ∀ a b : List Digit, a.length = (tables l).n → b.length = (tables l).n → val a < 2 * l.p → val b ≤ 2 * l.p →
    eq (tables l) a b = fpEqual (tables l) a b

theorem LikeFpEqual.ok {eq : Tables → List Digit → List Digit → BitVec 8} (h : LikeFpEqual l eq) :
    @FpEqOK (tables l) l.p _ ⟨eq⟩ :=
  @FpEqOK.mk _ _ _ ⟨eq⟩ fun ha hb => h _ _ ha.len hb.len ha.lt (by have := hb.lt; omega)

/-- **C48.** The answers of `fp_equal` on arrays out of range - the left one `2p` or more, or uninitialised memory - have no
influence on `Verify`, `Prove` and `Generate`. -/
theorem C48_out_of_range (eq : Tables → List Digit → List Digit → BitVec 8) (he : LikeFpEqual l eq) (H : Hash)
    (mem : WProtocol.Mem) (hm : mem.WF l) (fuel : ℕ) (t : Tape Draw) (ht : TapeLen l t) :
    (∀ prf : CProof, prf.WF (params l) →
      result (@verify l _ H mem ⟨eq⟩ fuel prf t) = result (@verify l _ H mem ⟨fun T' => fpEqual T'⟩ fuel prf t)) ∧
    (∀ sec : Secret, SecWF l sec →
      result (@prove l _ H mem ⟨eq⟩ fuel sec t) = result (@prove l _ H mem ⟨fun T' => fpEqual T'⟩ fuel sec t)) ∧
    (∀ x : PFp2, x.WF (params l) → result (@generate l _ mem ⟨eq⟩ x t) = result (@generate l _ mem ⟨fun T' => fpEqual T'⟩ x t)) := by
  have ok := he.ok
  have pmem := fieldMem l mem fun _ => (⟨0, 0⟩, ⟨0, 0⟩)
  refine ⟨fun prf hw => result_of l ?_, fun sec hs => result_of l ?_, fun x hx => result_of l ?_⟩
  · rw [← (onField_of l (@verify_ref l _ _ _ ⟨eq⟩ ok H mem (fieldMem l mem fun _ => (⟨0, 0⟩, ⟨0, 0⟩)) hm rfl fuel prf hw) ht).1,
      ← (onField_of l (verify_ref (pmem := fieldMem l mem fun _ => (⟨0, 0⟩, ⟨0, 0⟩)) hm rfl fuel hw) ht).1]
  · rw [← (onField_of l (@prove_ref l _ _ _ ⟨eq⟩ ok H mem (fieldMem l mem fun _ => (⟨0, 0⟩, ⟨0, 0⟩)) hm rfl fuel sec hs) ht).1,
      ← (onField_of l (prove_ref (pmem := fieldMem l mem fun _ => (⟨0, 0⟩, ⟨0, 0⟩)) hm rfl fuel hs) ht).1]
  · rw [← (onField_of l (@generate_ref l _ _ _ ⟨eq⟩ ok mem (fieldMem l mem fun _ => (⟨0, 0⟩, ⟨0, 0⟩)) hm x hx) ht).1,
      ← (onField_of l (generate_ref (pmem := fieldMem l mem fun _ => (⟨0, 0⟩, ⟨0, 0⟩)) hm hx) ht).1]

/-- There is such a comparison that differs from `fp_equal`. -/
example : ∃ eq, LikeFpEqual l eq ∧ eq ≠ fun T' => fpEqual T' := by
  classical
  refine ⟨fun T' a b => if val a < 2 * l.p then fpEqual T' a b else ~~~ fpEqual T' a b, ?_, ?_⟩
  · intro a b _ _ ha _
    exact if_pos ha
  · intro h
    have h1 := congrFun (congrFun (congrFun h (tables l)) (tables l).x2) []
    have hv : ¬ val (tables l).x2 < 2 * l.p := by
      have := (good l).val_x2
      omega
    rw [if_neg hv] at h1
    revert h1
    generalize fpEqual (tables l) (tables l).x2 [] = c
    intro h1
    have := congrArg (fun c : BitVec 8 => c.getLsbD 0) h1
    simp at this

end Secuer.WProtocolProps
