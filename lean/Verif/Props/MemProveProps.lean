import Verif.CMem.Prove
import Verif.Props.MemProverProps
import Verif.Props.TotalProps

/-!
# `Instance`, `Pack_Response` and `Prove` on memory (C101)

The portable build, digit by digit and byte by byte: the secret, the proof and the array from `malloc` lie anywhere below the stack.
-/

set_option maxRecDepth 100000

namespace Secuer.MemProps

open Secuer.Word Secuer.Field Secuer.CMem
open Secuer.Text (PFp2 CResp CProof)
open Secuer.WCurve (Draw TapeLen fieldTape)
open Secuer.Curve (Pt Crv Out Tape)
open Secuer.Protocol (params Secret)
open Secuer.CurveProps (jOf)
open Secuer.ChainProps (RightOrder rightOrder_zero CyclicIsogeny)
open Secuer.ProtocolProps (Valid Exceptional)
open Secuer.KeccakProps (shakeHash C13_hash)

attribute [local instance] Arith.portable

variable {l : Level}

/-- The number of bytes from `malloc` in `Prove`: `PROOF_REPS * sizeof(struct instance)` -/
def arrayBytes : Level → ℕ
  | .l434 => 219 * 9312
  | .l503 => 219 * 10624
  | .l610 => 329 * 13312
  | .l751 => 438 * 16000

theorem arrayBytes_eq : arrayBytes l = 8 * ((params l).reps * instW l) := by cases l <;> decide +kernel

/-- The bytes at `sec` are a secret that `Generate` returns for some curve and some randomness. -/
def Generated (l : Level) (m : Mem) (sec : ℕ) : Prop :=
  ∃ mem x t t₁, Protocol.generate l mem x t = .ok (some (secretAt l m sec), t₁)

theorem pfAt_congr {m m' : Mem} {x x' : ℕ} (h : bytesAt m x (2 * fb l) = bytesAt m' x' (2 * fb l)) : pfAt l m x = pfAt l m' x' := by
  rw [two_mul, ← rdBytes_eq, ← rdBytes_eq, rdBytes_append, rdBytes_append] at h
  obtain ⟨h1, h2⟩ := List.append_inj h (by rw [rdBytes_eq, rdBytes_eq, bytesAt_length, bytesAt_length])
  rw [pfAt, pfAt, ← rdBytes_eq, ← rdBytes_eq, ← rdBytes_eq, ← rdBytes_eq, h1, h2]

theorem bytesAt_sub {m m' : Mem} {x x' n : ℕ} (h : bytesAt m x n = bytesAt m' x' n) {k j : ℕ} (hk : k + j ≤ n) :
    bytesAt m (x + k) j = bytesAt m' (x' + k) j := by
  obtain ⟨r, rfl⟩ := Nat.exists_eq_add_of_le hk
  rw [← rdBytes_eq, ← rdBytes_eq, rdBytes_append, rdBytes_append, rdBytes_append, rdBytes_append] at h
  have h1 := (List.append_inj h (by simp [rdBytes_eq, bytesAt_length])).1
  have h2 := (List.append_inj h1 (by simp [rdBytes_eq, bytesAt_length])).2
  rwa [rdBytes_eq, rdBytes_eq] at h2

theorem pfsAt_congr {m m' : Mem} {x x' n : ℕ} (h : bytesAt m x (n * (2 * fb l)) = bytesAt m' x' (n * (2 * fb l))) : pfsAt l m x n = pfsAt l m' x' n := by
  refine List.map_congr_left fun i hi => pfAt_congr (bytesAt_sub h ?_)
  have := Nat.mul_le_mul_right (2 * fb l) (Nat.succ_le_of_lt (List.mem_range.1 hi))
  rwa [Nat.succ_mul] at this

theorem secretBytes_eq : secretBytes l = ((params l).width + 1) * (2 * fb l) + (params l).width * (2 * fb l) := by cases l <;> decide +kernel

theorem secretAt_congr {m m' : Mem} {x x' : ℕ} (h : bytesAt m x (secretBytes l) = bytesAt m' x' (secretBytes l)) : secretAt l m x = secretAt l m' x' := by
  have hz := secretBytes_eq (l := l)
  rw [secretAt, secretAt]
  have h1 := bytesAt_sub h (k := 0) (j := ((params l).width + 1) * (2 * fb l)) (by omega)
  have h2 := bytesAt_sub h (k := ((params l).width + 1) * (2 * fb l)) (j := (params l).width * (2 * fb l)) (by omega)
  rw [Nat.add_zero x, Nat.add_zero x'] at h1
  rw [pfsAt_congr h1, pfsAt_congr h2]

/-- What `Generate` on memory leaves behind is such a secret, also if it is then copied elsewhere. -/
theorem C101_generated {s₀ E0 sec₀ : ℕ} (h0 : E0 + 2 * fb l ≤ 8 * s₀) (hs : sec₀ + secretBytes l ≤ 8 * s₀) (t₀ : Tape Draw) (ht : TapeLen l t₀)
    (m₀ m₁ : Mem) (t₁ : Tape Draw) (hg : generateM l E0 sec₀ s₀ t₀ m₀ = .ok ((true, m₁), t₁)) (m : Mem) (sec : ℕ)
    (hb : bytesAt m sec (secretBytes l) = bytesAt m₁ sec₀ (secretBytes l)) : Generated l m sec := by
  refine ⟨⟨fun _ => (⟨0, 0⟩, ⟨0, 0⟩), []⟩, pfAt l m₀ E0, fieldTape l t₀, fieldTape l t₁, ?_⟩
  rw [secretAt_congr hb]
  exact (C100_refines h0 hs _ t₀ ht m₀ m₁ t₁ hg).2

/-- What the proof says about the two curves -/
theorem prove_ends (H : Protocol.Hash) {mem mem' : Protocol.Mem l} {fuel : ℕ} {x : PFp2} {t t₁ u u' : Tape l.F} {sec : Secret} {prf : Text.Proof}
    (hg : Protocol.generate l mem x t = .ok (some sec, t₁)) (hp : Protocol.prove l H mem' fuel sec u = .ok (prf, u')) :
    ∃ x₀ x₁, sec.E.head? = some x₀ ∧ sec.E.getLast? = some x₁ ∧ jOf (Protocol.decode l prf.E0) = jOf (Protocol.decode l x₀) ∧
      jOf (Protocol.decode l prf.E1) = jOf (Protocol.decode l x₁) := by
  obtain ⟨ha, a₁, hs⟩ := (Protocol.generate_ret l mem x).2 _ _ _ hg sec rfl
  obtain ⟨x₀, hx0, hd⟩ := hs.head
  obtain ⟨x₁, hx1, rfl⟩ := hs.last
  obtain ⟨G, hw⟩ := hs.walk
  have h1 := hw.super l.setting ha
  rw [← hd] at ha
  refine ⟨x₀, x₁, hx0, hx1, ?_⟩
  rw [Protocol.prove_eq l H mem' fuel hx0 hx1] at hp
  obtain ⟨vs, u₁, -, h2⟩ := Curve.bind_ok hp
  unfold Protocol.respond at h2
  obtain ⟨ts, u₂, -, h2⟩ := Curve.bind_ok h2
  rw [Protocol.packCurve_on l (Curve.on_one _) ha, Protocol.packCurve_on l (Curve.on_one _) h1] at h2
  simp only [Curve.lift_ok_bind] at h2
  obtain ⟨rs, u₅, -, h2⟩ := Curve.bind_ok h2
  cases h2
  simp only [Protocol.decode_encode]
  have key : ∀ {a : l.F} (h : Curve.Super l.φ l.σ l.p a), jOf (Curve.canonicalModel l.env ⟨a, 1⟩).B = jOf a := fun h => by
    have hm := ((Curve.on_one _).model l.setting h).2
    exact ((CurveProps.jOf_eq_iff l.two h.1 hm.tgt).2 hm.sameJ).symm
  exact ⟨key ha, key h1⟩

/-- `Prove` on a secret from `Generate`, with the array from `malloc` at `8 * inst`: no undefined behaviour.  If it returns, nothing but the proof and
the array has changed, and the two curves in the proof are isomorphic to the first and the last curve of the secret. -/
theorem C101_prove {s sec prf inst : ℕ} (hs : sec + secretBytes l ≤ 8 * s) (hp : prf + proofBytes l ≤ 8 * s) (ha : 8 * inst + arrayBytes l ≤ 8 * s)
    (hsa : sec + secretBytes l ≤ 8 * inst ∨ 8 * inst + arrayBytes l ≤ sec) (hpa : prf + proofBytes l ≤ 8 * inst ∨ 8 * inst + arrayBytes l ≤ prf)
    (fuel : ℕ) (t : Tape Draw) (ht : TapeLen l t) (m : Mem) (hg : Generated l m sec) :
    proveM l shakeHash fuel sec prf (some inst) s t m ≠ .ub ∧ ∀ m' t', proveM l shakeHash fuel sec prf (some inst) s t m = .ok (m', t') →
      (∀ y < 8 * s, (y < prf ∨ prf + proofBytes l ≤ y) → (y < 8 * inst ∨ 8 * inst + arrayBytes l ≤ y) → bytesAt m' y 1 = bytesAt m y 1) ∧
      jOf (strVal l m' prf) = jOf (strVal l m sec) ∧
      jOf (strVal l m' (prf + 2 * fb l)) = jOf (strVal l m (sec + (params l).width * (2 * fb l))) := by
  have hz := secretSize_eq (l := l)
  have hq := proofSize_eq (l := l)
  have hA := arrayBytes_eq (l := l)
  have hf := proveM_f (l := l) shakeHash (fun n x => (C13_hash n x).1) shake_block (fun _ => (⟨0, 0⟩, ⟨0, 0⟩)) fuel (s := s) (sec := sec) (prf := prf)
    (inst := inst) ⟨by omega, by omega, by omega, by omega, by omega⟩ ht m
  rw [rdSecret_eq] at hf
  have hm := trits_length m (chalAddrP l s) (params l).reps
  generalize trits m (chalAddrP l s) (params l).reps = ch at hf hm
  obtain ⟨mem, x, u, u₁, hgf⟩ := hg
  have hu := (ProtocolProps.c24_no_ub l shakeHash _ ⟨fun _ => (⟨0, 0⟩, ⟨0, 0⟩), ch⟩ hm fuel x u).2 _ _ hgf (fieldTape l t)
  have he := fun p u' => prove_ends (l := l) shakeHash (mem' := ⟨fun _ => (⟨0, 0⟩, ⟨0, 0⟩), ch⟩) (fuel := fuel) (u := fieldTape l t) (u' := u') (prf := p) hgf
  generalize Protocol.prove l shakeHash _ _ _ _ = c at hf hu he
  generalize proveM l shakeHash _ _ _ _ _ _ _ = o at hf ⊢
  refine ⟨?_, ?_⟩
  · rintro rfl
    rcases c with ⟨c, tc⟩ | _ | _ | _ <;> simp only [FRes] at hf
    exact hu rfl
  · rintro m' t' rfl
    rcases c with ⟨c, tc⟩ | _ | _ | _ <;> simp only [FRes] at hf
    obtain ⟨-, rfl, h0, h1, -, hf⟩ := hf
    obtain ⟨x₀, x₁, e0, e1, j0, j1⟩ := he _ _ rfl
    rw [rdProof_eq] at h0 h1
    have e0' : x₀ = pfAt l m sec := by simpa [secretAt, pfsAt, List.head?_range] using e0.symm
    have e1' : x₁ = pfAt l m (sec + (params l).width * (2 * fb l)) := by simpa [secretAt, pfsAt, List.getLast?_range] using e1.symm
    rw [← h0, e0', proofAt, decode_pfAt, decode_pfAt] at j0
    rw [← h1, e1', proofAt, decode_pfAt, decode_pfAt] at j1
    refine ⟨fun y hy h1 h2 => ?_, j0, j1⟩
    rw [← rdBytes_eq, ← rdBytes_eq]
    exact hf.bytes (by omega) (by simp; omega)

/-- The bytes of the proof are those that `Prove` computes on field elements: the same two strings and, in every response, the same tag and the same
active member of the union. -/
theorem C101_refines {s sec prf inst : ℕ} (hs : sec + secretBytes l ≤ 8 * s) (hp : prf + proofBytes l ≤ 8 * s) (ha : 8 * inst + arrayBytes l ≤ 8 * s)
    (hsa : sec + secretBytes l ≤ 8 * inst ∨ 8 * inst + arrayBytes l ≤ sec) (hpa : prf + proofBytes l ≤ 8 * inst ∨ 8 * inst + arrayBytes l ≤ prf)
    (fuel : ℕ) (t : Tape Draw) (ht : TapeLen l t) (m m' : Mem) (t' : Tape Draw)
    (h : proveM l shakeHash fuel sec prf (some inst) s t m = .ok (m', t')) :
    TapeLen l t' ∧ ∃ ch p, ch.length = (params l).reps ∧
      Protocol.prove l shakeHash ⟨fun _ => (⟨0, 0⟩, ⟨0, 0⟩), ch⟩ fuel (secretAt l m sec) (fieldTape l t) = .ok (p, fieldTape l t') ∧
      (proofAt l m' prf).E0 = p.E0 ∧ (proofAt l m' prf).E1 = p.E1 ∧ (proofAt l m' prf).resp.map CResp.active = p.resp.map some := by
  have hz := secretSize_eq (l := l)
  have hq := proofSize_eq (l := l)
  have hA := arrayBytes_eq (l := l)
  have hf := proveM_f (l := l) shakeHash (fun n x => (C13_hash n x).1) shake_block (fun _ => (⟨0, 0⟩, ⟨0, 0⟩)) fuel (s := s) (sec := sec) (prf := prf)
    (inst := inst) ⟨by omega, by omega, by omega, by omega, by omega⟩ ht m
  rw [rdSecret_eq, h] at hf
  have hm := trits_length m (chalAddrP l s) (params l).reps
  generalize trits m (chalAddrP l s) (params l).reps = ch at hf hm
  generalize hc : Protocol.prove l shakeHash _ _ _ _ = c at hf
  rcases c with ⟨c, tc⟩ | _ | _ | _ <;> simp only [FRes] at hf
  obtain ⟨hl, rfl, h0, h1, h2, -⟩ := hf
  rw [rdProof_eq] at h0 h1 h2
  exact ⟨hl, ch, c, hm, hc, h0, h1, h2⟩

theorem respAt_congr {m m' : Mem} {r r' : ℕ} (h : bytesAt m r (respBytes l) = bytesAt m' r' (respBytes l)) : respAt l m r = respAt l m' r' := by
  have h2 := sz_eq (l := l)
  have hul := uni_left (l := l)
  have hub := uni_bottom (l := l)
  have hus := uniSize_le (l := l) 0
  rw [← h2] at hul hub
  have hrs := respSize_eq (l := l)
  have hu : uni 0 = 4 := rfl
  have key := fun {k j : ℕ} (hk : k + j ≤ respBytes l) => bytesAt_sub h hk
  simp only [respAt, Nat.add_assoc]
  have k0 := key (k := 0) (j := 4) (by omega)
  simp only [Nat.add_zero] at k0
  congr 1
  · rw [k0]
  all_goals first
    | exact key (by omega)
    | exact pfAt_congr (key (by omega))
    | exact pfsAt_congr (key (by omega))

theorem proofBytes_eq : proofBytes l = 4 * fb l + (params l).reps * respBytes l := by cases l <;> decide +kernel

theorem proofAt_congr {m m' : Mem} {x x' : ℕ} (h : bytesAt m x (proofBytes l) = bytesAt m' x' (proofBytes l)) : proofAt l m x = proofAt l m' x' := by
  have hz := proofBytes_eq (l := l)
  have h1 := bytesAt_sub h (k := 0) (j := 2 * fb l) (by omega)
  rw [Nat.add_zero x, Nat.add_zero x'] at h1
  rw [proofAt, proofAt, pfAt_congr h1, pfAt_congr (bytesAt_sub h (by omega))]
  refine congrArg _ (List.map_congr_left fun i hi => ?_)
  have := Nat.mul_le_mul_right (respBytes l) (Nat.succ_le_of_lt (List.mem_range.1 hi))
  rw [Nat.succ_mul] at this
  rw [Nat.add_assoc, Nat.add_assoc]
  exact respAt_congr (bytesAt_sub h (by omega))

/-- `Generate`, `Prove`, `Verify`, each on its own memory with its own randomness, the secret and the proof carried over byte by byte: `Verify` has no
undefined behaviour and returns true, unless one of the curves strictly inside one of the chains of the prover has j-invariant 0 or 1728. -/
theorem C101_complete {s sec prf inst : ℕ} (hs : sec + secretBytes l ≤ 8 * s) (hp : prf + proofBytes l ≤ 8 * s) (ha : 8 * inst + arrayBytes l ≤ 8 * s)
    (hsa : sec + secretBytes l ≤ 8 * inst ∨ 8 * inst + arrayBytes l ≤ sec) (hpa : prf + proofBytes l ≤ 8 * inst ∨ 8 * inst + arrayBytes l ≤ prf)
    (fuel : ℕ) (t : Tape Draw) (ht : TapeLen l t) (m : Mem) (hg : Generated l m sec) (m' : Mem) (t' : Tape Draw)
    (h : proveM l shakeHash fuel sec prf (some inst) s t m = .ok (m', t')) :
    (∃ vs u, Protocol.instances l shakeHash (secretAt l m sec) (params l).reps (fieldTape l t) = .ok (vs, u) ∧ ∃ v ∈ vs, Exceptional l v.1) ∨
      ∀ (s₂ prf₂ fuel₂ : ℕ) (t₂ : Tape Draw) (m₂ : Mem), prf₂ + proofBytes l ≤ 8 * s₂ → TapeLen l t₂ →
        bytesAt m₂ prf₂ (proofBytes l) = bytesAt m' prf (proofBytes l) →
        verifyM l shakeHash fuel₂ prf₂ s₂ t₂ m₂ ≠ .ub ∧ ∀ b m₃ t₃, verifyM l shakeHash fuel₂ prf₂ s₂ t₂ m₂ = .ok ((b, m₃), t₃) → b = true := by
  obtain ⟨-, ch, p, hm, hpr, h0, h1, h2⟩ := C101_refines hs hp ha hsa hpa fuel t ht m m' t' h
  obtain ⟨mem, x, u, u₁, hgf⟩ := hg
  refine ((ProtocolProps.c24_complete l shakeHash hm hgf hpr).2).imp id fun hA s₂ prf₂ fuel₂ t₂ m₂ hp₂ ht₂ hb => ⟨(C99_verify hp₂ fuel₂ t₂ ht₂ m₂).1, ?_⟩
  intro b m₃ t₃ hv
  have hf := verifyM_f (l := l) shakeHash (fun n x => (C13_hash n x).1) shake_block (fun _ => (⟨0, 0⟩, ⟨0, 0⟩)) fuel₂ (prf := prf₂) (s := s₂)
    (by rw [proofSize_eq]; exact hp₂) ht₂ m₂
  rw [rdProof_eq, proofAt_congr hb, hv] at hf
  have hm₂ := trits_length m₂ (chalAddr l s₂) (params l).reps
  generalize trits m₂ (chalAddr l s₂) (params l).reps = ch₂ at hf hm₂
  have hA := (hA ⟨fun _ => (⟨0, 0⟩, ⟨0, 0⟩), ch₂⟩ fuel₂ (proofAt l m' prf) hm₂ h0 h1 h2 (fieldTape l t₂)).2
  generalize Protocol.verify l shakeHash _ _ _ _ = c at hf hA
  rcases c with ⟨c, tc⟩ | _ | _ | _ <;> simp only [FRes] at hf
  obtain ⟨-, rfl, rfl, -⟩ := hf
  exact hA _ _ rfl

/-- If `malloc` fails, `Prove` aborts before it has drawn or written anything of the caller's. -/
theorem C101_malloc (fuel sec prf s : ℕ) (t : Tape Draw) (m : Mem) : proveM l shakeHash fuel sec prf none s t m = .abort := rfl

/-! ## The hypotheses can be met -/

/-- The bytes of an array of `packed_fp2` -/
def flat (xs : List PFp2) : List UInt8 := xs.flatMap fun x => x.real ++ x.imag

theorem flat_length : ∀ xs : List PFp2, (∀ x ∈ xs, x.WF (params l)) → (flat xs).length = xs.length * (2 * fb l)
  | [], _ => by simp [flat]
  | x :: xs, h => by
    have ih := flat_length xs fun y hy => h y (by simp [hy])
    have h1 : x.real.length = fb l ∧ x.imag.length = fb l := h x (by simp)
    have e : flat (x :: xs) = (x.real ++ x.imag) ++ flat xs := by simp [flat]
    rw [e, List.length_append, List.length_append, ih, h1.1, h1.2, List.length_cons, Nat.succ_mul xs.length (2 * fb l)]
    omega

theorem pfsAt_flat {m : Mem} : ∀ (xs : List PFp2) (x : ℕ), (∀ y ∈ xs, y.WF (params l)) → bytesAt m x (xs.length * (2 * fb l)) = flat xs →
    pfsAt l m x xs.length = xs
  | [], x, _, _ => by simp [pfsAt]
  | y :: xs, x, h, hb => by
    have h1 : y.real.length = fb l ∧ y.imag.length = fb l := h y (by simp)
    have e : flat (y :: xs) = y.real ++ (y.imag ++ flat xs) := by simp [flat]
    have el : (y :: xs).length * (2 * fb l) = fb l + (fb l + xs.length * (2 * fb l)) := by rw [List.length_cons, Nat.succ_mul]; omega
    rw [el, e, ← rdBytes_eq, rdBytes_append, rdBytes_append] at hb
    obtain ⟨b1, b2⟩ := List.append_inj hb (by rw [rdBytes_eq, bytesAt_length, h1.1])
    obtain ⟨b2, b3⟩ := List.append_inj b2 (by rw [rdBytes_eq, bytesAt_length, h1.2])
    rw [rdBytes_eq] at b1 b2 b3
    have e2 : x + fb l + fb l = x + sz l := by have := sz_eq (l := l); omega
    rw [e2] at b3
    have ih := pfsAt_flat xs (x + sz l) (fun z hz => h z (by simp [hz])) b3
    rw [← rdPFs_eq] at ih ⊢
    rw [List.length_cons, rdPFs_succ, ih, rdPF_eq, pfAt, b1, b2]

/-- Some memory holds a secret at address 7. -/
theorem exists_generated : ∃ m, Generated l m 7 := by
  obtain ⟨t, sec, t', hg⟩ := (ProtocolProps.c68_generate l ⟨fun _ => (⟨0, 0⟩, ⟨0, 0⟩), []⟩ ⟨List.replicate (fb l) 0, List.replicate (fb l) 0⟩).2.1.2 (by
    have : Protocol.decode l ⟨List.replicate (fb l) 0, List.replicate (fb l) 0⟩ = 0 := by cases l <;> decide +kernel
    rw [this]
    exact rightOrder_zero l)
  have hw : (∀ x ∈ sec.E, x.WF (params l)) ∧ ∀ x ∈ sec.P, x.WF (params l) := by
    have h := hg
    unfold Protocol.generate at h
    obtain ⟨b, u, -, h⟩ := Curve.bind_ok h
    cases b with
    | false => cases h
    | true =>
      simp only [Bool.true_eq_false, if_false] at h
      obtain ⟨c, u, -, h⟩ := Curve.bind_ok h
      cases h
      refine ⟨fun x hx => ?_, fun x hx => ?_⟩ <;> obtain ⟨e, -, rfl⟩ := List.mem_map.1 hx <;> exact ProtocolProps.encode_wf l _
  obtain ⟨-, a₁, hs⟩ := (Protocol.generate_ret l _ _).2 _ _ _ hg sec rfl
  refine ⟨wrBytes 7 (flat sec.E ++ flat sec.P) zeroMem, ⟨fun _ => (⟨0, 0⟩, ⟨0, 0⟩), []⟩, ⟨List.replicate (fb l) 0, List.replicate (fb l) 0⟩, t, t', ?_⟩
  rw [hg]
  obtain ⟨c, -⟩ := wrBytes_bf (s := 0) (x := 7) (flat sec.E ++ flat sec.P) zeroMem
  rw [List.length_append, rdBytes_append] at c
  obtain ⟨c1, c2⟩ := List.append_inj c (by rw [rdBytes_eq, bytesAt_length])
  rw [rdBytes_eq, flat_length _ hw.1] at c1
  rw [rdBytes_eq, flat_length _ hw.1, flat_length _ hw.2] at c2
  have k1 := pfsAt_flat _ _ hw.1 c1
  have k2 := pfsAt_flat _ _ hw.2 c2
  rw [hs.E] at k1 k2
  rw [hs.P] at k2
  rw [secretAt, k1, k2]

/-- Room for everything: the secret at the bottom, the proof behind it, the array above. -/
example (fuel : ℕ) (t : Tape Draw) (ht : TapeLen .l434 t) : ∃ m, Generated .l434 m 7 ∧ proveM .l434 shakeHash fuel 7 1000 (some 30000) 300000 t m ≠ .ub := by
  obtain ⟨m, hg⟩ := exists_generated (l := .l434)
  exact ⟨m, hg, (C101_prove (l := .l434) (s := 300000) (sec := 7) (prf := 1000) (inst := 30000) (by decide) (by decide) (by decide) (by decide)
    (by decide) fuel t ht m hg).1⟩

end Secuer.MemProps
