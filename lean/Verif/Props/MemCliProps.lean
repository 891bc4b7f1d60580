import Verif.CMem.Cli
import Verif.Props.FlipProps
import Verif.Props.CliProps

/-!
# The command-line tools on memory (C104)
-/

set_option maxRecDepth 100000

namespace Secuer.MemProps

open Secuer.Word Secuer.Field Secuer.CMem
open Secuer.Text (PFp2 Resp Proof CResp CProof parse parseFp2 dumpFp2 dumpC andThen)
open Secuer.WCurve (Draw TapeLen fieldTape)
open Secuer.Curve (Pt Crv Out Tape)
open Secuer.Protocol (params Comm Hash inMemory)
open Secuer.ChainProps (RightOrder)
open Secuer.CurveProps (jOf)
open Secuer.ProtocolProps (Valid)
open Secuer.KeccakProps (shakeHash C13_hash)
open Secuer.Cli (World Report)
open Secuer.CliProps (Holds ValidProof Denotes CurvesWritten Fresh StartsFrom)

attribute [local instance] Arith.portable

variable {l : Level}

/-! ## `Parse` -/

theorem bytes_split {m : Mem} {x : ℕ} {A B : List UInt8} (h : bytesAt m x (A ++ B).length = A ++ B) :
    bytesAt m x A.length = A ∧ bytesAt m (x + A.length) B.length = B := by
  rw [List.length_append, ← rdBytes_eq, rdBytes_append] at h
  obtain ⟨h1, h2⟩ := List.append_inj h (by rw [rdBytes_eq, bytesAt_length])
  rw [rdBytes_eq] at h1 h2
  exact ⟨h1, h2⟩

theorem cells_flat (xs : List PFp2) : cells xs = flat xs := rfl

theorem pf_of_bytes {m : Mem} {x : ℕ} {v : PFp2} (hv : v.WF (params l)) (h : bytesAt m x (pfBytes v).length = pfBytes v) : pfAt l m x = v := by
  obtain ⟨h1, h2⟩ := bytes_split (A := v.real) (B := v.imag) h
  have e1 : v.real.length = fb l := hv.1
  have e2 : v.imag.length = fb l := hv.2
  rw [e1] at h1 h2
  rw [e2] at h2
  rw [pfAt, h1, h2]

theorem chain_of_bytes {m : Mem} {x : ℕ} {xs : List PFp2} (hv : ∀ v ∈ xs, v.WF (params l)) (h : bytesAt m x (cells xs).length = cells xs) :
    pfsAt l m x xs.length = xs :=
  pfsAt_flat xs x hv (by rw [← flat_length xs hv]; exact h)

theorem pfBytes_length {v : PFp2} (hv : v.WF (params l)) : (pfBytes v).length = sz l := by
  have e1 : v.real.length = fb l := hv.1
  have e2 : v.imag.length = fb l := hv.2
  have h2 := sz_eq (l := l)
  rw [pfBytes, List.length_append]
  omega

theorem cells_length {xs : List PFp2} (hv : ∀ v ∈ xs, v.WF (params l)) : (cells xs).length = xs.length * sz l := by
  rw [cells_flat, flat_length xs hv, sz_eq]

theorem payload_length {q : Resp} (hq : q.WF (params l)) : (payload q).length ≤ uniSize l := by
  have hul := uni_left (l := l)
  have hub := uni_bottom (l := l)
  cases q with
  | left r2 h3 c =>
    obtain ⟨e1, e2, e3, e4⟩ := hq
    have h := cells_length (l := l) e4
    rw [e3] at h
    simp only [payload, List.length_append, h, e1, e2]
    omega
  | bottom r2 r3 E2 c =>
    obtain ⟨e1, e2, e5, e3, e4⟩ := hq
    have h := cells_length (l := l) e4
    rw [e3] at h
    simp only [payload, List.length_append, h, e1, e2, pfBytes_length e5]
    omega
  | right h2 r3 c =>
    obtain ⟨e1, e2, e3, e4⟩ := hq
    have h := cells_length (l := l) e4
    rw [e3] at h
    simp only [payload, List.length_append, h, e1, e2]
    omega

theorem tagBytes_length (v : Int) : (tagBytes v).length = 4 := by simp [tagBytes]

attribute [local irreducible] byteAt setByte wrBytes bytesAt in
/-- A response that has been stored, and the rest of the memory -/
theorem storeResp_f {s r : ℕ} {q : Resp} (hq : q.WF (params l)) (hr : r + respSize l ≤ 8 * s) (m : Mem) :
    (respAt l (storeResp r q m) r).active = some q ∧ BF s [(r, respSize l)] m (storeResp r q m) := by
  have hul := payload_length hq
  have hus := uniSize_le (l := l) r
  have hu : uni r = r + 4 := rfl
  have htl := tagBytes_length q.tag
  obtain ⟨c1, f1⟩ := wrBytes_bf (s := s) (x := r) (tagBytes q.tag) m
  obtain ⟨c2, f2⟩ := wrBytes_bf (s := s) (x := uni r) (payload q) (wrBytes r (tagBytes q.tag) m)
  rw [htl] at c1 f1
  have c3 := f2.bytes (x := r) (len := 4) (by omega) (by simp [hu])
  rw [c1] at c3
  rw [rdBytes_eq, hu] at c2
  rw [rdBytes_eq] at c3
  refine ⟨?_, (f1.trans f2).mono (le_refl s) ?_⟩
  · rw [storeResp]
    rw [hu]
    rw [hu] at c3
    generalize wrBytes (r + 4) (payload q) (wrBytes r (tagBytes q.tag) m) = m' at c2 c3
    have htag : (respAt l m' r).tag = q.tag := by
      simp only [respAt, c3]
      cases q
      · exact (by decide : (if Scalar.leNat (tagBytes (-1)) < 2147483648 then (Scalar.leNat (tagBytes (-1)) : Int) else (Scalar.leNat (tagBytes (-1)) : Int) - 4294967296) = -1)
      · exact (by decide : (if Scalar.leNat (tagBytes 0) < 2147483648 then (Scalar.leNat (tagBytes 0) : Int) else (Scalar.leNat (tagBytes 0) : Int) - 4294967296) = 0)
      · exact (by decide : (if Scalar.leNat (tagBytes 1) < 2147483648 then (Scalar.leNat (tagBytes 1) : Int) else (Scalar.leNat (tagBytes 1) : Int) - 4294967296) = 1)
    cases q with
    | left r2 h3 c =>
      obtain ⟨e1, e2, e3, e4⟩ := hq
      obtain ⟨b1, b2⟩ := bytes_split (A := r2) c2
      obtain ⟨b2, b3⟩ := bytes_split (A := h3) b2
      have b3 := chain_of_bytes e4 b3
      rw [e1] at b1 b2 b3
      rw [e2] at b2 b3
      rw [e3] at b3
      have htag : (respAt l m' r).tag = -1 := htag
      rw [CResp.active, if_pos htag]
      exact congrArg some (by rw [Resp.left.injEq]; exact ⟨b1, b2, b3⟩)
    | bottom r2 r3 E2 c =>
      obtain ⟨e1, e2, e5, e3, e4⟩ := hq
      obtain ⟨b1, b2⟩ := bytes_split (A := r2) c2
      obtain ⟨b2, b3⟩ := bytes_split (A := r3) b2
      obtain ⟨b3, b4⟩ := bytes_split (A := pfBytes E2) b3
      have b4 := chain_of_bytes e4 b4
      have b3 := pf_of_bytes e5 b3
      rw [pfBytes_length e5] at b4
      rw [e1] at b1 b2 b3 b4
      rw [e2] at b2 b3 b4
      rw [e3, ← sz_eq] at b4
      have htag : (respAt l m' r).tag = 0 := htag
      rw [CResp.active, if_neg (by rw [htag]; decide), if_pos htag]
      exact congrArg some (by rw [Resp.bottom.injEq]; exact ⟨b1, b2, b3, b4⟩)
    | right h2 r3 c =>
      obtain ⟨e1, e2, e3, e4⟩ := hq
      obtain ⟨b1, b2⟩ := bytes_split (A := h2) c2
      obtain ⟨b2, b3⟩ := bytes_split (A := r3) b2
      have b3 := chain_of_bytes e4 b3
      rw [e1] at b1 b2 b3
      rw [e2] at b2 b3
      rw [e3] at b3
      have htag : (respAt l m' r).tag = 1 := htag
      rw [CResp.active, if_neg (by rw [htag]; decide), if_neg (by rw [htag]; decide), if_pos htag]
      exact congrArg some (by rw [Resp.right.injEq]; exact ⟨b1, b2, b3⟩)
  · simp
    omega

theorem storeResps_f {s : ℕ} : ∀ (qs : List Resp) (r : ℕ) (m : Mem), (∀ q ∈ qs, q.WF (params l)) → r + qs.length * respSize l ≤ 8 * s →
    (rdResps l (storeResps l r qs m) r qs.length).map CResp.active = qs.map some ∧ BF s [(r, qs.length * respSize l)] m (storeResps l r qs m)
  | [], r, m, _, _ => ⟨by simp [rdResps], (BF.refl s m).mono (le_refl s) (by simp)⟩
  | q :: qs, r, m, hq, hr => by
    have hn : (q :: qs).length * respSize l = respSize l + qs.length * respSize l := by rw [List.length_cons, Nat.succ_mul, Nat.add_comm]
    rw [hn] at hr ⊢
    obtain ⟨a1, f1⟩ := storeResp_f (l := l) (s := s) (r := r) (q := q) (hq q (by simp)) (by omega) m
    obtain ⟨a2, f2⟩ := storeResps_f (s := s) qs (r + respSize l) (storeResp r q m) (fun q' h => hq q' (by simp [h])) (by omega)
    rw [storeResps]
    refine ⟨?_, (f1.trans f2).mono (le_refl s) ?_⟩
    · rw [List.length_cons, rdResps_succ, List.map_cons, a2, List.map_cons, rdResp_eq]
      congr 1
      rw [← a1]
      refine congrArg _ (respAt_congr ?_)
      have := f2.bytes (x := r) (len := respSize l) (by omega) (by simp)
      rw [rdBytes_eq, rdBytes_eq] at this
      rw [← respSize_eq]
      exact this
    · simp
      omega

/-- What `Parse` has read is in memory, and nothing else has changed. -/
theorem storeProof_f {s prf : ℕ} {p : Proof} (hp : p.WF (params l)) (hb : prf + proofBytes l ≤ 8 * s) (m : Mem) :
    Holds p (proofAt l (storeProof l prf p m) prf) ∧ BF s [(prf, proofBytes l)] m (storeProof l prf p m) := by
  obtain ⟨h0, h1, hn, hr⟩ := hp
  have hz := proofSize_eq (l := l)
  have hz' : proofSize l = sz l + sz l + (params l).reps * respSize l := rfl
  have l0 := pfBytes_length h0
  have l1 := pfBytes_length h1
  obtain ⟨c0, f0⟩ := wrBytes_bf (s := s) (x := prf) (pfBytes p.E0) m
  obtain ⟨c1, f1⟩ := wrBytes_bf (s := s) (x := prf + sz l) (pfBytes p.E1) (wrBytes prf (pfBytes p.E0) m)
  obtain ⟨c2, f2⟩ := storeResps_f (l := l) (s := s) p.resp (prf + sz l + sz l)
    (wrBytes (prf + sz l) (pfBytes p.E1) (wrBytes prf (pfBytes p.E0) m)) hr (by rw [hn]; omega)
  rw [hn] at c2 f2
  rw [l0] at c0 f0
  rw [l1] at c1 f1
  rw [storeProof]
  have d1 := f2.bytes (x := prf + sz l) (len := sz l) (by omega) (by simp)
  rw [c1] at d1
  have d0 := (f1.trans f2).bytes (x := prf) (len := sz l) (by omega) (by simp)
  rw [c0] at d0
  refine ⟨⟨?_, ?_, ?_⟩, ((f0.trans f1).trans f2).mono (le_refl s) ?_⟩
  · exact pf_of_bytes h0 (by rw [l0, ← rdBytes_eq, d0])
  · refine pf_of_bytes h1 ?_
    rw [l1, ← rdBytes_eq]
    have e : prf + 2 * fb l = prf + sz l := by rw [sz_eq]
    rw [e]
    exact d1
  · rw [← rdProof_eq]
    exact c2
  · simp
    omega

theorem inMemory_self {c : CResp} {q : Resp} (h : c.active = some q) : inMemory c q = c := by
  cases q with
  | left r2 h3 chain => obtain ⟨h1, h2, h3, h4⟩ := Protocol.active_left h; subst h2; subst h3; subst h4; rw [inMemory, ← h1]
  | bottom r2 r3 E2 chain =>
    obtain ⟨h1, h2, h3, h4, h5⟩ := Protocol.active_bottom h; subst h2; subst h3; subst h4; subst h5; rw [inMemory, ← h1]
  | right h2 r3 chain => obtain ⟨h1, h2, h3, h4⟩ := Protocol.active_right h; subst h2; subst h3; subst h4; rw [inMemory, ← h1]

theorem zip_self : ∀ {cs : List CResp} {qs : List Resp}, cs.map CResp.active = qs.map some → List.zipWith inMemory cs qs = cs
  | [], _, _ => by simp
  | c :: cs, [], h => by simp at h
  | c :: cs, q :: qs, h => by
    rw [List.map_cons, List.map_cons, List.cons.injEq] at h
    rw [List.zipWith_cons_cons, inMemory_self h.1, zip_self h.2]

theorem parsed_self {p : Proof} {c : CProof} (h : Holds p c) : Cli.parsed c.resp p = c := by
  obtain ⟨h0, h1, h2⟩ := h
  rw [Cli.parsed, zip_self h2, ← h0, ← h1]

theorem mapM_active : ∀ {cs : List CResp} {qs : List Resp}, cs.map CResp.active = qs.map some → cs.mapM CResp.active = some qs
  | [], [], _ => by simp
  | [], q :: qs, h => by simp at h
  | c :: cs, [], h => by simp at h
  | c :: cs, q :: qs, h => by
    rw [List.map_cons, List.map_cons, List.cons.injEq] at h
    simp [List.mapM_cons, h.1, mapM_active h.2]

theorem dumpC_holds {p : Proof} {c : CProof} (h : Holds p c) (f : Text.Sink) : dumpC f c = some (Text.dump f p) := by
  obtain ⟨h0, h1, h2⟩ := h
  rw [dumpC, mapM_active h2, h0, h1]
  rfl

/-! ## `verify.c` -/

/-- A run of the verify tool on memory is a run of the tool of `Cli/Model`; the proof structure lies below the stack. -/
theorem verifyMain_refines {sp prf : ℕ} (hb : prf + proofBytes l ≤ 8 * sp) (fuel : ℕ) (w : World) {t : Tape Draw} (ht : TapeLen l t) (m : Mem)
    {r : Report} {m' : Mem} {t' : Tape Draw} (h : verifyMainM l shakeHash fuel prf sp w t m = .ok ((r, m'), t')) :
    TapeLen l t' ∧ (∀ y < 8 * sp, (y < prf ∨ prf + proofBytes l ≤ y) → bytesAt m' y 1 = bytesAt m y 1) ∧
    ∃ old ch, old.length = (params l).reps ∧ (∀ r ∈ old, CResp.WF (params l) r) ∧ ch.length = (params l).reps ∧
      Cli.verifyMain l shakeHash ⟨fun _ => (⟨0, 0⟩, ⟨0, 0⟩), ch⟩ fuel { w with old := old } (fieldTape l t) = .ok (r, fieldTape l t') := by
  have hW := proofAt_wf (l := l) m prf
  have hlen : (List.replicate (params l).reps (0 : Int)).length = (params l).reps := by simp
  unfold verifyMainM at h
  by_cases hmem : w.memory = false
  · rw [if_pos hmem] at h
    cases h
    refine ⟨ht, fun _ _ _ => rfl, _, _, hW.2.2.1, hW.2.2.2, hlen, ?_⟩
    unfold Cli.verifyMain
    dsimp only
    rw [if_pos hmem]
    rfl
  · rw [if_neg hmem] at h
    match hp : parse (params l) w.stdin with
    | .ub => rw [hp] at h; cases h
    | .fail =>
      rw [hp] at h
      cases h
      refine ⟨ht, fun _ _ _ => rfl, _, _, hW.2.2.1, hW.2.2.2, hlen, ?_⟩
      unfold Cli.verifyMain
      dsimp only
      rw [if_neg hmem, hp]
      rfl
    | .ok p rest =>
      rw [hp] at h
      dsimp only at h
      have hwf := ((Text.C04_parse_language (Protocol.params_supported l) w.stdin rest p).1 hp).1
      obtain ⟨hh, f0⟩ := storeProof_f (l := l) (s := sp) (prf := prf) hwf hb m
      generalize storeProof l prf p m = m₁ at h hh f0
      obtain ⟨⟨b, m₂⟩, t₁, hv, h⟩ := bindT_eq_ok h
      have hf := verifyM_f (l := l) shakeHash (fun n x => (C13_hash n x).1) shake_block (fun _ => (⟨0, 0⟩, ⟨0, 0⟩)) fuel (prf := prf) (s := sp)
        (by rw [proofSize_eq]; exact hb) ht m₁
      rw [rdProof_eq, hv] at hf
      have hc := trits_length m₁ (chalAddr l sp) (params l).reps
      generalize trits m₁ (chalAddr l sp) (params l).reps = ch at hf hc
      have hW := proofAt_wf (l := l) m₁ prf
      generalize hr : Protocol.verify l shakeHash ⟨fun _ => (⟨0, 0⟩, ⟨0, 0⟩), ch⟩ fuel (proofAt l m₁ prf) (fieldTape l t) = c at hf
      rcases c with ⟨c, tc⟩ | _ | _ | _ <;> simp only [FRes] at hf
      obtain ⟨hl, rfl, rfl, f1⟩ := hf
      have hz := proofSize_eq (l := l)
      have hz' : proofSize l = sz l + sz l + (params l).reps * respSize l := rfl
      have e0 : rdPF l m₂ prf = p.E0 := by
        rw [← hh.1, f1.pf (by omega) (by simp), rdPF_eq]
        rfl
      have e1 : rdPF l m₂ (prf + sz l) = p.E1 := by
        rw [← hh.2.1, f1.pf (by omega) (by simp), rdPF_eq]
        show pfAt l m₁ (prf + sz l) = pfAt l m₁ (prf + 2 * fb l)
        rw [sz_eq]
      have key : TapeLen l t' ∧ m' = m₂ ∧ Cli.verifyMain l shakeHash ⟨fun _ => (⟨0, 0⟩, ⟨0, 0⟩), ch⟩ fuel { w with old := (proofAt l m₁ prf).resp }
          (fieldTape l t) = .ok (r, fieldTape l t') := by
        unfold Cli.verifyMain
        dsimp only
        rw [if_neg hmem, hp]
        dsimp only
        rw [parsed_self hh, Curve.bind_eqM hr]
        dsimp only at h
        cases c with
        | false =>
          rw [if_pos rfl] at h ⊢
          cases h
          exact ⟨hl, rfl, rfl⟩
        | true =>
          rw [if_neg (by decide)] at h ⊢
          rw [e0, e1] at h
          rw [hh.1, hh.2.1]
          generalize (andThen (dumpFp2 w.stdout p.E0) fun f => dumpFp2 f p.E1) = d at h ⊢
          rcases d with ⟨_ | _, d⟩
          · rw [if_pos rfl] at h ⊢
            cases h
            exact ⟨hl, rfl, rfl⟩
          · rw [if_neg (by simp)] at h ⊢
            cases h
            exact ⟨hl, rfl, rfl⟩
      obtain ⟨hl, rfl, hk⟩ := key
      refine ⟨hl, fun y hy hn => ?_, _, _, hW.2.2.1, hW.2.2.2, hc, hk⟩
      have := (f0.trans f1).bytes (x := y) (len := 1) (by omega) (by simp; omega)
      rwa [rdBytes_eq, rdBytes_eq] at this

/-- **C104.** The verify tool on memory: it has undefined behaviour only where `Parse` has, its exit status says exactly what happened, it prints the curves
of valid proofs only, and it changes no memory but the proof structure. -/
theorem C104_verify {sp prf : ℕ} (hb : prf + proofBytes l ≤ 8 * sp) (fuel : ℕ) (w : World) (hw : w.stdout.out = []) (t : Tape Draw) (ht : TapeLen l t) (m : Mem) :
    (verifyMainM l shakeHash fuel prf sp w t m = .ub ↔ w.memory = true ∧ parse (params l) w.stdin = .ub) ∧
    ∀ r m' t', verifyMainM l shakeHash fuel prf sp w t m = .ok ((r, m'), t') →
      (r.status = 1 ↔ w.memory = false) ∧
      (r.status = 255 ↔ w.memory = true ∧ ¬ ∃ p, Denotes l w.stdin p) ∧
      (r.status = 2 ↔ w.memory = true ∧ ∃ p, Denotes l w.stdin p ∧ ¬ ValidProof l shakeHash p) ∧
      (r.status = 3 ↔ w.memory = true ∧ ∃ p, Denotes l w.stdin p ∧ ValidProof l shakeHash p ∧ ¬ CurvesWritten w.stdout p) ∧
      (r.status = 0 ↔ w.memory = true ∧ ∃ p, Denotes l w.stdin p ∧ ValidProof l shakeHash p ∧ CurvesWritten w.stdout p) ∧
      (r.status = 0 ∨ r.status = 1 ∨ r.status = 2 ∨ r.status = 3 ∨ r.status = 255) ∧
      (r.status = 1 ∨ r.status = 2 ∨ r.status = 255 → r.out = []) ∧
      (r.status = 0 → r.err = [] ∧ ∀ p, Denotes l w.stdin p → w.atExit = 0 → r.out = Text.Spec.fp2Line p.E0 ++ Text.Spec.fp2Line p.E1) ∧
      ∀ y < 8 * sp, (y < prf ∨ prf + proofBytes l ≤ y) → bytesAt m' y 1 = bytesAt m y 1 := by
  refine ⟨?_, fun r m' t' h => ?_⟩
  · unfold verifyMainM
    by_cases hmem : w.memory = false
    · rw [if_pos hmem, hmem]
      simp
    · rw [if_neg hmem]
      rw [Bool.not_eq_false] at hmem
      match hp : parse (params l) w.stdin with
      | .ub => simp [hmem]
      | .fail => simp
      | .ok p rest =>
        dsimp only
        refine ⟨fun h => absurd h (bindT_ok (Q := fun _ => True) (C99_verify hb fuel t ht _).1 fun q t₁ _ => ⟨?_, fun _ _ => trivial⟩).1, fun h => nomatch h.2⟩
        split
        · simp
        · split <;> simp
  · obtain ⟨-, hf, old, ch, h1, h2, h3, hk⟩ := verifyMain_refines hb fuel w ht m h
    have := CliProps.c54_verify l shakeHash _ h3 fuel { w with old := old } ⟨hw, h1, h2⟩ _ _ _ hk
    obtain ⟨a1, a2, a3, a4, a5, a6, a7, a8⟩ := this
    exact ⟨a1, a2, a3, a4, a5, a6, a7, a8, hf⟩

/-! ## `prove.c` -/

/-- The blocks that `malloc` returns to `prove.c` and to `Prove`: below the stack and apart -/
structure ProverHeap (l : Level) (sp prf : ℕ) (inst : Option ℕ) : Prop where
  below : prf + proofBytes l ≤ 8 * sp
  apart : ∀ a, inst = some a → 8 * a + arrayBytes l ≤ 8 * sp ∧ (prf + proofBytes l ≤ 8 * a ∨ 8 * a + arrayBytes l ≤ prf)

theorem proveFrom_refines {sp E0 sec prf : ℕ} {inst : Option ℕ} (h0 : E0 + 2 * fb l ≤ 8 * sp) (hs : sec + secretBytes l ≤ 8 * sp)
    (hh : ProverHeap l sp prf inst) (hsa : ∀ a, inst = some a → 8 * a + arrayBytes l ≤ sec) (fuel : ℕ) (w : World)
    {t : Tape Draw} (ht : TapeLen l t) (m : Mem) :
    proveFromM l shakeHash fuel E0 sec prf inst sp w t m ≠ .ub ∧
    ∀ q, proveFromM l shakeHash fuel E0 sec prf inst sp w t m = .ok q →
      (∀ y < sec, (y < prf ∨ prf + proofBytes l ≤ y) → (∀ a, inst = some a → y < 8 * a ∨ 8 * a + arrayBytes l ≤ y) → bytesAt q.1.2 y 1 = bytesAt m y 1) ∧
      ∃ ch, ch.length = (params l).reps ∧
        Cli.proveFrom l shakeHash ⟨fun _ => (⟨0, 0⟩, ⟨0, 0⟩), []⟩ ⟨fun _ => (⟨0, 0⟩, ⟨0, 0⟩), ch⟩ fuel w (pfAt l m E0) (fieldTape l t) =
          .ok (q.1.1, fieldTape l q.2) ∧
        ∀ v t₁ p t₂, Protocol.generate l ⟨fun _ => (⟨0, 0⟩, ⟨0, 0⟩), []⟩ (pfAt l m E0) (fieldTape l t) = .ok (some v, t₁) → w.memory = true →
          Protocol.prove l shakeHash ⟨fun _ => (⟨0, 0⟩, ⟨0, 0⟩), ch⟩ fuel v t₁ = .ok (p, t₂) → Holds p (proofAt l q.1.2 prf) := by
  have hg := C100_generate h0 hs t ht m
  have h2 := sz_eq (l := l)
  have hz := secretSize_eq (l := l)
  have hlen : (List.replicate (params l).reps (0 : Int)).length = (params l).reps := by simp
  unfold proveFromM
  refine bindT_ok hg.1 fun q t₁ hq => ?_
  obtain ⟨b, m₁⟩ := q
  obtain ⟨-, f1, -⟩ := hg.2 _ _ _ hq
  have hf := generateM_f (l := l) ⟨fun _ => (⟨0, 0⟩, ⟨0, 0⟩), []⟩ (E0 := E0) (sec := sec) (s := sp) (by omega) (by omega) ht m
  rw [rdPF_eq, hq] at hf
  generalize hr : Protocol.generate l ⟨fun _ => (⟨0, 0⟩, ⟨0, 0⟩), []⟩ (pfAt l m E0) (fieldTape l t) = c at hf
  rcases c with ⟨c, tc⟩ | _ | _ | _ <;> simp only [FRes] at hf
  obtain ⟨hl, rfl, hf⟩ := hf
  rcases c with _ | v
  · obtain ⟨rfl, -⟩ := hf
    rw [if_pos rfl]
    refine ⟨by simp, fun q e => ?_⟩
    cases e
    refine ⟨fun y hy _ _ => f1 y (by omega) (.inl rfl), _, hlen, ?_, fun v t₁ p t₂ e => by cases e⟩
    unfold Cli.proveFrom
    rw [Curve.bind_eqM hr]
    rfl
  · obtain ⟨rfl, rfl, -⟩ := hf
    rw [if_neg (by simp)]
    by_cases hmem : w.memory = false
    · rw [if_pos hmem]
      refine ⟨by simp, fun q e => ?_⟩
      cases e
      refine ⟨fun y hy _ _ => f1 y (by omega) (.inr (.inl hy)), _, hlen, ?_, fun v t₁ p t₂ e hm => by rw [hmem] at hm; cases hm⟩
      unfold Cli.proveFrom
      rw [Curve.bind_eqM hr]
      dsimp only
      rw [if_pos hmem]
      rfl
    · rw [if_neg hmem]
      cases hi : inst with
      | none => exact ⟨by simp [proveM, bindT], fun q e => by simp [proveM, bindT] at e⟩
      | some a =>
        have ha := hh.apart a hi
        have ha' := hsa a hi
        have hb := hh.below
        have hgen : Generated l m₁ sec := C101_generated h0 hs t ht m m₁ t₁ hq m₁ sec rfl
        have hp := C101_prove (l := l) (s := sp) (sec := sec) (prf := prf) (inst := a) hs hb ha.1 (.inr ha') ha.2 fuel t₁ hl m₁ hgen
        dsimp only
        refine bindT_ok hp.1 fun m₂ t₂ hpr => ?_
        obtain ⟨hl₂, ch, p, hc, hpp, e0, e1, e2⟩ := C101_refines (l := l) hs hb ha.1 (.inr ha') ha.2 fuel t₁ hl m₁ m₂ t₂ hpr
        have hH : Holds p (proofAt l m₂ prf) := ⟨e0, e1, e2⟩
        have f2 := (hp.2 _ _ hpr).1
        rw [rdProof_eq, dumpC_holds hH]
        rw [rdSecret_eq] at hr
        have fr : ∀ y < sec, (y < prf ∨ prf + proofBytes l ≤ y) → (∀ a', some a = some a' → y < 8 * a' ∨ 8 * a' + arrayBytes l ≤ y) →
            bytesAt m₂ y 1 = bytesAt m y 1 := fun y hy hn hn' => by
          rw [f2 y (by omega) hn (hn' a rfl), f1 y (by omega) (.inr (.inl hy))]
        have ho : ∀ v t₁' p' t₂', (Out.ok (some (rdSecret l m₁ sec), fieldTape l t₁) : Out (Option Protocol.Secret × Tape l.F)) = .ok (some v, t₁') → w.memory = true →
            Protocol.prove l shakeHash ⟨fun _ => (⟨0, 0⟩, ⟨0, 0⟩), ch⟩ fuel v t₁' = .ok (p', t₂') → Holds p' (proofAt l m₂ prf) := by
          intro v t₁' p' t₂' hv _ hp'
          cases hv
          rw [rdSecret_eq, hpp] at hp'
          cases hp'
          exact hH
        dsimp only
        generalize hd : Text.dump w.stdout p = d
        have hcli : Cli.proveFrom l shakeHash ⟨fun _ => (⟨0, 0⟩, ⟨0, 0⟩), []⟩ ⟨fun _ => (⟨0, 0⟩, ⟨0, 0⟩), ch⟩ fuel w (pfAt l m E0) (fieldTape l t) =
            (if d.1 = false then .ok (Cli.leave w d.2 3 "could not write proof to output file\n", fieldTape l t₂) else .ok (Cli.leave w d.2 0 "", fieldTape l t₂)) := by
          unfold Cli.proveFrom
          rw [Curve.bind_eqM hr]
          dsimp only
          rw [if_neg hmem, Curve.bind_eqM hpp, hd]
          split <;> rfl
        rcases d with ⟨_ | _, d⟩
        · rw [if_pos rfl] at hcli ⊢
          refine ⟨by simp, fun q e => ?_⟩
          cases e
          exact ⟨fr, ch, hc, hcli, ho⟩
        · rw [if_neg (by simp)] at hcli ⊢
          refine ⟨by simp, fun q e => ?_⟩
          cases e
          exact ⟨fr, ch, hc, hcli, ho⟩

theorem initial_iff (args : List String) : Cli.wantsInput args = true ↔ args.head? ≠ some "--initial" := by
  cases args with
  | nil => simp [Cli.wantsInput]
  | cons a as => simp [Cli.wantsInput]

theorem ProverHeap.up {sp sp' prf : ℕ} {inst : Option ℕ} (hh : ProverHeap l sp prf inst) (h : sp ≤ sp') : ProverHeap l sp' prf inst :=
  ⟨by have := hh.below; omega, fun a ha => ⟨by have := (hh.apart a ha).1; omega, (hh.apart a ha).2⟩⟩

/-- A run of the prove tool on memory is a run of the tool of `Cli/Model`. -/
theorem proveMain_refines {sp prf : ℕ} {inst : Option ℕ} (hh : ProverHeap l sp prf inst) (fuel : ℕ) (args : List String) (w : World)
    (t : Tape Draw) (ht : TapeLen l t) (m : Mem) :
    (proveMainM l shakeHash fuel args prf inst sp w t m = .ub ↔ args.head? ≠ some "--initial" ∧ parseFp2 (params l) w.stdin = .ub) ∧
    ∀ q, proveMainM l shakeHash fuel args prf inst sp w t m = .ok q →
      (∀ y < 8 * sp, (y < prf ∨ prf + proofBytes l ≤ y) → (∀ a, inst = some a → y < 8 * a ∨ 8 * a + arrayBytes l ≤ y) → bytesAt q.1.2 y 1 = bytesAt m y 1) ∧
      ∃ ch, ch.length = (params l).reps ∧
        Cli.proveMain l shakeHash ⟨fun _ => (⟨0, 0⟩, ⟨0, 0⟩), []⟩ ⟨fun _ => (⟨0, 0⟩, ⟨0, 0⟩), ch⟩ fuel args w (fieldTape l t) = .ok (q.1.1, fieldTape l q.2) ∧
        (q.1.1.status = 255 ∨ ∃ x, StartsFrom l args w.stdin x ∧
          Cli.proveFrom l shakeHash ⟨fun _ => (⟨0, 0⟩, ⟨0, 0⟩), []⟩ ⟨fun _ => (⟨0, 0⟩, ⟨0, 0⟩), ch⟩ fuel w x (fieldTape l t) = .ok (q.1.1, fieldTape l q.2) ∧
          ∀ v t₁ p t₂, Protocol.generate l ⟨fun _ => (⟨0, 0⟩, ⟨0, 0⟩), []⟩ x (fieldTape l t) = .ok (some v, t₁) → w.memory = true →
            Protocol.prove l shakeHash ⟨fun _ => (⟨0, 0⟩, ⟨0, 0⟩), ch⟩ fuel v t₁ = .ok (p, t₂) → Holds p (proofAt l q.1.2 prf)) := by
  have h2 := sz_eq (l := l)
  have hz := secretSize_eq (l := l)
  have hb := hh.below
  have run := fun m => proveFrom_refines (l := l) (sp := sp + sz l + secretSize l) (E0 := 8 * sp) (sec := 8 * (sp + sz l)) (by omega) (by omega)
    (hh.up (by omega)) (fun a ha => by have := (hh.apart a ha).1; omega) fuel w ht m
  obtain ⟨c0, f0⟩ := wrBytes_bf (s := sp) (x := 8 * sp) (List.replicate (sz l) 0) m
  unfold proveMainM
  dsimp only
  generalize wrBytes (8 * sp) (List.replicate (sz l) 0) m = m₀ at c0 f0 ⊢
  have g0 : ∀ y < 8 * sp, bytesAt m₀ y 1 = bytesAt m y 1 := fun y hy => by
    have := f0.bytes (x := y) (len := 1) (by omega) (by simp; omega)
    rwa [rdBytes_eq, rdBytes_eq] at this
  by_cases hin : Cli.wantsInput args = true
  · have ha := (initial_iff args).1 hin
    rw [if_pos hin]
    match hp : parseFp2 (params l) w.stdin with
    | .ub => exact ⟨by simp [ha], fun q e => by cases e⟩
    | .fail =>
      refine ⟨by simp, fun q e => ?_⟩
      cases e
      refine ⟨fun y hy _ _ => g0 y hy, List.replicate (params l).reps 0, by simp, ?_, .inl rfl⟩
      unfold Cli.proveMain
      rw [if_pos hin, hp]
      rfl
    | .ok v rest =>
      obtain ⟨s, hs, hv, hi⟩ := (Text.reads_fp2 (params l) w.stdin v rest).1 hp
      dsimp only
      obtain ⟨c1, f1⟩ := wrBytes_bf (s := sp) (x := 8 * sp) (pfBytes v) m₀
      generalize wrBytes (8 * sp) (pfBytes v) m₀ = m₁ at c1 f1 ⊢
      have g1 : ∀ y < 8 * sp, bytesAt m₁ y 1 = bytesAt m y 1 := fun y hy => by
        have := f1.bytes (x := y) (len := 1) (by omega) (by simp; omega)
        rw [rdBytes_eq, rdBytes_eq] at this
        rw [this, g0 y hy]
      have hv' : pfAt l m₁ (8 * sp) = v := pf_of_bytes hv (by rw [← rdBytes_eq]; exact c1)
      obtain ⟨r1, r2⟩ := run m₁
      rw [hv'] at r2
      refine ⟨⟨fun h => absurd h r1, fun h => nomatch h.2⟩, fun q e => ?_⟩
      obtain ⟨k1, ch, k2, k3, k4⟩ := r2 q e
      refine ⟨fun y hy hn hn' => by rw [k1 y (by omega) hn hn', g1 y hy], ch, k2, ?_, .inr ⟨v, ?_, k3, k4⟩⟩
      · unfold Cli.proveMain
        rw [if_pos hin, hp]
        exact k3
      · unfold StartsFrom
        rw [if_neg ha]
        exact ⟨hv, s, rest, hs, hi⟩
  · have ha : args.head? = some "--initial" := by
      by_contra h
      exact hin ((initial_iff args).2 h)
    rw [if_neg hin]
    have hzw : (Cli.zeroFp2 l).WF (params l) := ⟨List.length_replicate, List.length_replicate⟩
    have ez : pfBytes (Cli.zeroFp2 l) = List.replicate (sz l) 0 := by
      rw [pfBytes, Cli.zeroFp2, List.replicate_append_replicate, ← Nat.two_mul]
      exact congrArg (fun n => List.replicate n 0) h2
    have hv' : pfAt l m₀ (8 * sp) = Cli.zeroFp2 l := pf_of_bytes hzw (by rw [← rdBytes_eq, ez]; exact c0)
    obtain ⟨r1, r2⟩ := run m₀
    rw [hv'] at r2
    refine ⟨⟨fun h => absurd h r1, fun h => absurd ha h.1⟩, fun q e => ?_⟩
    obtain ⟨k1, ch, k2, k3, k4⟩ := r2 q e
    refine ⟨fun y hy hn hn' => by rw [k1 y (by omega) hn hn', g0 y hy], ch, k2, ?_, .inr ⟨_, ?_, k3, k4⟩⟩
    · unfold Cli.proveMain
      rw [if_neg hin]
      exact k3
    · unfold StartsFrom
      rw [if_pos ha]
      exact ⟨hzw, CliProps.leNat_zeros _, CliProps.leNat_zeros _⟩

/-- **C104.** The prove tool on memory: it has undefined behaviour only where `Parse_Fp2` has, its exit status says what happened, and what it prints is the
proof in memory. -/
theorem C104_prove {sp prf : ℕ} {inst : Option ℕ} (hh : ProverHeap l sp prf inst) (fuel : ℕ) (args : List String) (w : World) (hw : w.stdout.out = [])
    (t : Tape Draw) (ht : TapeLen l t) (m : Mem) :
    (proveMainM l shakeHash fuel args prf inst sp w t m = .ub ↔ args.head? ≠ some "--initial" ∧ parseFp2 (params l) w.stdin = .ub) ∧
    ∀ r m' t', proveMainM l shakeHash fuel args prf inst sp w t m = .ok ((r, m'), t') →
      (r.status = 0 ∨ r.status = 1 ∨ r.status = 2 ∨ r.status = 3 ∨ r.status = 255) ∧
      (r.status = 255 ↔ ¬ ∃ x, StartsFrom l args w.stdin x) ∧
      (r.status = 1 ↔ ∃ x, StartsFrom l args w.stdin x ∧ ¬ RightOrder l (Protocol.decode l x)) ∧
      (r.status = 2 ↔ ∃ x, StartsFrom l args w.stdin x ∧ RightOrder l (Protocol.decode l x) ∧ w.memory = false) ∧
      (r.status = 1 ∨ r.status = 2 ∨ r.status = 255 → r.out = []) ∧
      (r.status = 0 ∨ r.status = 3 → ∃ x p, StartsFrom l args w.stdin x ∧ p.WF (params l) ∧ Holds p (proofAt l m' prf) ∧
        jOf (Protocol.decode l p.E0) = jOf (Protocol.decode l x) ∧
        ((∀ n, w.stdout.fault n = none) → r.status = 0 ∧ (w.atExit = 0 → r.out = Text.Spec.proofText p ∧
          ∀ u, parse (params l) (r.out ++ u) = .ok p (10 :: u)))) ∧
      ∀ y < 8 * sp, (y < prf ∨ prf + proofBytes l ≤ y) → (∀ a, inst = some a → y < 8 * a ∨ 8 * a + arrayBytes l ≤ y) → bytesAt m' y 1 = bytesAt m y 1 := by
  obtain ⟨h1, h2⟩ := proveMain_refines hh fuel args w t ht m
  refine ⟨h1, fun r m' t' h => ?_⟩
  obtain ⟨hf, ch, hc, hm, hx⟩ := h2 _ h
  have hW := proofAt_wf (l := l) m 0
  have hw' : Fresh l { w with old := (proofAt l m 0).resp } := ⟨hw, hW.2.2.1, hW.2.2.2⟩
  obtain ⟨a1, a2, a3, a4, a5, -⟩ := CliProps.c55_prove l shakeHash (fun n x => (C13_hash n x).1) _ _ hc fuel args { w with old := (proofAt l m 0).resp } hw' _ _ _ hm
  refine ⟨a1, a2, a3, a4, a5, fun hs => ?_, hf⟩
  rcases hx with hx | ⟨x, hx, hp, ho⟩
  · have : r.status = 255 := hx
    omega
  · obtain ⟨-, b1, b2, -, b3⟩ := CliProps.proveFrom_spec l shakeHash (fun n x => (C13_hash n x).1) _ _ hc fuel { w with old := (proofAt l m 0).resp } hw' x _ _ _ hp
    obtain ⟨sec, t₁, p, t₂, d1, d2, d3, d4⟩ := b3 hs
    have hmem : w.memory = true := by
      by_contra hn
      rw [Bool.not_eq_true] at hn
      by_cases ho : RightOrder l (Protocol.decode l x)
      · have : r.status = 2 := b2.2 ⟨ho, hn⟩
        omega
      · have : r.status = 1 := b1.2 ho
        omega
    obtain ⟨-, a₁, hse⟩ := (Protocol.generate_ret l _ x).2 _ _ _ d1 sec rfl
    obtain ⟨y, hy, hd⟩ := hse.head
    obtain ⟨x₀, x₁, e0, -, e2, -⟩ := prove_ends shakeHash d1 d2
    rw [hy] at e0
    cases e0
    refine ⟨x, p, hx, d3, ho _ _ _ _ d1 hmem d2, by rw [e2, hd], fun hn => ⟨(d4 hn).1, fun hn' => ⟨(d4 hn).2 hn', fun u => ?_⟩⟩⟩
    rw [(d4 hn).2 hn']
    have := Text.parse_text (Protocol.params_supported l).pos d3 (w := []) (by simp) u
    simpa using this

/-- **C104.** What the prove tool prints, the verify tool accepts, and it prints the curves of that proof, unless a curve of one of the prover's instances is
exceptional (C24). -/
theorem C104_pipeline {sp prf : ℕ} {inst : Option ℕ} (hh : ProverHeap l sp prf inst) {fuel : ℕ} {args : List String} {w : World} (hw : w.stdout.out = [])
    {t : Tape Draw} (ht : TapeLen l t) {m : Mem} {r : Report} {m' : Mem} {t' : Tape Draw}
    (h : proveMainM l shakeHash fuel args prf inst sp w t m = .ok ((r, m'), t')) (hs : r.status = 0) (hnf : ∀ n, w.stdout.fault n = none) (hx : w.atExit = 0)
    {sp₂ prf₂ : ℕ} (hb : prf₂ + proofBytes l ≤ 8 * sp₂) {fuel₂ : ℕ} {w₂ : World} (hw₂ : w₂.stdout.out = []) {t₂ : Tape Draw} (ht₂ : TapeLen l t₂) {m₂ : Mem}
    (hi : ∃ rest, w₂.stdin = r.out ++ rest) (hmem : w₂.memory = true) (hnf₂ : ∀ n, w₂.stdout.fault n = none) (hx₂ : w₂.atExit = 0)
    {r₂ : Report} {m₂' : Mem} {t₂' : Tape Draw} (h₂ : verifyMainM l shakeHash fuel₂ prf₂ sp₂ w₂ t₂ m₂ = .ok ((r₂, m₂'), t₂')) :
    (r₂.status = 0 ∧ r₂.out = Text.Spec.fp2Line (pfAt l m' prf) ++ Text.Spec.fp2Line (pfAt l m' (prf + 2 * fb l))) ∨
      ∃ x sec t₁ vs u, StartsFrom l args w.stdin x ∧ Protocol.generate l ⟨fun _ => (⟨0, 0⟩, ⟨0, 0⟩), []⟩ x (fieldTape l t) = .ok (some sec, t₁) ∧
        Protocol.instances l shakeHash sec (params l).reps t₁ = .ok (vs, u) ∧ ∃ v ∈ vs, ProtocolProps.Exceptional l v.1 := by
  obtain ⟨-, h2⟩ := proveMain_refines hh fuel args w t ht m
  obtain ⟨hf, ch, hc, hm, hx'⟩ := h2 _ h
  have hW := proofAt_wf (l := l) m 0
  have hw' : Fresh l { w with old := (proofAt l m 0).resp } := ⟨hw, hW.2.2.1, hW.2.2.2⟩
  rcases hx' with hx' | ⟨x, hstart, hp, ho⟩
  · have : r.status = 255 := hx'
    omega
  · obtain ⟨-, b1, b2, -, b3⟩ := CliProps.proveFrom_spec l shakeHash (fun n x => (C13_hash n x).1) _ _ hc fuel { w with old := (proofAt l m 0).resp } hw' x _ _ _ hp
    obtain ⟨sec, t₁, p, t₃, d1, d2, d3, d4⟩ := b3 (.inl hs)
    have hmem' : w.memory = true := by
      by_contra hn
      rw [Bool.not_eq_true] at hn
      by_cases ho : RightOrder l (Protocol.decode l x)
      · have : r.status = 2 := b2.2 ⟨ho, hn⟩
        omega
      · have : r.status = 1 := b1.2 ho
        omega
    have hH := ho _ _ _ _ d1 hmem' d2
    have hout : r.out = Text.Spec.proofText p := (d4 hnf).2 hx
    obtain ⟨-, -, old, ch₂, l1, l2, l3, hv⟩ := verifyMain_refines hb fuel₂ w₂ ht₂ m₂ h₂
    have e0 : pfAt l m' prf = p.E0 := hH.1
    have e1 : pfAt l m' (prf + 2 * fb l) = p.E1 := hH.2.1
    rw [e0, e1]
    refine (CliProps.c55_pipeline l shakeHash (fun n x => (C13_hash n x).1) hc l3 d1 d2 { w₂ with old := old } ⟨hw₂, l1, l2⟩ (by rw [← hout]; exact hi) hmem
      hnf₂ hx₂ hv).imp id ?_
    rintro ⟨vs, u, g1, g2⟩
    exact ⟨x, sec, t₁, vs, u, hstart, d1, g1, g2⟩

/-! ## The hypotheses can be met -/

/-- A process with the input `s` -/
def exIn (s : Text.Bytes) : World := ⟨s, Text.emptySink, true, 0, []⟩

/-- The input `0x1` is no proof: the verify tool says so. -/
example (t : Tape Draw) (ht : TapeLen .l434 t) : ∃ r m' t', verifyMainM .l434 shakeHash 9 200 1000000 (exIn (Text.Spec.ascii "0x1")) t zeroMem = .ok ((r, m'), t') ∧
    r.status = 255 ∧ r.out = [] := by
  have hp : proofBytes .l434 ≤ 700000 := by decide +kernel
  have hf : parse (params .l434) (exIn (Text.Spec.ascii "0x1")).stdin = .fail := by decide +kernel
  have h : verifyMainM .l434 shakeHash 9 200 1000000 (exIn (Text.Spec.ascii "0x1")) t zeroMem =
      .ok ((⟨255, [], Cli.bytesOf "please provide proof on stdin\n"⟩, zeroMem), t) := by
    unfold verifyMainM
    rw [if_neg (by decide), hf]
    rfl
  have := (C104_verify (l := .l434) (sp := 1000000) (prf := 200) (by omega) 9 (exIn (Text.Spec.ascii "0x1")) rfl t ht zeroMem).2 _ _ _ h
  exact ⟨_, _, _, h, rfl, this.2.2.2.2.2.2.1 (.inr (.inr rfl))⟩

theorem exHeap : ProverHeap .l434 1000000 200 (some 100000) := by
  have hp : proofBytes .l434 ≤ 700000 := by decide +kernel
  have ha : arrayBytes .l434 ≤ 7000000 := by decide +kernel
  refine ⟨by omega, ?_⟩
  rintro a ⟨⟩
  omega

/-- With `--initial` the prove tool has no undefined behaviour, and it never complains about its input or the curve. -/
example (t : Tape Draw) (ht : TapeLen .l434 t) : proveMainM .l434 shakeHash 9 ["--initial"] 200 (some 100000) 1000000 (exIn []) t zeroMem ≠ .ub ∧
    ∀ r m' t', proveMainM .l434 shakeHash 9 ["--initial"] 200 (some 100000) 1000000 (exIn []) t zeroMem = .ok ((r, m'), t') → r.status = 0 := by
  have h := C104_prove (l := .l434) exHeap 9 ["--initial"] (exIn []) rfl t ht zeroMem
  have hi := CliProps.c55_initial .l434 ["--initial"] [] rfl
  refine ⟨fun e => absurd rfl (h.1.1 e).1, fun r m' t' e => ?_⟩
  obtain ⟨h1, h2, h3, h4, -, h6, -⟩ := h.2 _ _ _ e
  rcases h1 with h1 | h1 | h1 | h1 | h1
  · exact h1
  · obtain ⟨x, hx, hn⟩ := h3.1 h1
    exact absurd (hi.2 x hx).2.2 hn
  · obtain ⟨x, -, -, hn⟩ := h4.1 h1
    cases hn
  · obtain ⟨x, p, -, -, -, -, hk⟩ := h6 (.inr h1)
    exact (hk fun _ => rfl).1
  · exact absurd hi.1 (h2.1 h1)

end Secuer.MemProps
