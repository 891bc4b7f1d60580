import Verif.Props.ThreadedProps

/-!
# C68: `Verify` never hangs

Which proofs are rejected, and on which proofs no run of `Verify` returns: the loops that wait for random points can always be
left, so the only thing that can keep `Verify` from returning is an XOF whose output never carries enough challenges.
-/

namespace Secuer.ProtocolProps

open Secuer.Curve Secuer.Field Secuer.Mont Secuer.Text Secuer.Challenge Secuer.Protocol Secuer.Scalar Secuer.ChainProps
open Secuer.Threads

variable (l : Level)

/-- The end curves pass, every response unpacks, but the output of the XOF never carries enough challenges. -/
def Stuck (H : Hash) (prf : CProof) : Prop :=
  RightOrder l (decode l prf.E0) ∧ RightOrder l (decode l prf.E1) ∧ ∃ os : List (Int × Comm),
    List.Forall₂ (fun r o => ∃ mem, Possible l (unpackResponse l H mem prf.E0 prf.E1 r) (some o)) prf.resp os ∧
    ∀ m, (Spec.tritStream (Spec.firstBlocks (H.block
      (challengeBytes l (decode l prf.E0) (decode l prf.E1) (os.map fun o => (o.2.h2, o.2.h3)))) m)).length < (params l).reps

theorem unpackAll_total (H : Hash) (mem : Mem l) {x₀ x₁ : PFp2} (h0 : RightOrder l (decode l x₀))
    (h1 : RightOrder l (decode l x₁)) : ∀ {rs : List CResp}, (∀ r ∈ rs, r.WF (params l)) →
    Can (unpackAll l H mem x₀ x₁ rs) (fun q => ∀ os, q = some os →
      List.Forall₂ (fun r o => ∃ mem, Possible l (unpackResponse l H mem x₀ x₁ r) (some o)) rs os)
  | [], _ => Can.pure (by rintro _ ⟨⟩; exact .nil)
  | r :: rs, hw => by
    unfold unpackAll
    obtain ⟨s, q, -, hs⟩ := unpackResponse_total l H mem ((rightOrder_iff l).1 h0) ((rightOrder_iff l).1 h1) (hw r (by simp))
    have hc : Can (unpackResponse l H mem x₀ x₁ r) (fun a => a = q) := ⟨s, q, rfl, hs⟩
    refine hc.bind ?_
    intro a ha
    subst ha
    cases a with
    | none => exact Can.pure (by rintro _ ⟨⟩)
    | some o =>
      refine (unpackAll_total H mem h0 h1 fun r hr => hw r (by simp [hr])).bind ?_
      rintro (_ | os) h
      · exact Can.pure (by rintro _ ⟨⟩)
      · refine Can.pure ?_
        rintro _ ⟨⟩
        exact .cons ⟨mem, s.app s, s, hs s⟩ (h os rfl)

/-- Whatever the responses, `Challenge` ends after some number of blocks exactly if the XOF carries enough challenges. -/
theorem challengeM_total {H : Hash} (mem : Mem l) (hm : mem.challs.length = (params l).reps) {j0 j1 : PFp2} {hs : List Comm} {m : ℕ}
    (h : (params l).reps ≤ (Spec.tritStream (Spec.firstBlocks (H.block (challengeInput j0 j1 hs)) m)).length) :
    ∃ fuel ts, challengeM l H mem fuel j0 j1 hs = pure ts := by
  rw [Challenge.tritStream_length] at h
  obtain ⟨fuel, t, k', hf⟩ := (Challenge.C11_finishes_iff (params l).reps (H.block (challengeInput j0 j1 hs)) mem.challs hm).2
    ⟨m, by unfold Spec.goodBytes; omega⟩
  refine ⟨fuel, t, ?_⟩
  unfold challengeM
  rw [hf]

/-- **C68.** `Verify` can return (for some random values, after some number of blocks of the XOF) on every proof in memory,
unless the proof is one for which it computes a challenge from an XOF output that never carries enough of them. -/
theorem c68_returns_iff (H : Hash) (mem : Mem l) (hm : mem.challs.length = (params l).reps) {prf : CProof}
    (hw : prf.WF (params l)) : (∃ fuel t b t', verify l H mem fuel prf t = .ok (b, t')) ↔ ¬ Stuck l H prf := by
  constructor
  · rintro ⟨fuel, t, b, t', h⟩ ⟨r0, r1, os, hos, hst⟩
    unfold verify at h
    obtain ⟨b0, t0, h0, h⟩ := bind_ok h
    have hb0 := (checkedCurve_ret l mem prf.E0).2 _ _ _ h0
    rw [hb0.2 ((rightOrder_iff l).1 r0)] at h
    simp only [Bool.true_eq_false, if_false] at h
    obtain ⟨b1, t1, h1, h⟩ := bind_ok h
    have hb1 := (checkedCurve_ret l mem prf.E1).2 _ _ _ h1
    rw [hb1.2 ((rightOrder_iff l).1 r1)] at h
    simp only [Bool.true_eq_false, if_false] at h
    obtain ⟨q, t2, h2, h⟩ := bind_ok h
    have hq := unpackAll_ret l H mem prf.E0 prf.E1 prf.resp _ _ _ h2
    cases q with
    | none =>
      obtain ⟨r, hr, hn⟩ := hq
      obtain ⟨i, hi, rfl⟩ := List.getElem_of_mem hr
      obtain ⟨mem', ho⟩ := (List.forall₂_iff_get.1 hos).2 i hi (by rw [← hos.length_eq]; exact hi)
      cases possible_unique l H r0 r1 ho hn
    | some os' =>
      obtain ⟨ts, t3, h3, h⟩ := bind_ok h
      cases possible_unique_all l H r0 r1 hos (hq.imp fun r o h => ⟨mem, h⟩)
      obtain ⟨hl, _, k, hts⟩ := (challengeM_ret l H mem hm fuel _ _ _).2 _ _ _ h3
      have := congrArg List.length (hts k le_rfl)
      rw [challenge_bytes, List.map_map, List.length_take, hl] at this
      have := hst k
      simp only [Function.comp_def] at *
      omega
  · intro hst
    suffices h : ∃ fuel, Can (verify l H mem fuel prf) (fun _ => True) by
      obtain ⟨fuel, s, b, -, hs⟩ := h
      exact ⟨fuel, _, b, _, hs s⟩
    obtain ⟨s0, b0, hb0, h0⟩ := checkedCurve_total l mem prf.E0
    obtain ⟨s1, b1, hb1, h1⟩ := checkedCurve_total l mem prf.E1
    have c0 : Can (checkedCurve l mem prf.E0) (fun b => b = b0) := ⟨s0, b0, rfl, h0⟩
    have c1 : Can (checkedCurve l mem prf.E1) (fun b => b = b1) := ⟨s1, b1, rfl, h1⟩
    cases b0 with
    | false => exact ⟨0, c0.bind fun b hb => by subst hb; exact Can.pure trivial⟩
    | true =>
    cases b1 with
    | false => exact ⟨0, c0.bind fun b hb => by subst hb; exact c1.bind fun b hb => by subst hb; exact Can.pure trivial⟩
    | true =>
    have r0 := (rightOrder_iff l).2 (hb0.1 rfl)
    have r1 := (rightOrder_iff l).2 (hb1.1 rfl)
    obtain ⟨s2, q, hq, h2⟩ := unpackAll_total l H mem r0 r1 hw.2.2.2
    have c2 : Can (unpackAll l H mem prf.E0 prf.E1 prf.resp) (fun a => a = q) := ⟨s2, q, rfl, h2⟩
    have step : ∀ fuel, Can (match q with
          | none => pure false
          | some os => do
            let challenge ← challengeM l H mem fuel (encJ l ⟨decode l prf.E0, 1⟩) (encJ l ⟨decode l prf.E1, 1⟩) (os.map Prod.snd)
            pure (decide (challenge = os.map Prod.fst)) : M l.F Bool) (fun _ => True) →
        Can (verify l H mem fuel prf) (fun _ => True) := by
      intro fuel h
      unfold verify
      refine c0.bind fun b hb => ?_
      subst hb
      refine c1.bind fun b hb => ?_
      subst hb
      exact c2.bind fun b hb => by subst hb; exact h
    cases q with
    | none => exact ⟨0, step 0 (Can.pure trivial)⟩
    | some os =>
      have hos := hq os rfl
      obtain ⟨m, hm'⟩ : ∃ m, (params l).reps ≤ (Spec.tritStream (Spec.firstBlocks (H.block
          (challengeInput (encJ l ⟨decode l prf.E0, 1⟩) (encJ l ⟨decode l prf.E1, 1⟩) (os.map Prod.snd))) m)).length := by
        by_contra hno
        push Not at hno
        refine hst ⟨r0, r1, os, hos, fun m => ?_⟩
        have := hno m
        rw [challenge_bytes, List.map_map] at this
        exact this
      obtain ⟨fuel, ts, hch⟩ := challengeM_total l mem hm hm'
      refine ⟨fuel, step fuel ?_⟩
      simp only
      rw [hch]
      exact (Can.pure (Q := fun _ => True) trivial).bind fun _ _ => Can.pure trivial

/-- **C68**, rejection characterised: `Verify` can return false exactly on the proofs that are not valid (and on which it is not
stuck). -/
theorem c68_rejects_iff (H : Hash) (mem : Mem l) (hm : mem.challs.length = (params l).reps) {prf : CProof}
    (hw : prf.WF (params l)) : (∃ fuel t t', verify l H mem fuel prf t = .ok (false, t')) ↔ ¬ Valid l H prf ∧ ¬ Stuck l H prf := by
  constructor
  · rintro ⟨fuel, t, t', h⟩
    refine ⟨fun hv => ?_, (c68_returns_iff l H mem hm hw).1 ⟨_, _, _, _, h⟩⟩
    have := (c15_verdict l H mem hm fuel prf t t' false h).2 hv
    cases this
  · rintro ⟨hv, hs⟩
    obtain ⟨fuel, t, b, t', h⟩ := (c68_returns_iff l H mem hm hw).2 hs
    cases b with
    | false => exact ⟨_, _, _, h⟩
    | true => exact absurd ((c15_verdict l H mem hm fuel prf t t' true h).1 rfl) hv

/-- **C68** for the default build: with any number of workers, `Verify` can return false exactly on the proofs that are not valid
(and on which it is not stuck). -/
theorem c68_threaded_rejects_iff (H : Hash) {n : ℕ} (hn : 1 ≤ n) (hn' : (params l).reps + n < 2 ^ 64) {prf : CProof}
    (hw : prf.WF (params l)) : ThreadedVerify l H n prf false ↔ ¬ Valid l H prf ∧ ¬ Stuck l H prf := by
  let mem : Mem l := ⟨fun _ => (⟨0, 0⟩, ⟨0, 0⟩), List.replicate (params l).reps 0⟩
  have hm : mem.challs.length = (params l).reps := by simp [mem]
  constructor
  · intro h
    refine ⟨fun hv => ?_, ?_⟩
    · have := (c15_threaded l H hn hn' hw false h).2 hv
      cases this
    · rintro ⟨r0, r1, os, hos, hst⟩
      obtain ⟨b0, m0, ⟨t0, t0', h0⟩, h⟩ := h
      have hb0 := (checkedCurve_ret l m0 prf.E0).2 _ _ _ h0
      rw [hb0.2 ((rightOrder_iff l).1 r0)] at h
      rcases h with ⟨h, -⟩ | ⟨-, b1, m1, ⟨t1, t1', h1⟩, h⟩
      · cases h
      have hb1 := (checkedCurve_ret l m1 prf.E1).2 _ _ _ h1
      rw [hb1.2 ((rightOrder_iff l).1 r1)] at h
      rcases h with ⟨h, -⟩ | ⟨-, k, s, hex, hj, h⟩
      · cases h
      obtain ⟨hl, hos'⟩ := (valid_get hw).1 hos
      rcases h with ⟨hok, -⟩ | ⟨hok, os', hlen, hslot, mem', fuel, ts, hmem, ⟨u, u', hts⟩, -⟩
      · have := (C16_verdict_schedule_independent (verdict := fun _ => true) hn hn' ?_ hex hj).2 fun _ _ => rfl
        · rw [hok] at this; cases this
        · rintro i v ⟨r, mem, hr, hv⟩
          have hi : i < os.length := by
            obtain ⟨hi, -⟩ := List.getElem?_eq_some_iff.1 hr
            rw [hl, ← hw.2.2.1]; exact hi
          obtain ⟨mem', ho⟩ := hos' i r _ hr (List.getElem?_eq_getElem hi)
          rw [possible_unique l H r0 r1 hv ho]
          rfl
      · have hos'' : List.Forall₂ (fun r o => ∃ mem, Possible l (unpackResponse l H mem prf.E0 prf.E1 r) (some o)) prf.resp os' := by
          refine (valid_get hw).2 ⟨hlen, fun i r o hr ho => ?_⟩
          obtain ⟨hi, -⟩ := List.getElem?_eq_some_iff.1 ho
          obtain ⟨-, v, hv, ⟨r', mem', hr', hp⟩, -⟩ :=
            C16_success_means_all_processed hn hn' hex hj hok i (by rw [← hlen]; exact hi)
          rw [hslot i o ho] at hv
          cases hv
          rw [hr] at hr'
          cases hr'
          exact ⟨mem', hp⟩
        cases possible_unique_all l H r0 r1 hos hos''
        obtain ⟨hl', _, k, hts⟩ := (challengeM_ret l H mem' hmem fuel _ _ _).2 _ _ _ hts
        have := congrArg List.length (hts k le_rfl)
        rw [challenge_bytes, List.map_map, List.length_take, hl'] at this
        have := hst k
        simp only [Function.comp_def] at *
        omega
  · rintro ⟨hv, hs⟩
    obtain ⟨fuel, t, t', h⟩ := (c68_rejects_iff l H mem hm hw).2 ⟨hv, hs⟩
    unfold verify at h
    obtain ⟨b0, t0, h0, h⟩ := bind_ok h
    cases b0 with
    | false => exact ⟨false, mem, ⟨_, _, h0⟩, .inl ⟨rfl, rfl⟩⟩
    | true =>
    simp only [Bool.true_eq_false, if_false] at h
    obtain ⟨b1, t1, h1, h⟩ := bind_ok h
    cases b1 with
    | false => exact ⟨true, mem, ⟨_, _, h0⟩, .inr ⟨rfl, false, mem, ⟨_, _, h1⟩, .inl ⟨rfl, rfl⟩⟩⟩
    | true =>
    simp only [Bool.true_eq_false, if_false] at h
    have r0 := (rightOrder_iff l).2 (((checkedCurve_ret l mem prf.E0).2 _ _ _ h0).1 rfl)
    have r1 := (rightOrder_iff l).2 (((checkedCurve_ret l mem prf.E1).2 _ _ _ h1).1 rfl)
    have hget : ∀ i, i < (params l).reps → ∃ r, prf.resp[i]? = some r ∧ r.WF (params l) := fun i hi =>
      ⟨_, List.getElem?_eq_getElem (by rw [hw.2.2.1]; exact hi), hw.2.2.2 _ (List.getElem_mem _)⟩
    obtain ⟨k, s, -, hex, hj⟩ := C18_terminates (β := Option (Int × Comm)) (ok := Option.isSome)
      (R := fun i v => ∃ r mem, prf.resp[i]? = some r ∧ Possible l (unpackResponse l H mem prf.E0 prf.E1 r) v) hn' (by
        intro i hi
        obtain ⟨r, hr, hwr⟩ := hget i hi
        obtain ⟨s, q, -, hq⟩ := unpackResponse_total l H mem ((rightOrder_iff l).1 r0) ((rightOrder_iff l).1 r1) hwr
        exact ⟨q, r, mem, hr, _, _, hq s⟩) .init
    obtain ⟨q, t2, h2, h⟩ := bind_ok h
    have hq := unpackAll_ret l H mem prf.E0 prf.E1 prf.resp _ _ _ h2
    refine ⟨true, mem, ⟨_, _, h0⟩, .inr ⟨rfl, true, mem, ⟨_, _, h1⟩, .inr ⟨rfl, k, s, hex, hj, ?_⟩⟩⟩
    cases hok : s.okay with
    | false => exact .inl ⟨rfl, rfl⟩
    | true =>
      have hall := C16_success_means_all_processed hn hn' hex hj hok
      cases q with
      | none =>
        exfalso
        obtain ⟨r, hr, hp⟩ := hq
        obtain ⟨i, hi, rfl⟩ := List.getElem_of_mem hr
        obtain ⟨-, v, hv, ⟨r', mem', hr', hp'⟩, hsome⟩ := hall i (by rw [← hw.2.2.1]; exact hi)
        rw [List.getElem?_eq_getElem hi] at hr'
        cases hr'
        rw [possible_unique l H r0 r1 hp' hp] at hsome
        cases hsome
      | some os =>
        have hos : List.Forall₂ (fun r o => ∃ mem, Possible l (unpackResponse l H mem prf.E0 prf.E1 r) (some o)) prf.resp os :=
          hq.imp fun r o h => ⟨mem, h⟩
        obtain ⟨hl, hos'⟩ := (valid_get hw).1 hos
        obtain ⟨ts, t3, h3, h⟩ := bind_ok h
        refine .inr ⟨rfl, os, hl, ?_, mem, fuel, ts, hm, ⟨_, _, h3⟩, ?_⟩
        · intro i o ho
          obtain ⟨hi, -⟩ := List.getElem?_eq_some_iff.1 ho
          obtain ⟨-, v, hv, ⟨r', mem', hr', hp⟩, -⟩ := hall i (by rw [← hl]; exact hi)
          obtain ⟨mem'', ho'⟩ := hos' i r' o hr' ho
          rw [hv, possible_unique l H r0 r1 hp ho']
        · have := congrArg (fun o => match o with | Out.ok (b, _) => b | _ => true) h
          exact this.symm

/-- **C68.** `Generate` can return on every coefficient, and it can return a secret exactly on those of the right order. -/
theorem c68_generate (mem : Mem l) (x : PFp2) : (∃ t r t', generate l mem x t = .ok (r, t')) ∧
    ((∃ t sec t', generate l mem x t = .ok (some sec, t')) ↔ RightOrder l (decode l x)) ∧
    ((∃ t t', generate l mem x t = .ok (none, t')) ↔ ¬ RightOrder l (decode l x)) := by
  have key : ∀ r t t', generate l mem x t = .ok (r, t') → (r.isSome ↔ RightOrder l (decode l x)) := by
    intro r t t' h
    unfold generate at h
    obtain ⟨b, t0, h0, h⟩ := bind_ok h
    have hb : b = true ↔ Super l.φ l.σ l.p (decode l x) := (checkedCurve_ret l mem x).2 _ _ _ h0
    rw [rightOrder_iff, ← hb]
    cases b with
    | false => simp only [if_true] at h; cases h; simp
    | true =>
      simp only [Bool.true_eq_false, if_false] at h
      obtain ⟨c, t1, h1, h⟩ := bind_ok h
      cases h
      simp
  have yes : RightOrder l (decode l x) → ∃ t sec t', generate l mem x t = .ok (some sec, t') := by
    intro h
    obtain ⟨s, _, ⟨sec, _, rfl, _⟩, hs⟩ := generate_can l mem x ((rightOrder_iff l).1 h)
    exact ⟨_, sec, _, hs s⟩
  have no : ¬ RightOrder l (decode l x) → ∃ t t', generate l mem x t = .ok (none, t') := by
    intro h
    obtain ⟨s, b, hb, hs⟩ := checkedCurve_total l mem x
    have hb' : b = false := by
      cases b with
      | false => rfl
      | true => exact absurd ((rightOrder_iff l).2 (hb.1 rfl)) h
    subst hb'
    refine ⟨s.app s, s, ?_⟩
    unfold generate
    rw [bind_eqM (hs s)]
    rfl
  refine ⟨?_, ⟨?_, yes⟩, ⟨?_, no⟩⟩
  · by_cases h : RightOrder l (decode l x)
    · obtain ⟨t, sec, t', h⟩ := yes h
      exact ⟨_, _, _, h⟩
    · obtain ⟨t, t', h⟩ := no h
      exact ⟨_, _, _, h⟩
  · rintro ⟨t, sec, t', h⟩
    exact (key _ _ _ h).1 rfl
  · rintro ⟨t, t', h⟩ hr
    have := (key _ _ _ h).2 hr
    cases this

/-! #### Examples -/

/-- A hash function that answers `ts` never gets `Verify` stuck. -/
theorem not_stuck {H : Hash} {mem : Mem l} (hm : mem.challs.length = (params l).reps) {fuel : ℕ} {ts : List Int}
    (hH : Answers l H mem fuel ts) (prf : CProof) : ¬ Stuck l H prf := by
  rintro ⟨-, -, os, -, hst⟩
  obtain ⟨k, hk⟩ := hH (challengeBytes l (decode l prf.E0) (decode l prf.E1) (os.map fun o => (o.2.h2, o.2.h3)))
  obtain ⟨k', h⟩ := Challenge.C11_finishes_iff (params l).reps _ mem.challs hm |>.1 ⟨fuel, ts, k, hk⟩
  have := hst k'
  rw [Challenge.tritStream_length] at this
  unfold Spec.goodBytes at h
  omega

/-- A valid proof, and with the same responses a proof that is not valid (its second curve is singular) and one on which `Verify`
is stuck (the XOF puts out `0xff` for ever). -/
example : ∃ (H H' : Hash) (prf prf' : CProof), prf.WF (params l) ∧ prf'.WF (params l) ∧ prf.resp = prf'.resp ∧
    Valid l H prf ∧ ¬ Stuck l H prf ∧ ¬ Valid l H prf' ∧ ¬ Stuck l H prf' ∧ Stuck l H' prf ∧
    prf.resp.map CResp.tag = someTrits l := by
  obtain ⟨H, fuel, ho, hb, hH⟩ := exists_answers l (someMem l) (someMem_challs l) (fun n _ => List.replicate n 0)
    (someTrits_length l) (someTrits_trit l)
  obtain ⟨prf, hw, e0, e1, htag, s, _, rfl, hs⟩ := verify_can l hH (someTrits_length l) (someTrits_trit l)
    ((rightOrder_iff l).1 (rightOrder_zero l)) ((rightOrder_iff l).1 (rightOrder_zero l))
  have hv := (c15_accepts_iff l H (someMem l) (someMem_challs l) hw).1 ⟨_, _, _, hs s⟩
  refine ⟨H, ⟨H.out, fun _ _ => List.replicate 136 255⟩, prf, { prf with E1 := encode l 2 }, hw,
    ⟨hw.1, ⟨leBytes_length _ _, leBytes_length _ _⟩, hw.2.2⟩, rfl, hv, not_stuck l (someMem_challs l) hH _, ?_,
    not_stuck l (someMem_challs l) hH _, ?_, htag⟩
  · rintro ⟨-, ⟨h, -⟩, -⟩
    rw [decode_encode] at h
    norm_num at h
  · obtain ⟨r0, r1, os, hos, -⟩ := hv
    refine ⟨r0, r1, os, hos, fun m => ?_⟩
    have : ∀ m, (Spec.firstBlocks (fun _ : ℕ => List.replicate 136 (255 : UInt8)) m).filter (fun b => decide (Spec.Good b)) = [] := by
      intro m
      rw [List.filter_eq_nil_iff]
      intro b hb
      unfold Spec.firstBlocks at hb
      rw [List.flatMap_def, List.mem_flatten] at hb
      simp only [List.mem_map] at hb
      obtain ⟨_, ⟨_, _, rfl⟩, hb⟩ := hb
      rw [List.eq_of_mem_replicate hb]
      decide
    rw [Challenge.tritStream_length, this]
    cases l <;> decide

/-- The threaded verifier with four workers, on a valid proof. -/
example : ∃ (H : Hash) (prf : CProof), prf.WF (params l) ∧ ThreadedVerify l H 4 prf true ∧ ¬ ThreadedVerify l H 4 prf false := by
  obtain ⟨H, fuel, ho, hb, hH⟩ := exists_answers l (someMem l) (someMem_challs l) (fun n _ => List.replicate n 0)
    (someTrits_length l) (someTrits_trit l)
  obtain ⟨prf, hw, e0, e1, htag, s, _, rfl, hs⟩ := verify_can l hH (someTrits_length l) (someTrits_trit l)
    ((rightOrder_iff l).1 (rightOrder_zero l)) ((rightOrder_iff l).1 (rightOrder_zero l))
  have hv := (c15_accepts_iff l H (someMem l) (someMem_challs l) hw).1 ⟨_, _, _, hs s⟩
  have h4 : (params l).reps + 4 < 2 ^ 64 := by cases l <;> decide
  refine ⟨H, prf, hw, (c67_verify l H (by decide) h4 hw).2 hv, fun h => ?_⟩
  exact ((c68_threaded_rejects_iff l H (by decide) h4 hw).1 h).1 hv

/-- The threaded prover with four workers. -/
example : ∃ (H : Hash) (fuel : ℕ) (sec : Secret) (vs : List (Inst l × Comm)) (prf : Proof),
    ThreadedProve l H 4 (someMem l) fuel sec vs prf ∧ prf.resp.map Resp.tag = someTrits l := by
  obtain ⟨H, fuel, x, sec, prf, t, t₁, t₂, hH, -, -, -, -, hg, hp, htag⟩ := honest_initial l
  have hp' := hp
  obtain ⟨ha, a₁, hs⟩ := (generate_ret l (someMem l) x).2 _ _ _ hg sec rfl
  obtain ⟨x₀, hx0, hd⟩ := hs.head
  obtain ⟨x₁, hx1, rfl⟩ := hs.last
  rw [prove_eq l H _ fuel hx0 hx1] at hp'
  obtain ⟨vs, u₁, hi, -⟩ := bind_ok hp'
  exact ⟨H, fuel, sec, vs, prf, (c67_prove l H (by decide) (by cases l <;> decide) (someMem_challs l) fuel sec vs prf).2
    ⟨_, _, _, hi, hp⟩, htag⟩

end Secuer.ProtocolProps
