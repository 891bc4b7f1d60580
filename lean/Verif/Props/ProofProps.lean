import Verif.Props.ProtocolProps

/-!
# Properties C15 (with threads), C19-C23: accepted proofs, equivalent proofs, what a response discloses

Conventions as in `Verif.Props.ProtocolProps`.
-/

namespace Secuer.ProtocolProps

open Secuer.Protocol Secuer.Curve Secuer.Mont Secuer.Field Secuer.Text Secuer.Scalar Secuer.ChainProps Secuer.CurveProps
open Secuer.Threads (Exec Joined UnpackStep C16_verdict_schedule_independent C16_success_means_all_processed)

variable (l : Level)

/-! ### C15 with the worker pool -/

/-- `Verify` compiled with `THREADING` (`poik.c:1464-1499`, `Verify_Threads` in `poik.c:1345-1385`) can return `b`: the
curve checks and `Challenge` run in the calling thread; in between `n` workers unpack the responses, each call with its
own random values and its own uninitialised memory, interleaved in any way. -/
def ThreadedVerify (H : Hash) (n : ℕ) (prf : CProof) (b : Bool) : Prop :=
  ∃ b₀ mem₀, Possible l (checkedCurve l mem₀ prf.E0) b₀ ∧ ((b₀ = false ∧ b = false) ∨ (b₀ = true ∧
  ∃ b₁ mem₁, Possible l (checkedCurve l mem₁ prf.E1) b₁ ∧ ((b₁ = false ∧ b = false) ∨ (b₁ = true ∧
  ∃ k s, Exec (UnpackStep (params l).reps
      (fun i v => ∃ r mem, prf.resp[i]? = some r ∧ Possible l (unpackResponse l H mem prf.E0 prf.E1 r) v) Option.isSome) n k s ∧
    Joined n s ∧ ((s.okay = false ∧ b = false) ∨ (s.okay = true ∧
  ∃ os : List (Int × Comm), os.length = (params l).reps ∧ (∀ (i : ℕ) o, os[i]? = some o → s.slot i = some (some o)) ∧
  ∃ mem fuel ts, mem.challs.length = (params l).reps ∧
    Possible l (challengeM l H mem fuel (encJ l ⟨decode l prf.E0, 1⟩) (encJ l ⟨decode l prf.E1, 1⟩) (os.map Prod.snd)) ts ∧
    b = decide (ts = os.map Prod.fst)))))))

theorem valid_get {l : Level} {H : Hash} {prf : CProof} (hw : prf.WF (params l)) {os : List (Int × Comm)} :
    List.Forall₂ (fun r o => ∃ mem, Possible l (unpackResponse l H mem prf.E0 prf.E1 r) (some o)) prf.resp os ↔
    os.length = (params l).reps ∧ ∀ (i : ℕ) r o, prf.resp[i]? = some r → os[i]? = some o →
      ∃ mem, Possible l (unpackResponse l H mem prf.E0 prf.E1 r) (some o) := by
  rw [List.forall₂_iff_get]
  constructor
  · rintro ⟨h1, h2⟩
    refine ⟨h1.symm.trans hw.2.2.1, fun i r o hr ho => ?_⟩
    obtain ⟨hi, rfl⟩ := List.getElem?_eq_some_iff.1 hr
    obtain ⟨hj, rfl⟩ := List.getElem?_eq_some_iff.1 ho
    exact h2 i hi hj
  · rintro ⟨h1, h2⟩
    refine ⟨hw.2.2.1.trans h1.symm, fun i hi hj => h2 i _ _ (List.getElem?_eq_getElem hi) (List.getElem?_eq_getElem hj)⟩

/-- **C15** for the default build: the verdict of the threaded verifier is the same, for any number of workers and any
interleaving. -/
theorem c15_threaded (H : Hash) {n : ℕ} (hn : 1 ≤ n) (hn' : (params l).reps + n < 2 ^ 64) {prf : CProof}
    (hw : prf.WF (params l)) (b : Bool) (h : ThreadedVerify l H n prf b) : b = true ↔ Valid l H prf := by
  obtain ⟨b0, m0, ⟨t0, t0', h0⟩, h⟩ := h
  have hb0 := (checkedCurve_ret l m0 prf.E0).2 _ _ _ h0
  rcases h with ⟨rfl, rfl⟩ | ⟨rfl, b1, m1, ⟨t1, t1', h1⟩, h⟩
  · exact ⟨(fun h => by cases h), fun hv => hb0.2 ((rightOrder_iff l).1 hv.1)⟩
  have hb1 := (checkedCurve_ret l m1 prf.E1).2 _ _ _ h1
  rcases h with ⟨rfl, rfl⟩ | ⟨rfl, k, s, hex, hj, h⟩
  · exact ⟨(fun h => by cases h), fun hv => hb1.2 ((rightOrder_iff l).1 hv.2.1)⟩
  have r0 := (rightOrder_iff l).2 (hb0.1 rfl)
  have r1 := (rightOrder_iff l).2 (hb1.1 rfl)
  rcases h with ⟨hok, rfl⟩ | ⟨hok, os, hlen, hslot, mem, fuel, ts, hmem, ⟨u, u', hts⟩, rfl⟩
  · refine ⟨(fun h => by cases h), fun hv => ?_⟩
    obtain ⟨_, _, os, hos, _⟩ := hv
    obtain ⟨hl, hos⟩ := (valid_get hw).1 hos
    have := (C16_verdict_schedule_independent (verdict := fun _ => true) hn hn' ?_ hex hj).2 fun _ _ => rfl
    · rw [hok] at this; exact this
    · rintro i v ⟨r, mem, hr, hv⟩
      have hi : i < os.length := by
        obtain ⟨hi, -⟩ := List.getElem?_eq_some_iff.1 hr
        rw [hl, ← hw.2.2.1]; exact hi
      obtain ⟨mem', ho⟩ := hos i r _ hr (List.getElem?_eq_getElem hi)
      rw [possible_unique l H r0 r1 hv ho]
      rfl
  · have hos : List.Forall₂ (fun r o => ∃ mem, Possible l (unpackResponse l H mem prf.E0 prf.E1 r) (some o)) prf.resp os := by
      refine (valid_get hw).2 ⟨hlen, fun i r o hr ho => ?_⟩
      obtain ⟨hi, -⟩ := List.getElem?_eq_some_iff.1 ho
      obtain ⟨-, v, hv, ⟨r', mem', hr', hp⟩, -⟩ := C16_success_means_all_processed hn hn' hex hj hok i (by rw [← hlen]; exact hi)
      rw [hslot i o ho] at hv
      cases hv
      rw [hr] at hr'
      cases hr'
      exact ⟨mem', hp⟩
    obtain ⟨_, _, hc⟩ := (challengeM_ret l H mem hmem fuel _ _ _).2 _ _ _ hts
    rw [challenge_bytes, List.map_map] at hc
    rw [decide_eq_true_iff]
    constructor
    · rintro rfl
      exact ⟨r0, r1, os, hos, hc⟩
    · rintro ⟨_, _, os', hos', hc'⟩
      cases possible_unique_all l H r0 r1 hos hos'
      exact isChallenge_unique l hc hc'

/-! ### C19: special soundness -/

/-- **C19.** If a left, a bottom and a right response are accepted for the same commitment with respect to the same end
curves, then the curves at the ends of the three chains are known, the hash values of each two of them that were
committed to agree, and either two different hash inputs of the responses collide, or the three chains compose up to
isomorphism to a path from one end curve to the other. -/
theorem c19_special_soundness (H : Hash) {x₀ x₁ : PFp2} (h0 : RightOrder l (decode l x₀)) (h1 : RightOrder l (decode l x₁))
    {rl rb rr : CResp} (wl : rl.WF (params l)) (wb : rb.WF (params l)) (wr : rr.WF (params l)) {c : Comm}
    {ml mb mr : Mem l} (hl : Possible l (unpackResponse l H ml x₀ x₁ rl) (some (-1, c)))
    (hb : Possible l (unpackResponse l H mb x₀ x₁ rb) (some (0, c)))
    (hr : Possible l (unpackResponse l H mr x₀ x₁ rr) (some (1, c))) :
    ∃ a₂ a₂' a₃ a₃' : l.F,
      CyclicIsogeny l (3 ^ (l.iso.e3 * (params l).height)) (decode l x₀) a₂ ∧
      CyclicIsogeny l (2 ^ (l.iso.e2 * (params l).width)) a₂' a₃ ∧
      CyclicIsogeny l (3 ^ (l.iso.e3 * (params l).height)) (decode l x₁) a₃' ∧
      H.out (params l).hash (commitBytes l rl.leftR2 a₂) = H.out (params l).hash (commitBytes l rb.bottomR2 a₂') ∧
      H.out (params l).hash (commitBytes l rb.bottomR3 a₃) = H.out (params l).hash (commitBytes l rr.rightR3 a₃') ∧
      (commitBytes l rl.leftR2 a₂ ≠ commitBytes l rb.bottomR2 a₂' ∨
        commitBytes l rb.bottomR3 a₃ ≠ commitBytes l rr.rightR3 a₃' ∨
        (jOf a₂ = jOf a₂' ∧ jOf a₃ = jOf a₃' ∧ rl.leftR2 = rb.bottomR2 ∧ rb.bottomR3 = rr.rightR3)) := by
  obtain ⟨_, _, hl⟩ := hl
  obtain ⟨_, _, hb⟩ := hb
  obtain ⟨_, _, hr⟩ := hr
  have ol := (unpackResponse_noUB l H ml h0 h1 wl).2 _ _ _ hl _ rfl
  have ob := (unpackResponse_noUB l H mb h0 h1 wb).2 _ _ _ hb _ rfl
  have or := (unpackResponse_noUB l H mr h0 h1 wr).2 _ _ _ hr _ rfl
  clear hl hb hr
  obtain ⟨c2, c3⟩ := c
  generalize e1 : ((-1, ⟨c2, c3⟩) : Int × Comm) = o1 at ol
  generalize e2 : ((0, ⟨c2, c3⟩) : Int × Comm) = o2 at ob
  generalize e3 : ((1, ⟨c2, c3⟩) : Int × Comm) = o3 at or
  cases ol with
  | left a₂ _ _ hi =>
    cases ob with
    | bottom a₂' a₃ _ _ _ _ hi' =>
      cases or with
      | right a₃' _ _ hi'' =>
        simp only [Prod.mk.injEq, Comm.mk.injEq, true_and] at e1 e2 e3
        refine ⟨a₂, a₂', a₃, a₃', hi, hi', hi'', e1.1.symm.trans e2.1, e2.2.symm.trans e3.2, ?_⟩
        by_cases q1 : commitBytes l rl.leftR2 a₂ = commitBytes l rb.bottomR2 a₂'
        · by_cases q2 : commitBytes l rb.bottomR3 a₃ = commitBytes l rr.rightR3 a₃'
          · obtain ⟨u1, u2⟩ := c12_commit_injective l (wl.1.1.trans wb.2.1.1.symm) q1
            obtain ⟨u3, u4⟩ := c12_commit_injective l (wb.2.1.2.1.trans wr.2.2.1.2.1.symm) q2
            exact .inr (.inr ⟨u2, u4, u1, u3⟩)
          · exact .inr (.inl q2)
        · exact .inl q1
      | left => simp at e3
      | bottom => simp at e3
    | left => simp at e2
    | right => simp at e2
  | bottom => simp at e1
  | right => simp at e1

/-- Its hypotheses: three responses for one commitment, with a hash function that is constant (so that the second alternative
of the conclusion, a collision, may hold). -/
example : ∃ (H : Hash) (x₀ x₁ : PFp2) (rl rb rr : CResp) (c : Comm) (m : Mem l), RightOrder l (decode l x₀) ∧
    RightOrder l (decode l x₁) ∧ rl.WF (params l) ∧ rb.WF (params l) ∧ rr.WF (params l) ∧
    Possible l (unpackResponse l H m x₀ x₁ rl) (some (-1, c)) ∧ Possible l (unpackResponse l H m x₀ x₁ rb) (some (0, c)) ∧
    Possible l (unpackResponse l H m x₀ x₁ rr) (some (1, c)) := by
  let H : Hash := ⟨fun n _ => List.replicate n 0, fun _ _ => []⟩
  let m : Mem l := ⟨fun _ => (⟨0, 0⟩, ⟨0, 0⟩), []⟩
  have h0 : RightOrder l (decode l (encode l 0)) := by rw [decode_encode]; exact rightOrder_zero l
  have hs := (rightOrder_iff l).1 h0
  have poss : ∀ {r : CResp} {q}, Can (unpackResponse l H m (encode l 0) (encode l 0) r) (fun o => o = q) →
      Possible l (unpackResponse l H m (encode l 0) (encode l 0) r) q := by
    rintro r q ⟨s, _, rfl, h⟩
    exact ⟨_, _, h s⟩
  obtain ⟨r1, o1, w1, -, c1, e1⟩ := response_can l H m hs hs (c := -1) (.inl rfl)
  obtain ⟨r2, o2, w2, -, c2, e2⟩ := response_can l H m hs hs (c := 0) (.inr (.inl rfl))
  obtain ⟨r3, o3, w3, -, c3, e3⟩ := response_can l H m hs hs (c := 1) (.inr (.inr rfl))
  rw [e1 fun _ _ => rfl] at c1
  rw [e2 fun _ _ => rfl] at c2
  rw [e3 fun _ _ => rfl] at c3
  exact ⟨H, _, _, r1, r2, r3, _, m, h0, h0, w1, w2, w3, poss c1, poss c2, poss c3⟩

/-! ### C20: what the challenge binds -/

theorem opens_lengths (H : Hash) (hH : ∀ n x, (H.out n x).length = n) {a₀ a₁ : l.F} {rs : List CResp}
    (hw : ∀ r ∈ rs, r.WF (params l)) {os : List (Int × Comm)} (h : List.Forall₂ (fun r o => Opens l H a₀ a₁ r o) rs os) :
    ∀ c ∈ os.map (fun o => (o.2.h2, o.2.h3)), c.1.length = (params l).hash ∧ c.2.length = (params l).hash := by
  induction h with
  | nil => simp
  | @cons r o rs os a b ih =>
    intro c hc
    rcases List.mem_cons.1 hc with rfl | hc
    · have w := hw r (by simp)
      cases a with
      | left => exact ⟨hH _ _, w.1.2.1⟩
      | bottom => exact ⟨hH _ _, hH _ _⟩
      | right => exact ⟨w.2.2.1.1, hH _ _⟩
    · exact ih (fun r hr => hw r (by simp [hr])) c hc

/-- **C20.** Two accepted proofs whose challenge inputs agree have isomorphic end curves, the same commitments, and the
same answers `-1, 0, 1`. (`hH`: the hash function returns as many bytes as asked for.) -/
theorem c20_challenge_binds (H : Hash) (hH : ∀ n x, (H.out n x).length = n) {mem mem' : Mem l}
    (hm : mem.challs.length = (params l).reps) (hm' : mem'.challs.length = (params l).reps) {fuel fuel' : ℕ}
    {prf prf' : CProof} (hw : prf.WF (params l)) (hw' : prf'.WF (params l)) {t t₁ u u₁ : Tape l.F}
    (h : verify l H mem fuel prf t = .ok (true, t₁)) (h' : verify l H mem' fuel' prf' u = .ok (true, u₁)) :
    ∃ os os' : List (Int × Comm),
      List.Forall₂ (fun r o => Opens l H (decode l prf.E0) (decode l prf.E1) r o) prf.resp os ∧
      List.Forall₂ (fun r o => Opens l H (decode l prf'.E0) (decode l prf'.E1) r o) prf'.resp os' ∧
      (challengeBytes l (decode l prf.E0) (decode l prf.E1) (os.map fun o => (o.2.h2, o.2.h3)) =
        challengeBytes l (decode l prf'.E0) (decode l prf'.E1) (os'.map fun o => (o.2.h2, o.2.h3)) ↔
      jOf (decode l prf.E0) = jOf (decode l prf'.E0) ∧ jOf (decode l prf.E1) = jOf (decode l prf'.E1) ∧ os = os') := by
  obtain ⟨_, _, os, hlen, hos, hc⟩ := c15_sound l H mem hm fuel hw t t₁ h
  clear hlen
  obtain ⟨_, _, os', hlen, hos', hc'⟩ := c15_sound l H mem' hm' fuel' hw' u u₁ h'
  clear hlen
  refine ⟨os, os', hos, hos', ?_, ?_⟩
  · intro e
    obtain ⟨e1, e2, e3⟩ := c12_challenge_injective l (opens_lengths l H hH hw.2.2.2 hos) (opens_lengths l H hH hw'.2.2.2 hos') e
    rw [e] at hc
    refine ⟨e1, e2, ?_⟩
    have e4 := isChallenge_unique l hc hc'
    clear hc hc' hos hos' e
    induction os generalizing os' with
    | nil => cases os' with
      | nil => rfl
      | cons => simp at e3
    | cons o os ih =>
      cases os' with
      | nil => simp at e3
      | cons o' os' =>
        simp only [List.map_cons, List.cons.injEq, Prod.mk.injEq] at e3 e4
        obtain ⟨i, c2, c3⟩ := o
        obtain ⟨i', c2', c3'⟩ := o'
        obtain ⟨⟨rfl, rfl⟩, e3⟩ := e3
        obtain ⟨rfl, e4⟩ := e4
        rw [ih os' e3 e4]
  · rintro ⟨e1, e2, rfl⟩
    unfold challengeBytes
    rw [e1, e2]

/-- Its hypotheses: an accepted proof (twice); `accepting` gives one for all end curves and tags. -/
example : ∃ (H : Hash) (mem : Mem l) (fuel : ℕ) (prf : CProof) (t t₁ : Tape l.F), (∀ n x, (H.out n x).length = n) ∧
    mem.challs.length = (params l).reps ∧ prf.WF (params l) ∧ verify l H mem fuel prf t = .ok (true, t₁) := by
  let mem : Mem l := ⟨fun _ => (⟨0, 0⟩, ⟨0, 0⟩), List.replicate (params l).reps 0⟩
  have hm : mem.challs.length = (params l).reps := by simp [mem]
  obtain ⟨H, fuel, prf, t, t', hH, _, hw, _, _, _, h⟩ := accepting l mem hm (rightOrder_zero l) (rightOrder_zero l)
    (ts := List.replicate (params l).reps 1) (by simp) (by
      intro c hc
      exact .inr (.inr (List.eq_of_mem_replicate hc)))
  exact ⟨H, mem, fuel, prf, t, t', hH, hm, hw, h⟩

/-! ### C21: residues -/

/-- Two encodings of the same element of `GF(p²)`. -/
def SameResidue (x y : PFp2) : Prop := leNat x.real ≡ leNat y.real [MOD l.p] ∧ leNat x.imag ≡ leNat y.imag [MOD l.p]

/-- Two responses that differ only in how field elements are encoded. -/
structure SameResp (r s : CResp) : Prop where
  tag : r.tag = s.tag
  leftR2 : r.leftR2 = s.leftR2
  leftH3 : r.leftH3 = s.leftH3
  leftChain : List.Forall₂ (SameResidue l) r.leftChain s.leftChain
  bottomR2 : r.bottomR2 = s.bottomR2
  bottomR3 : r.bottomR3 = s.bottomR3
  bottomE2 : SameResidue l r.bottomE2 s.bottomE2
  bottomChain : List.Forall₂ (SameResidue l) r.bottomChain s.bottomChain
  rightH2 : r.rightH2 = s.rightH2
  rightR3 : r.rightR3 = s.rightR3
  rightChain : List.Forall₂ (SameResidue l) r.rightChain s.rightChain

theorem sameResidue_iff {x y : PFp2} : SameResidue l x y ↔ decode l x = decode l y := by
  unfold SameResidue decode
  rw [← ZMod.natCast_eq_natCast_iff, ← ZMod.natCast_eq_natCast_iff]
  constructor
  · rintro ⟨h1, h2⟩; rw [h1, h2]
  · intro h; exact ⟨congrArg QuadraticAlgebra.re h, congrArg QuadraticAlgebra.im h⟩

theorem sameResidue_map {xs ys : List PFp2} (h : List.Forall₂ (SameResidue l) xs ys) :
    xs.map (decode l) = ys.map (decode l) := by
  induction h with
  | nil => rfl
  | cons a _ ih => rw [List.map_cons, List.map_cons, ih, (sameResidue_iff l).1 a]

/-- **C21.** Proofs that differ only in how field elements are encoded are treated alike: same verdict, same randomness
drawn. -/
theorem c21_residues_only (H : Hash) (mem : Mem l) (fuel : ℕ) {prf prf' : CProof} (h0 : SameResidue l prf.E0 prf'.E0)
    (h1 : SameResidue l prf.E1 prf'.E1) (hr : List.Forall₂ (SameResp l) prf.resp prf'.resp) :
    verify l H mem fuel prf = verify l H mem fuel prf' := by
  rw [sameResidue_iff] at h0 h1
  have hu : ∀ r s, SameResp l r s → unpackResponse l H mem prf.E0 prf.E1 r = unpackResponse l H mem prf'.E0 prf'.E1 s := by
    intro r s h
    unfold unpackResponse checkedCurve
    rw [h.tag, h.leftR2, h.leftH3, h.bottomR2, h.bottomR3, h.rightH2, h.rightR3, sameResidue_map l h.leftChain,
      sameResidue_map l h.bottomChain, sameResidue_map l h.rightChain, (sameResidue_iff l).1 h.bottomE2, h0, h1]
  have ha : ∀ rs ss, List.Forall₂ (SameResp l) rs ss →
      unpackAll l H mem prf.E0 prf.E1 rs = unpackAll l H mem prf'.E0 prf'.E1 ss := by
    intro rs ss h
    induction h with
    | nil => rfl
    | cons a _ ih => unfold unpackAll; rw [hu _ _ a, ih]
  unfold verify checkedCurve
  rw [h0, h1, ha _ _ hr]

/-- Every parameter set has such encodings: zero and the prime itself. -/
theorem c21_two_encodings : ∃ x y : PFp2, x ≠ y ∧ x.WF (params l) ∧ y.WF (params l) ∧ SameResidue l x y := by
  refine ⟨⟨leBytes (params l).fpBytes 0, leBytes (params l).fpBytes 0⟩,
    ⟨leBytes (params l).fpBytes l.p, leBytes (params l).fpBytes 0⟩, ?_, ?_, ?_, ?_⟩
  · intro h
    have := congrArg leNat (PFp2.mk.inj h).1
    rw [leNat_leBytes _ _ (p_lt l), leNat_leBytes _ _ (Nat.zero_lt_of_lt (p_lt l))] at this
    revert this
    cases l <;> decide +kernel
  · exact ⟨leBytes_length _ _, leBytes_length _ _⟩
  · exact ⟨leBytes_length _ _, leBytes_length _ _⟩
  · unfold SameResidue
    dsimp only
    rw [leNat_leBytes _ _ (p_lt l), leNat_leBytes _ _ (Nat.zero_lt_of_lt (p_lt l))]
    exact ⟨((Nat.mod_self l.p).trans (Nat.zero_mod _).symm).symm, rfl⟩

/-- Two different proofs to which `c21_residues_only` applies. -/
example (rs : List CResp) : ∃ x y : PFp2, x ≠ y ∧ ∀ (H : Hash) (mem : Mem l) (fuel : ℕ),
    verify l H mem fuel ⟨x, x, rs⟩ = verify l H mem fuel ⟨y, y, rs⟩ := by
  obtain ⟨x, y, hne, -, -, h⟩ := c21_two_encodings l
  refine ⟨x, y, hne, fun H mem fuel => c21_residues_only l H mem fuel h h ?_⟩
  have hx : ∀ v : PFp2, SameResidue l v v := fun v => (sameResidue_iff l).2 rfl
  have hl : ∀ vs : List PFp2, List.Forall₂ (SameResidue l) vs vs := fun vs => by
    induction vs with
    | nil => exact .nil
    | cons v vs ih => exact .cons (hx v) ih
  have : ∀ rs : List CResp, List.Forall₂ (SameResp l) rs rs := fun rs => by
    induction rs with
    | nil => exact .nil
    | cons v vs ih => exact .cons ⟨rfl, rfl, rfl, hl _, rfl, rfl, hx _, hl _, rfl, rfl, hl _⟩ ih
  exact this rs

/-! ### C22: tags -/

/-- **C22.** `Verify` looks at a tag modulo 256 only … -/
theorem c22_tag_mod_256 (H : Hash) (mem : Mem l) (fuel : ℕ) (e0 e1 : PFp2) (rs : List CResp) (f : CResp → Int)
    (hf : ∀ r ∈ rs, f r % 256 = r.tag % 256) :
    verify l H mem fuel ⟨e0, e1, rs.map fun r => { r with tag := f r }⟩ = verify l H mem fuel ⟨e0, e1, rs⟩ := by
  have hu : ∀ r ∈ rs, unpackResponse l H mem e0 e1 { r with tag := f r } = unpackResponse l H mem e0 e1 r := by
    intro r hr
    unfold unpackResponse
    have : int8 (f r) = int8 r.tag := by unfold int8; rw [← Int.emod_bmod, Nat.cast_ofNat, hf r hr, ← Nat.cast_ofNat (n := 256), Int.emod_bmod]
    simp only [this]
  have ha : unpackAll l H mem e0 e1 (rs.map fun r => { r with tag := f r }) = unpackAll l H mem e0 e1 rs := by
    clear hf
    induction rs with
    | nil => rfl
    | cons r rs ih =>
      rw [List.map_cons]
      unfold unpackAll
      rw [hu r (by simp), ih fun r hr => hu r (by simp [hr])]
  unfold verify
  dsimp only
  rw [ha]

/-- A tag 256 more than before. -/
example (H : Hash) (mem : Mem l) (fuel : ℕ) (e0 e1 : PFp2) (r : CResp) :
    verify l H mem fuel ⟨e0, e1, [{ r with tag := r.tag + 256 }]⟩ = verify l H mem fuel ⟨e0, e1, [r]⟩ :=
  c22_tag_mod_256 l H mem fuel e0 e1 [r] (fun r => r.tag + 256) (by intro r _; omega)

/-- … whereas `Dump` has no answer for a tag other than -1, 0, 1 … -/
theorem c22_dump_refuses (f : Sink) (p : CProof) : (dumpC f p = none) ↔ ∃ r ∈ p.resp, ¬ (r.tag = -1 ∨ r.tag = 0 ∨ r.tag = 1) := by
  have key : ∀ rs : List CResp, rs.mapM CResp.active = none ↔ ∃ r ∈ rs, ¬ (r.tag = -1 ∨ r.tag = 0 ∨ r.tag = 1) := by
    intro rs
    induction rs with
    | nil => simp
    | cons r rs ih =>
      rw [List.mapM_cons]
      have ha : r.active = none ↔ ¬ (r.tag = -1 ∨ r.tag = 0 ∨ r.tag = 1) := by
        unfold CResp.active
        by_cases h1 : r.tag = -1
        · simp [h1]
        · by_cases h2 : r.tag = 0
          · simp [h2]
          · by_cases h3 : r.tag = 1 <;> simp [h1, h2, h3]
      simp only [List.mem_cons, exists_eq_or_imp]
      rw [← ha, ← ih]
      cases r.active <;> cases rs.mapM CResp.active <;> simp
  rw [← key]
  unfold dumpC
  cases p.resp.mapM CResp.active <;> simp

/-- … and a proof that was parsed has only those. -/
theorem c22_parsed (s rest : Bytes) (p : Proof) (h : parse (params l) s = .ok p rest) (q : CProof)
    (hq : q.resp.map CResp.active = p.resp.map some) : ∀ r ∈ q.resp, r.tag = -1 ∨ r.tag = 0 ∨ r.tag = 1 := by
  intro r hr
  have : r.active ∈ p.resp.map some := by rw [← hq]; exact List.mem_map_of_mem hr
  obtain ⟨o, -, ho⟩ := List.mem_map.1 this
  by_contra hc
  push Not at hc
  unfold CResp.active at ho
  simp [hc.1, hc.2.1, hc.2.2] at ho

/-! ### C23: what a response discloses -/

/-- **C23.** Each kind of response is determined by the part of the instance it is about (and by the random values drawn,
in the case of the bottom response), whatever the other parts are. -/
theorem c23_response (v v' : Inst l) (c c' : Comm) :
    (v.left = v'.left → v.r2 = v'.r2 → c.h3 = c'.h3 → packResponse l (-1) v c = packResponse l (-1) v' c') ∧
    (v.bottom = v'.bottom → v.E2 = v'.E2 → v.r2 = v'.r2 → v.r3 = v'.r3 →
      packResponse l 0 v c = packResponse l 0 v' c') ∧
    (v.right = v'.right → v.r3 = v'.r3 → c.h2 = c'.h2 → packResponse l 1 v c = packResponse l 1 v' c') := by
  refine ⟨fun h1 h2 h3 => ?_, fun h1 h2 h3 h4 => ?_, fun h1 h2 h3 => ?_⟩
  · simp only [packResponse, if_true, h1, h2, h3]
  · simp only [packResponse, show (0 : Int) ≠ -1 by decide, if_false, if_true, h1, h2, h3, h4]
  · simp only [packResponse, show (1 : Int) ≠ -1 by decide, show (1 : Int) ≠ 0 by decide, if_false, if_true, h1, h2, h3]

/-- The computation draws nothing. -/
def Draws0 {F α : Type} (m : M F α) : Prop := ∀ t a t', m t = .ok (a, t') → t' = t

theorem Draws0.pure {F α : Type} (a : α) : Draws0 (pure a : M F α) := by
  intro t b t' h; cases h; rfl

theorem Draws0.ub {F α : Type} : Draws0 (M.ub : M F α) := by intro t b t' h; cases h

theorem Draws0.lift {F α : Type} (o : Out α) : Draws0 (M.lift o : M F α) := by
  intro t b t' h
  cases o <;> first | (cases h; rfl) | cases h

theorem Draws0.bind {F α β : Type} [Field F] [DecidableEq F] {m : M F α} {k : α → M F β} (hm : Draws0 m) (hk : ∀ a, Draws0 (k a)) :
    Draws0 (m >>= k) := by
  intro t b t' h
  obtain ⟨a, t1, h1, h2⟩ := bind_ok h
  rw [hk a _ _ _ h2, hm _ _ _ h1]

theorem draws0_isogenyB (E : Crv l.F) (K : Pt l.F) (Q : Option (Pt l.F)) : Draws0 (isogenyB l.env false E K Q) := by
  unfold isogenyB
  dsimp only
  split
  · exact Draws0.pure _
  · split
    · exact Draws0.ub
    · exact Draws0.bind (Draws0.pure _) fun _ => Draws0.pure _

theorem draws0_gridRow : ∀ b E K, Draws0 (gridRow l b E K)
  | [], _, _ => Draws0.pure _
  | (_, _) :: rest, _, _ => by
    unfold gridRow
    refine Draws0.bind (Draws0.lift _) fun a => ?_
    split
    · refine Draws0.bind (draws0_isogenyB l _ _ _) fun a => ?_
      split
      · exact Draws0.bind (draws0_gridRow rest _ _) fun _ => Draws0.pure _
      · exact Draws0.ub
    · exact Draws0.ub

theorem draws0_gridLoop : ∀ a b, Draws0 (gridLoop l a b)
  | [], _ => Draws0.pure _
  | (_, _) :: rows, _ => by
    unfold gridLoop
    exact Draws0.bind (draws0_gridRow l _ _ _) fun _ => Draws0.bind (draws0_gridLoop rows _) fun _ => Draws0.pure _

theorem draws0_lastA (b) : Draws0 (lastA l b) := by
  unfold lastA
  split
  · exact Draws0.ub
  · refine Draws0.bind (Draws0.lift _) fun a => ?_
    split
    · exact Draws0.pure _
    · exact Draws0.ub

theorem draws0_lastB (b) : Draws0 (lastB l b) := by
  unfold lastB
  split
  · exact Draws0.ub
  · refine Draws0.bind (draws0_isogenyB l _ _ _) fun a => ?_
    split
    · exact Draws0.pure _
    · exact Draws0.ub

/-- **C23.** What the left response shows - the left chain, `r2`, and what `h2` commits to - is computed from the first
curve of the secret walk and the random values only: two secrets starting at the same curve give the same. -/
theorem c23_left_independent_of_secret (H : Hash) {s s' : Secret} {a a' : PFp2} (ha : s.E.head? = some a)
    (ha' : s'.E.head? = some a') (hd : decode l a = decode l a') {t u u' : Tape l.F} {v v' : Inst l} {c c' : Comm}
    (h : instanceM l H s t = .ok ((v, c), u)) (h' : instanceM l H s' t = .ok ((v', c'), u')) :
    v.left = v'.left ∧ v.E2 = v'.E2 ∧ v.r2 = v'.r2 ∧ v.r3 = v'.r3 ∧ c.h2 = c'.h2 ∧ u = u' := by
  have key : ∀ {s : Secret} {a : PFp2}, s.E.head? = some a → ∀ {u v c}, instanceM l H s t = .ok ((v, c), u) →
      ∃ left t1 E2 r2 t2 r3, randomChainB l.env (params l).height ⟨decode l a, 1⟩ t = .ok (left, t1) ∧
        left.E.getLast? = some E2 ∧ randomHide l (params l).hide t1 = .ok (r2, t2) ∧
        randomHide l (params l).hide t2 = .ok (r3, u) ∧ v.left = left ∧ v.E2 = E2 ∧ v.r2 = r2 ∧ v.r3 = r3 ∧
        c.h2 = hashHiding l H r2 (encJ l E2) := by
    intro s a ha u v c h
    unfold instanceM at h
    obtain ⟨_ | ⟨e, es⟩, ps⟩ := s
    · simp at ha
    · simp only [List.head?_cons, Option.some.injEq] at ha
      subst ha
      dsimp only [List.map_cons] at h
      obtain ⟨left, t1, h1, h⟩ := bind_ok h
      obtain ⟨⟨bottom, right⟩, t2, h2, h⟩ := bind_ok h
      cases draws0_gridLoop l _ _ _ _ _ h2
      obtain ⟨EA, t3, h3, h⟩ := bind_ok h
      cases draws0_lastA l _ _ _ _ h3
      obtain ⟨EB, t4, h4, h⟩ := bind_ok h
      cases draws0_lastB l _ _ _ _ h4
      match hl : left.E.getLast?, h with
      | none, h => cases h
      | some E2, h =>
        obtain ⟨r2, t5, h5, h⟩ := bind_ok h
        obtain ⟨r3, t6, h6, h⟩ := bind_ok h
        cases h
        exact ⟨left, t1, E2, r2, t5, r3, h1, hl, h5, h6, rfl, rfl, rfl, rfl, rfl⟩
  obtain ⟨L, t1, E2, r2, t2, r3, h1, h2, h3, h4, q1, q2, q3, q4, h9⟩ := key ha h
  obtain ⟨L', t1', E2', r2', t2', r3', h1', h2', h3', h4', q1', q2', q3', q4', h9'⟩ := key ha' h'
  rw [← hd, h1] at h1'
  cases h1'
  rw [h2] at h2'
  cases h2'
  rw [h3] at h3'
  cases h3'
  rw [h4] at h4'
  cases h4'
  simp [*]

end Secuer.ProtocolProps
