import Verif.Curve.Can4
import Verif.Protocol.Complete

/-!
# Runs of the protocol that succeed exist

`Generate` and `Prove` can return, and for every sequence of challenges there is a hash function and a proof with these
challenges that `Verify` accepts. So the theorems about runs that return are not empty.
-/

namespace Secuer.Protocol

open Secuer.Curve Secuer.Field Secuer.Mont Secuer.Text Secuer.Challenge Secuer.Scalar
open Secuer.ChainProps (RightOrder rightOrder_iff)

variable (l : Level)

theorem expo2_le : l.env.e2 ≤ 9998 := by cases l <;> decide
theorem expo3_le : l.env.e3 ≤ 9998 := by cases l <;> decide
theorem po_full : l.po (2 * l.env.e2) l.env.e3 = true := by cases l <;> decide +kernel
theorem po_none : l.po 0 0 = false := by cases l <;> decide +kernel

theorem checkedCurve_can (mem : Mem l) (x : PFp2) (h : Super l.φ l.σ l.p (decode l x)) :
    Can (checkedCurve l mem x) (fun b => b = true) :=
  checkCurve_can l.setting l.three_ne l.po _ (expo_pos l.setting.good (ℓ := 2) (Or.inl rfl))
    (expo_pos l.setting.good (ℓ := 3) (Or.inr rfl)) (po_full l) (po_none l) h

theorem four_ne_one : (2 : l.F) ^ (l.p + 1) ≠ 1 := by
  have h : (2 : l.F) ^ l.p = 2 := by
    have := congrArg (algebraMap (ZMod l.p) l.F) (ZMod.pow_card (2 : ZMod l.p))
    rwa [map_pow, map_ofNat] at this
  rw [pow_succ, h]
  intro h
  exact l.three_ne (by linear_combination h)

/-- `Check_Curve` can return on every coefficient. -/
theorem checkedCurve_total (mem : Mem l) (x : PFp2) : Can (checkedCurve l mem x) (fun b => b = true ↔ Super l.φ l.σ l.p (decode l x)) :=
  ((checkCurve_total l.setting l.three_ne (four_ne_one l) (Secuer.ChainProps.card_F l) (by have := l.p_big; omega) l.po mem.pts
    (po_full l) (po_none l) (decode l x) fun h h' => (rightOrder_iff l).1 ⟨h, h'⟩).and (checkedCurve_ret l mem x).2).mono fun _ h => h.2

/-- `Generate` can return a secret from every start curve of the right order. -/
theorem generate_can (mem : Mem l) (E0 : PFp2) (h : Super l.φ l.σ l.p (decode l E0)) :
    Can (generate l mem E0) (fun r => ∃ sec a₁, r = some sec ∧ SecretOK l (decode l E0) a₁ sec) := by
  refine Can.mono (Can.and (Q := fun r => ∃ sec, r = some sec) ?_ (generate_ret l mem E0).2) ?_
  · unfold generate
    refine (checkedCurve_can l mem E0 h).bind ?_
    rintro _ rfl
    simp only [Bool.true_eq_false, if_false]
    refine (randomChainA_can l.setting l.three_ne (three_K l) (expo2_le l) (params l).width (on_one (decode l E0)) h).bind ?_
    intro c _
    exact Can.pure ⟨_, rfl⟩
  · rintro _ ⟨⟨sec, rfl⟩, h⟩
    obtain ⟨_, a₁, hs⟩ := h sec rfl
    exact ⟨sec, a₁, rfl, hs⟩

theorem randomHide_can (n : ℕ) : Can (randomHide l n) (fun _ => True) := by
  refine ⟨⟨[], [List.replicate n 0], []⟩, List.replicate n 0, trivial, fun t => ?_⟩
  simp only [randomHide, Tape.app, List.cons_append, List.nil_append, List.length_replicate, if_true]

theorem instanceM_can (H : Hash) {sec : Secret} {a₀ a₁ : l.F} (h : SecretOK l a₀ a₁ sec) (ha : Super l.φ l.σ l.p a₀) :
    Can (instanceM l H sec) (fun r => InstOK l H a₀ a₁ r.1 r.2) := by
  refine Can.mono (Can.and (Q := fun _ => True) ?_ (instanceM_ret l H h ha).2) fun _ h => h.2
  have hS := l.setting
  have h3 := three_K l
  obtain ⟨x, hx, hxa⟩ := h.head
  obtain ⟨G, hw⟩ := h.walk
  obtain ⟨xs, hxs⟩ : ∃ xs, sec.E = x :: xs := by
    cases hs : sec.E with
    | nil => simp [hs] at hx
    | cons y ys => simp [hs] at hx; exact ⟨ys, by rw [hx]⟩
  unfold instanceM
  simp only [hxs, List.map_cons] at hw ⊢
  have hon : On (⟨decode l x, 1⟩ : Crv l.F) a₀ := by rw [← hxa]; exact on_one _
  refine (randomChainB_can hS l.three_ne h3 (expo3_le l) (params l).height hon ha).bind ?_
  rintro left ⟨c1, c2, c3, a₂, gL, hwl, E2, hE2, honE2⟩
  obtain ⟨bottom, right, a₃, gB, gR, g1, g2, g3, g4, g5⟩ := gridLoop_walk l hwl _ a₁ G ha hw (by simp)
  rw [g1]
  have e5 := hwl.super hS ha
  have e6 := hw.super hS ha
  have hbl : bottom.length = (params l).width := by
    have hE := h.E
    rw [hxs] at hE
    rw [g2, List.length_zip, List.length_cons, List.length_map, List.length_map, h.P]
    simp at hE
    omega
  have hrl : right.length = (params l).height := by
    rw [g3, List.length_zip, c1, c2]; omega
  have hpw := params_width l
  have hph := params_height l
  obtain ⟨EA, hEA, honA⟩ := lastA_walk l g4 e5 (by intro h0; rw [h0] at hbl; simp at hbl; omega)
  obtain ⟨EB, hEB, honB⟩ := lastB_walk l g5 e6 (by intro h0; rw [h0] at hrl; simp at hrl; omega)
  change Can (lastA l bottom >>= _) _
  rw [hEA]
  change Can (lastB l right >>= _) _
  rw [hEB]
  simp only [hE2]
  change Can (randomHide l _ >>= _) _
  refine (randomHide_can l _).bind ?_
  intro r2 _
  refine (randomHide_can l _).bind ?_
  intro r3 _
  exact Can.pure trivial

theorem instances_can (H : Hash) {sec : Secret} {a₀ a₁ : l.F} (h : SecretOK l a₀ a₁ sec) (ha : Super l.φ l.σ l.p a₀) (n : ℕ) :
    Can (instances l H sec n) (fun vs => vs.length = n ∧ ∀ v ∈ vs, InstOK l H a₀ a₁ v.1 v.2) := by
  refine Can.mono (Can.and (Q := fun _ => True) ?_ (instances_ret l H h ha n).2) fun _ h => h.2
  induction n with
  | zero => exact Can.pure trivial
  | succ n ih =>
    unfold instances
    refine (instanceM_can l H h ha).bind ?_
    intro v _
    refine ih.bind ?_
    intro vs _
    exact Can.pure trivial

theorem packResponse_can (H : Hash) {a₀ a₁ : l.F} (h0 : Super l.φ l.σ l.p a₀) (h1 : Super l.φ l.σ l.p a₁)
    {v : Inst l} {c : Comm} (hv : InstOK l H a₀ a₁ v c) {ch : Int} (hch : Spec.Trit ch) :
    Can (packResponse l ch v c) (fun _ => True) := by
  have hS := l.setting
  obtain ⟨a₂, a₃, gL, gB, gR, on2, on3, wL, wB, wR⟩ := hv.walks
  have s2 := wL.super hS h0
  unfold packResponse
  rcases hch with rfl | rfl | rfl
  · simp only [if_true]
    exact (packChainB_can hS _ _ wL h0).bind fun _ _ => Can.pure trivial
  · simp only [show ¬ ((0 : Int) = -1) by norm_num, if_false, if_true]
    rw [packCurve_on l on2 s2, lift_ok_bind]
    exact (packChainA_can hS _ _ wB s2).bind fun _ _ => Can.pure trivial
  · simp only [show ¬ ((1 : Int) = -1) by norm_num, show ¬ ((1 : Int) = 0) by norm_num, if_false, if_true]
    exact (packChainB_can hS _ _ wR h1).bind fun _ _ => Can.pure trivial

theorem packAll_can (H : Hash) {a₀ a₁ : l.F} (h0 : Super l.φ l.σ l.p a₀) (h1 : Super l.φ l.σ l.p a₁) : ∀ (chs : List Int)
    (vs : List (Inst l × Comm)), (∀ c ∈ chs, Spec.Trit c) → (∀ v ∈ vs, InstOK l H a₀ a₁ v.1 v.2) →
    Can (packAll l chs vs) (fun _ => True)
  | [], _, _, _ => by unfold packAll; exact Can.pure trivial
  | _ :: _, [], _, _ => by unfold packAll; exact Can.pure trivial
  | ch :: chs, v :: vs, hc, hv => by
    unfold packAll
    refine (packResponse_can l H h0 h1 (hv v (by simp)) (hc ch (by simp))).bind ?_
    intro r _
    refine (packAll_can H h0 h1 chs vs (fun c h => hc c (by simp [h])) (fun w h => hv w (by simp [h]))).bind ?_
    intro rs _
    exact Can.pure trivial

/-- A hash function whose challenges are always `ts`. -/
def Answers (H : Hash) (mem : Mem l) (fuel : ℕ) (ts : List Int) : Prop :=
  ∀ input, ∃ k, Challenge.challenge (params l).reps (H.block input) fuel mem.challs = .finished ts k

/-- Every sequence of challenges is answered by some hash function with blocks of the right length. -/
theorem exists_answers (mem : Mem l) (hm : mem.challs.length = (params l).reps) (out : ℕ → Bytes → Bytes) {ts : List Int}
    (hl : ts.length = (params l).reps) (ht : ∀ c ∈ ts, Spec.Trit c) :
    ∃ (H : Hash) (fuel : ℕ), H.out = out ∧ (∀ x i, (H.block x i).length = 136) ∧ Answers l H mem fuel ts := by
  obtain ⟨blocks, fuel, k, hb, hc⟩ := C10_challenge_reachable (params l).reps ts mem.challs hm hl ht
  exact ⟨⟨out, fun _ => blocks⟩, fuel, rfl, fun _ i => hb i, fun _ => ⟨k, hc⟩⟩

theorem challengeM_can {H : Hash} {mem : Mem l} {fuel : ℕ} {ts : List Int} (h : Answers l H mem fuel ts) (j0 j1 : PFp2)
    (hs : List Comm) : challengeM l H mem fuel j0 j1 hs = pure ts := by
  unfold challengeM
  obtain ⟨k, hk⟩ := h (challengeInput j0 j1 hs)
  rw [hk]

/-- `Prove` can return a proof for every secret that `Generate` returns. -/
theorem prove_can {H : Hash} {mem : Mem l} {fuel : ℕ} {ts : List Int} (hH : Answers l H mem fuel ts)
    (ht : ∀ c ∈ ts, Spec.Trit c) {sec : Secret} {a₀ a₁ : l.F} (h : SecretOK l a₀ a₁ sec) (ha : Super l.φ l.σ l.p a₀) :
    Can (prove l H mem fuel sec) (fun _ => True) := by
  have hi := instances_can l H h ha (params l).reps
  obtain ⟨G, hw⟩ := h.walk
  have h1 := hw.super l.setting ha
  obtain ⟨x₀, hx0, rfl⟩ := h.head
  obtain ⟨x₁, hx1, rfl⟩ := h.last
  rw [prove_eq l H mem fuel hx0 hx1]
  refine hi.bind ?_
  rintro vs ⟨_, hv⟩
  unfold respond
  rw [challengeM_can l hH]
  refine (Can.pure (Q := fun c => c = ts) rfl).bind ?_
  rintro _ rfl
  rw [packCurve_on l (on_one _) ha, lift_ok_bind, packCurve_on l (on_one _) h1, lift_ok_bind]
  exact (packAll_can l H ha h1 _ vs ht hv).bind fun _ _ => Can.pure trivial

/-! ### The verifier -/

theorem encode_wf (v : l.F) : (encode l v).WF (params l) := by
  simp [encode, PFp2.WF, leBytes_length]

/-- A response of every kind that unpacks. -/
theorem response_can (H : Hash) (mem : Mem l) {x₀ x₁ : PFp2} (h0 : Super l.φ l.σ l.p (decode l x₀))
    (h1 : Super l.φ l.σ l.p (decode l x₁)) {c : Int} (hc : Spec.Trit c) :
    ∃ (r : CResp) (o : Comm), r.WF (params l) ∧ r.tag = c ∧
      Can (unpackResponse l H mem x₀ x₁ r) (fun q => q = some (c, o)) ∧
      ((∀ n x, H.out n x = List.replicate n 0) → o = ⟨List.replicate (params l).hash 0, List.replicate (params l).hash 0⟩) := by
  have hph := params_height l
  have hpw := params_width l
  have kB := fun {a : l.F} (ha : Super l.φ l.σ l.p a) => unpackChainB_can l.setting l.three_ne (three_K l) (expo3_le l) l.po mem.pts
    (po_full l) (po_none l) ha ((params l).height - 1)
  have kA := fun {a : l.F} (ha : Super l.φ l.σ l.p a) => unpackChainA_can l.setting l.three_ne (three_K l) (expo2_le l) l.po mem.pts
    (po_full l) (po_none l) ha ((params l).width - 1)
  obtain ⟨as, hal, s, _, ⟨Ea, rfl⟩, ha⟩ := kB h0
  obtain ⟨bs, hbl, s', _, ⟨Eb, rfl⟩, hb⟩ := kA h0
  obtain ⟨cs, hcl, s'', _, ⟨Ec, rfl⟩, hcc⟩ := kB h1
  let z : Bytes := List.replicate (params l).hide 0
  let y : Bytes := List.replicate (params l).hash 0
  let r : CResp := ⟨c, z, y, as.map (encode l), z, z, encode l (decode l x₀), bs.map (encode l), y, z, cs.map (encode l)⟩
  have hwf : r.WF (params l) := by
    have he : ∀ L : List l.F, ∀ v ∈ L.map (encode l), v.WF (params l) := by
      intro L v hv
      obtain ⟨w, _, rfl⟩ := List.mem_map.1 hv
      exact encode_wf l w
    refine ⟨⟨by simp [r, z], by simp [r, y], ?_, he _⟩, ⟨by simp [r, z], by simp [r, z], encode_wf l _, ?_, he _⟩,
      ⟨by simp [r, y], by simp [r, z], ?_, he _⟩, ?_, ?_⟩
    · simp only [r, List.length_map, hal]; omega
    · simp only [r, List.length_map, hbl]; omega
    · simp only [r, List.length_map, hcl]; omega
    · rcases hc with rfl | rfl | rfl <;> norm_num [r]
    · rcases hc with rfl | rfl | rfl <;> norm_num [r]
  rcases hc with rfl | rfl | rfl
  · refine ⟨r, ⟨hashHiding l H z (encJ l Ea), y⟩, hwf, rfl, ?_, fun hz => by simp [hashHiding, hz, y]⟩
    unfold unpackResponse
    simp only [r, map_decode_encode, show int8 (-1) = -1 from rfl, if_true]
    refine Can.bind (Q := fun q => q = some Ea) ⟨s, _, rfl, ha⟩ ?_
    rintro _ rfl
    exact Can.pure rfl
  · refine ⟨r, ⟨hashHiding l H z (encJ l ⟨decode l x₀, 1⟩), hashHiding l H z (encJ l Eb)⟩, hwf, rfl, ?_, fun hz => by simp [hashHiding, hz, y]⟩
    unfold unpackResponse
    simp only [r, map_decode_encode, decode_encode, show int8 0 = 0 from rfl, show ¬ ((0 : Int) = -1) by norm_num, if_false, if_true]
    refine (checkedCurve_can l mem _ (by rw [decode_encode]; exact h0)).bind ?_
    rintro _ rfl
    simp only [Bool.true_eq_false, if_false]
    refine Can.bind (Q := fun q => q = some Eb) ⟨s', _, rfl, hb⟩ ?_
    rintro _ rfl
    exact Can.pure rfl
  · refine ⟨r, ⟨y, hashHiding l H z (encJ l Ec)⟩, hwf, rfl, ?_, fun hz => by simp [hashHiding, hz, y]⟩
    unfold unpackResponse
    simp only [r, map_decode_encode, show int8 1 = 1 from rfl,
      show ¬ ((1 : Int) = -1) by norm_num, show ¬ ((1 : Int) = 0) by norm_num, if_false, if_true]
    refine Can.bind (Q := fun q => q = some Ec) ⟨s'', _, rfl, hcc⟩ ?_
    rintro _ rfl
    exact Can.pure rfl

theorem responses_can (H : Hash) (mem : Mem l) {x₀ x₁ : PFp2} (h0 : Super l.φ l.σ l.p (decode l x₀))
    (h1 : Super l.φ l.σ l.p (decode l x₁)) : ∀ {ts : List Int}, (∀ c ∈ ts, Spec.Trit c) →
    ∃ (rs : List CResp) (os : List (Int × Comm)), (∀ r ∈ rs, r.WF (params l)) ∧ rs.map CResp.tag = ts ∧ os.map Prod.fst = ts ∧
      Can (unpackAll l H mem x₀ x₁ rs) (fun q => q = some os)
  | [], _ => ⟨[], [], by simp, rfl, rfl, by unfold unpackAll; exact Can.pure rfl⟩
  | c :: ts, h => by
    obtain ⟨r, o, hr, ht, hcan, -⟩ := response_can l H mem h0 h1 (h c (by simp))
    obtain ⟨rs, os, hrs, hts, hos, hcans⟩ := responses_can H mem h0 h1 (ts := ts) fun c hc => h c (by simp [hc])
    refine ⟨r :: rs, (c, o) :: os, ?_, by simp [ht, hts], by simp [hos], ?_⟩
    · intro w hw
      rcases List.mem_cons.1 hw with rfl | hw
      · exact hr
      · exact hrs w hw
    · unfold unpackAll
      refine hcan.bind ?_
      rintro _ rfl
      simp only
      refine hcans.bind ?_
      rintro _ rfl
      exact Can.pure rfl

/-- For all end curves of the right order and all challenges there is a proof, with these challenges as its tags, that
`Verify` can accept if the hash function answers with these challenges. -/
theorem verify_can {H : Hash} {mem : Mem l} {fuel : ℕ} {ts : List Int} (hH : Answers l H mem fuel ts)
    (hl : ts.length = (params l).reps) (ht : ∀ c ∈ ts, Spec.Trit c) {a₀ a₁ : l.F} (h0 : Super l.φ l.σ l.p a₀)
    (h1 : Super l.φ l.σ l.p a₁) : ∃ prf : CProof, prf.WF (params l) ∧ decode l prf.E0 = a₀ ∧ decode l prf.E1 = a₁ ∧
      prf.resp.map CResp.tag = ts ∧ Can (verify l H mem fuel prf) (fun b => b = true) := by
  have h0' : Super l.φ l.σ l.p (decode l (encode l a₀)) := by rw [decode_encode]; exact h0
  have h1' : Super l.φ l.σ l.p (decode l (encode l a₁)) := by rw [decode_encode]; exact h1
  obtain ⟨rs, os, hw, hts, hos, hcan⟩ := responses_can l H mem h0' h1' ht
  refine ⟨⟨encode l a₀, encode l a₁, rs⟩, ⟨encode_wf l _, encode_wf l _, ?_, hw⟩, decode_encode l _, decode_encode l _, hts, ?_⟩
  · rw [← hl, ← hts, List.length_map]
  · unfold verify
    refine (checkedCurve_can l mem _ h0').bind ?_
    rintro _ rfl
    simp only [Bool.true_eq_false, if_false]
    refine (checkedCurve_can l mem _ h1').bind ?_
    rintro _ rfl
    simp only [Bool.true_eq_false, if_false]
    refine hcan.bind ?_
    rintro _ rfl
    simp only
    rw [challengeM_can l hH]
    refine (Can.pure (Q := fun c => c = ts) rfl).bind ?_
    rintro _ rfl
    exact Can.pure (by simp [hos])

/-! ### All proofs -/

/-- `Unpack_Response` can return, from end curves of the right order. -/
theorem unpackResponse_total (H : Hash) (mem : Mem l) {x₀ x₁ : PFp2} (h0 : Super l.φ l.σ l.p (decode l x₀))
    (h1 : Super l.φ l.σ l.p (decode l x₁)) {r : CResp} (hr : r.WF (params l)) :
    Can (unpackResponse l H mem x₀ x₁ r) (fun _ => True) := by
  obtain ⟨⟨_, _, wc, _⟩, ⟨_, _, _, wf, _⟩, ⟨_, _, wi, _⟩, _⟩ := hr
  have hph := params_height l
  have hpw := params_width l
  have ne : ∀ {L : List PFp2} {n : ℕ}, L.length = n → 0 < n → L.map (decode l) ≠ [] := by
    intro L n h hn h0
    have := congrArg List.length h0
    simp at this
    simp [this] at h
    omega
  have kB := fun {a : l.F} (ha : Super l.φ l.σ l.p a) {xs : List l.F} (hx : xs ≠ []) => unpackChainB_total l.setting l.three_ne
    (expo3_le l) l.po mem.pts (po_full l) (po_none l) ha hx
  unfold unpackResponse
  simp only
  by_cases c1 : int8 r.tag = -1
  · simp only [c1, if_true]
    refine (kB h0 (ne wc hph)).bind ?_
    rintro (_ | E) _ <;> exact Can.pure trivial
  · simp only [c1, if_false]
    by_cases c2 : int8 r.tag = 0
    · simp only [c2, if_true]
      refine (checkedCurve_total l mem _).bind ?_
      rintro (_ | _) hb
      · exact Can.pure trivial
      simp only [Bool.true_eq_false, if_false]
      refine (unpackChainA_total l.setting l.three_ne l.po mem.pts (po_full l) (po_none l) (hb.1 rfl) (ne wf hpw)).bind ?_
      rintro (_ | E) _ <;> exact Can.pure trivial
    · simp only [c2, if_false]
      by_cases c3 : int8 r.tag = 1
      · simp only [c3, if_true]
        refine (kB h1 (ne wi hph)).bind ?_
        rintro (_ | E) _ <;> exact Can.pure trivial
      · simp only [c3, if_false]
        exact Can.pure trivial

end Secuer.Protocol
