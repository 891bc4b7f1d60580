import Verif.Props.ProofProps
import Verif.Props.ChallengeProps
import Mathlib.Data.Fintype.Pi
import Mathlib.Data.Set.Card
import Mathlib.SetTheory.Cardinal.Finite
import Mathlib.Algebra.Order.BigOperators.Group.Finset

/-!
# Property C80: the knowledge error of the protocol

A prover that has fixed the two end curves and the commitments and is then given the output of the XOF is an arbitrary function
from that output to proofs. If it convinces the verifier for more than a `(2/3)^reps` part of the possible outputs, then there
are three outputs for which its answers to one repetition are a left, a bottom and a right response.
-/

namespace Secuer.ProtocolProps

open Secuer.Protocol Secuer.Curve Secuer.Mont Secuer.Field Secuer.Text Secuer.Scalar Secuer.ChainProps Secuer.CurveProps
open Secuer.Challenge (Spec.Trit Spec.Good Spec.tritStream Spec.firstBlocks)

variable (l : Level)

/-! ### Specification -/

/-- `prf` is a proof for the end curves `x₀`, `x₁` with the commitments `cs` that the verifier accepts when the first `k` blocks
of the XOF on the input of the challenge are `bs`; the other values of the hash function are those of `H`. -/
structure Convinces (H : Hash) (x₀ x₁ : PFp2) (cs : List Comm) (k : ℕ) (bs : Bytes) (prf : CProof) : Prop where
  wf : prf.WF (params l)
  start : prf.E0 = x₀
  finish : prf.E1 = x₁
  accepted : ∃ (H' : Hash) (os : List (Int × Comm)) (mem : Mem l) (t t' : Tape l.F), H'.out = H.out ∧
    Spec.firstBlocks (H'.block (challengeBytes l (decode l x₀) (decode l x₁) (cs.map fun c => (c.h2, c.h3)))) k = bs ∧
    List.Forall₂ (fun r o => ∃ mem, Possible l (unpackResponse l H' mem x₀ x₁ r) (some o)) prf.resp os ∧
    os.map Prod.snd = cs ∧ mem.challs.length = (params l).reps ∧ verify l H' mem k prf t = .ok (true, t')

/-- What a left, a bottom and a right response disclose together: three walks, and either two different inputs of the hash
function with the same value, or the walks fit together to a path between the two end curves. -/
def Discloses (H : Hash) (x₀ x₁ : PFp2) (rl rb rr : CResp) : Prop :=
  ∃ a₂ a₂' a₃ a₃' : l.F,
    CyclicIsogeny l (3 ^ (l.iso.e3 * (params l).height)) (decode l x₀) a₂ ∧
    CyclicIsogeny l (2 ^ (l.iso.e2 * (params l).width)) a₂' a₃ ∧
    CyclicIsogeny l (3 ^ (l.iso.e3 * (params l).height)) (decode l x₁) a₃' ∧
    H.out (params l).hash (commitBytes l rl.leftR2 a₂) = H.out (params l).hash (commitBytes l rb.bottomR2 a₂') ∧
    H.out (params l).hash (commitBytes l rb.bottomR3 a₃) = H.out (params l).hash (commitBytes l rr.rightR3 a₃') ∧
    (commitBytes l rl.leftR2 a₂ ≠ commitBytes l rb.bottomR2 a₂' ∨
      commitBytes l rb.bottomR3 a₃ ≠ commitBytes l rr.rightR3 a₃' ∨ (jOf a₂ = jOf a₂' ∧ jOf a₃ = jOf a₃'))

/-! ### Counting -/

/-- Vectors of trits of which at every place only two values occur -/
theorem card_two_values {n : ℕ} (S : Finset (List Int)) (hlen : ∀ t ∈ S, t.length = n) (htrit : ∀ t ∈ S, ∀ x ∈ t, Spec.Trit x)
    (hno : ∀ i : ℕ, ¬ ((∃ t ∈ S, t[i]? = some (-1)) ∧ (∃ t ∈ S, t[i]? = some 0) ∧ (∃ t ∈ S, t[i]? = some 1))) :
    S.card ≤ 2 ^ n := by
  classical
  have key : ∀ i : ℕ, ∃ a b : Int, ∀ t ∈ S, ∀ x, t[i]? = some x → x = a ∨ x = b := by
    intro i
    by_contra hc
    push Not at hc
    apply hno i
    have tri : ∀ t ∈ S, ∀ x, t[i]? = some x → Spec.Trit x := fun t ht x hx => htrit t ht x (List.mem_of_getElem? hx)
    refine ⟨?_, ?_, ?_⟩
    · obtain ⟨t, ht, x, hx, h1, h2⟩ := hc 0 1
      rcases tri t ht x hx with rfl | rfl | rfl
      · exact ⟨t, ht, hx⟩
      · exact absurd rfl h1
      · exact absurd rfl h2
    · obtain ⟨t, ht, x, hx, h1, h2⟩ := hc (-1) 1
      rcases tri t ht x hx with rfl | rfl | rfl
      · exact absurd rfl h1
      · exact ⟨t, ht, hx⟩
      · exact absurd rfl h2
    · obtain ⟨t, ht, x, hx, h1, h2⟩ := hc (-1) 0
      rcases tri t ht x hx with rfl | rfl | rfl
      · exact absurd rfl h1
      · exact absurd rfl h2
      · exact ⟨t, ht, hx⟩
  choose a b hab using key
  let f : List Int → (Fin n → Bool) := fun t i => decide (t[(i : ℕ)]? = some (a i))
  have hf : Set.InjOn f S := by
    intro t ht u hu e
    apply List.ext_getElem?
    intro i
    by_cases hi : i < n
    · have h1 : t[i]? = some (t[i]'(by rw [hlen t ht]; exact hi)) := List.getElem?_eq_getElem _
      have h2 : u[i]? = some (u[i]'(by rw [hlen u hu]; exact hi)) := List.getElem?_eq_getElem _
      have e := congrFun e ⟨i, hi⟩
      simp only [f, decide_eq_decide] at e
      rcases hab i t ht _ h1 with p | p <;> rcases hab i u hu _ h2 with q | q
      · rw [h1, h2, p, q]
      · have := e.1 (by rw [h1, p]); rw [this, h1, p]
      · have := e.2 (by rw [h2, q]); rw [this, h2, q]
      · rw [h1, h2, p, q]
    · rw [List.getElem?_eq_none (by rw [hlen t ht]; omega), List.getElem?_eq_none (by rw [hlen u hu]; omega)]
  have := Finset.card_le_card_of_injOn (t := Finset.univ) f (fun _ _ => Finset.mem_univ _) hf
  simpa using this

theorem waysRec_le (m : ℕ) : ∀ n, 3 ^ n * Challenge.waysRec m n ≤ 256 ^ m := by
  induction m with
  | zero => intro n; unfold Challenge.waysRec; split <;> simp_all
  | succ m ih =>
    intro n
    unfold Challenge.waysRec
    by_cases h : n = 0
    · subst h
      rw [if_pos rfl, pow_succ]
      have := ih 0
      omega
    · rw [if_neg h]
      have e : 3 ^ n * (3 ^ (5 - n) * Challenge.waysRec m (n - 5)) = 243 * (3 ^ (n - 5) * Challenge.waysRec m (n - 5)) := by
        rw [← mul_assoc, ← mul_assoc, ← pow_add]
        congr 1
        rw [show (243 : ℕ) = 3 ^ 5 by norm_num, ← pow_add]
        congr 1
        omega
      rw [mul_add, e, mul_left_comm, pow_succ]
      have h1 := ih n
      have h2 := ih (n - 5)
      omega

/-- Strings whose first trits form a vector out of `S` -/
theorem card_strings {m n : ℕ} (S : Finset (List Int)) (hlen : ∀ t ∈ S, t.length = n) (htrit : ∀ t ∈ S, ∀ x ∈ t, Spec.Trit x)
    (B : Finset Bytes) (hB : ∀ bs ∈ B, bs.length = m ∧ (Spec.tritStream bs).take n ∈ S) : 3 ^ n * B.card ≤ S.card * 256 ^ m := by
  classical
  have h1 : ∀ t ∈ S, (B.filter fun bs => (Spec.tritStream bs).take n = t).card ≤ Challenge.waysRec m n := by
    intro t ht
    have := Challenge.countP_stream m t (htrit t ht)
    rw [hlen t ht] at this
    rw [← this, List.countP_eq_length_filter, ← List.toFinset_card_of_nodup ((Challenge.nodup_allStrings m).filter _)]
    apply Finset.card_le_card
    intro bs hbs
    rw [Finset.mem_filter] at hbs
    rw [List.mem_toFinset, List.mem_filter]
    exact ⟨(Challenge.mem_allStrings m bs).2 (hB bs hbs.1).1, by simpa using hbs.2⟩
  have h2 : B.card = ∑ t ∈ S, (B.filter fun bs => (Spec.tritStream bs).take n = t).card :=
    Finset.card_eq_sum_card_fiberwise fun bs hbs => (hB bs hbs).2
  have h3 : B.card ≤ S.card * Challenge.waysRec m n := by
    rw [h2]
    exact (Finset.sum_le_card_nsmul _ _ _ h1).trans_eq (by rw [smul_eq_mul])
  calc 3 ^ n * B.card ≤ 3 ^ n * (S.card * Challenge.waysRec m n) := Nat.mul_le_mul_left _ h3
    _ = S.card * (3 ^ n * Challenge.waysRec m n) := by ring
    _ ≤ S.card * 256 ^ m := Nat.mul_le_mul_left _ (waysRec_le m n)

/-! ### What acceptance says about the blocks seen -/

theorem take_firstBlocks (blocks : ℕ → Bytes) {n k m : ℕ} (hk : k ≤ m)
    (hn : n ≤ (Spec.tritStream (Spec.firstBlocks blocks k)).length) :
    (Spec.tritStream (Spec.firstBlocks blocks m)).take n = (Spec.tritStream (Spec.firstBlocks blocks k)).take n := by
  obtain ⟨d, rfl⟩ := Nat.exists_eq_add_of_le hk
  have : Spec.firstBlocks blocks (k + d) = Spec.firstBlocks blocks k ++ (List.range d).flatMap fun i => blocks (k + i) := by
    unfold Spec.firstBlocks
    rw [List.range_add, List.flatMap_append, List.flatMap_map]
  rw [this, Challenge.tritStream_append, List.take_append_of_le_length hn]

theorem verify_true (H : Hash) (mem : Mem l) (hm : mem.challs.length = (params l).reps) (fuel : ℕ) (prf : CProof)
    (t t' : Tape l.F) (h : verify l H mem fuel prf t = .ok (true, t')) :
    RightOrder l (decode l prf.E0) ∧ RightOrder l (decode l prf.E1) ∧ ∃ os : List (Int × Comm),
    List.Forall₂ (fun r o => ∃ mem, Possible l (unpackResponse l H mem prf.E0 prf.E1 r) (some o)) prf.resp os ∧
    os.map Prod.fst = (Spec.tritStream (Spec.firstBlocks (H.block (challengeBytes l (decode l prf.E0) (decode l prf.E1)
      (os.map fun o => (o.2.h2, o.2.h3)))) fuel)).take (params l).reps := by
  unfold verify at h
  obtain ⟨b0, t0, h0, h⟩ := bind_ok h
  have hb0 := (checkedCurve_ret l mem prf.E0).2 _ _ _ h0
  cases b0 with
  | false => simp only [if_true] at h; cases h
  | true =>
    simp only [Bool.true_eq_false, if_false] at h
    obtain ⟨b1, t1, h1, h⟩ := bind_ok h
    have hb1 := (checkedCurve_ret l mem prf.E1).2 _ _ _ h1
    cases b1 with
    | false => simp only [if_true] at h; cases h
    | true =>
      simp only [Bool.true_eq_false, if_false] at h
      have r0 := (rightOrder_iff l).2 (hb0.1 rfl)
      have r1 := (rightOrder_iff l).2 (hb1.1 rfl)
      obtain ⟨os, t2, h2, h⟩ := bind_ok h
      have hos := unpackAll_ret l H mem prf.E0 prf.E1 prf.resp _ _ _ h2
      cases os with
      | none => cases h
      | some os =>
        obtain ⟨ts, t3, h3, h⟩ := bind_ok h
        refine ⟨r0, r1, os, hos.imp fun r o h => ⟨mem, h⟩, ?_⟩
        have hdec : ts = os.map Prod.fst := by
          have h : (Out.ok (decide (ts = os.map Prod.fst), t3) : Out _) = .ok (true, t') := h
          injection h with h
          injection h with h
          exact of_decide_eq_true h
        rw [← hdec]
        have hb := challenge_bytes l (decode l prf.E0) (decode l prf.E1) (os.map Prod.snd)
        rw [List.map_map] at hb
        unfold challengeM at h3
        have hs := Challenge.challenge_spec (params l).reps (H.block (challengeInput (encJ l ⟨decode l prf.E0, 1⟩)
          (encJ l ⟨decode l prf.E1, 1⟩) (os.map Prod.snd))) fuel mem.challs hm
        generalize Challenge.challenge (params l).reps _ fuel mem.challs = c at h3 hs
        cases c with
        | oob => exact hs.elim
        | running => cases h3
        | finished u k =>
          obtain ⟨hk, hu, hlen, _⟩ := hs
          have h3 : (Out.ok (u, t2) : Out _) = .ok (ts, t3) := h3
          injection h3 with h3
          injection h3 with h3
          rw [Challenge.seg_zero] at hu hlen
          rw [← h3, hu, ← take_firstBlocks _ hk hlen, hb]
          rfl

/-- The verifier unpacks responses without looking at the XOF. -/
theorem unpackResponse_congr {H H' : Hash} (h : H'.out = H.out) (mem : Mem l) (x₀ x₁ : PFp2) (r : CResp) :
    unpackResponse l H' mem x₀ x₁ r = unpackResponse l H mem x₀ x₁ r := by
  unfold unpackResponse hashHiding
  rw [h]

/-- What acceptance means for the string seen -/
theorem convinces_iff {H : Hash} {x₀ x₁ : PFp2} {cs : List Comm} {k : ℕ} {bs : Bytes} {prf : CProof}
    (h : Convinces l H x₀ x₁ cs k bs prf) : RightOrder l (decode l x₀) ∧ RightOrder l (decode l x₁) ∧
    List.Forall₂ (fun r o => ∃ mem, Possible l (unpackResponse l H mem x₀ x₁ r) (some o)) prf.resp
      (((Spec.tritStream bs).take (params l).reps).zip cs) ∧
    ((Spec.tritStream bs).take (params l).reps).length = (params l).reps ∧ cs.length = (params l).reps := by
  obtain ⟨wf, e0, e1, H', os, mem, t, t', hout, hbs, hos, hcs, hm, hv⟩ := h
  obtain ⟨r0, r1, os', hos', htags⟩ := verify_true l H' mem hm k prf t t' hv
  rw [e0, e1] at *
  have := possible_unique_all l H' r0 r1 hos hos'
  subst this
  rw [← hcs, List.map_map] at hbs
  have hbs' : Spec.firstBlocks (H'.block (challengeBytes l (decode l x₀) (decode l x₁)
    (os.map fun o => (o.2.h2, o.2.h3)))) k = bs := hbs
  rw [hbs'] at htags
  have hl : os.length = (params l).reps := hos.length_eq.symm.trans wf.2.2.1
  refine ⟨r0, r1, ?_, ?_, ?_⟩
  · rw [← htags, ← hcs]
    have : (os.map Prod.fst).zip (os.map Prod.snd) = os := by
      rw [List.zip_map']
      simp
    rw [this]
    exact hos.imp fun r o ⟨mem, h⟩ => ⟨mem, by rw [← unpackResponse_congr l hout]; exact h⟩
  · rw [← htags, List.length_map, hl]
  · rw [← hcs, List.length_map, hl]

/-! ### The theorem -/

/-- **C80.** A prover that has fixed the end curves and the commitments and convinces the verifier for more than a `(2/3)^reps`
part of the strings the XOF can give has answers to one repetition, each in a proof that convinces, which together disclose
a path between the end curves or a collision of the hash function. -/
theorem C80_knowledge (H : Hash) (x₀ x₁ : PFp2) (cs : List Comm) (k m : ℕ) (P : Bytes → CProof)
    (h : 2 ^ (params l).reps * 256 ^ m <
      3 ^ (params l).reps * {bs : Bytes | bs.length = m ∧ Convinces l H x₀ x₁ cs k bs (P bs)}.ncard) :
    ∃ (b₁ b₂ b₃ : Bytes) (i : ℕ) (rl rb rr : CResp), b₁.length = m ∧ b₂.length = m ∧ b₃.length = m ∧
      Convinces l H x₀ x₁ cs k b₁ (P b₁) ∧ Convinces l H x₀ x₁ cs k b₂ (P b₂) ∧ Convinces l H x₀ x₁ cs k b₃ (P b₃) ∧
      (P b₁).resp[i]? = some rl ∧ (P b₂).resp[i]? = some rb ∧ (P b₃).resp[i]? = some rr ∧
      Discloses l H x₀ x₁ rl rb rr := by
  classical
  have hfin : {bs : Bytes | bs.length = m ∧ Convinces l H x₀ x₁ cs k bs (P bs)}.Finite := by
    by_contra hc
    rw [Set.Infinite.ncard hc] at h
    simp at h
  generalize hW : {bs : Bytes | bs.length = m ∧ Convinces l H x₀ x₁ cs k bs (P bs)} = W at h hfin
  have hmem : ∀ bs ∈ W, bs.length = m ∧ Convinces l H x₀ x₁ cs k bs (P bs) := fun bs hb => by rw [← hW] at hb; exact hb
  rw [Set.ncard_eq_toFinset_card W hfin] at h
  let S : Finset (List Int) := hfin.toFinset.image fun bs => (Spec.tritStream bs).take (params l).reps
  have hS : ∀ t ∈ S, ∃ bs ∈ W, (Spec.tritStream bs).take (params l).reps = t := fun t ht => by
    obtain ⟨bs, hb, e⟩ := Finset.mem_image.1 ht
    exact ⟨bs, (Set.Finite.mem_toFinset hfin).1 hb, e⟩
  have hlen : ∀ t ∈ S, t.length = (params l).reps := fun t ht => by
    obtain ⟨bs, hb, rfl⟩ := hS t ht
    exact (convinces_iff l (hmem bs hb).2).2.2.2.1
  have htrit : ∀ t ∈ S, ∀ x ∈ t, Spec.Trit x := fun t ht x hx => by
    obtain ⟨bs, hb, rfl⟩ := hS t ht
    exact Challenge.tritStream_trit (List.mem_of_mem_take hx)
  have h1 := card_strings (m := m) S hlen htrit hfin.toFinset fun bs hb =>
    ⟨(hmem bs ((Set.Finite.mem_toFinset hfin).1 hb)).1, Finset.mem_image_of_mem _ hb⟩
  have h2 : ¬ S.card ≤ 2 ^ (params l).reps := fun hle => by
    have := Nat.mul_le_mul_right (256 ^ m) hle
    omega
  have h3 : ∃ i : ℕ, (∃ t ∈ S, t[i]? = some (-1)) ∧ (∃ t ∈ S, t[i]? = some 0) ∧ (∃ t ∈ S, t[i]? = some 1) := by
    by_contra hc
    push Not at hc
    exact h2 (card_two_values S hlen htrit fun i ⟨⟨t, a⟩, ⟨u, b⟩, ⟨v, c⟩⟩ => hc i ⟨t, a⟩ ⟨u, b⟩ v c.1 c.2)
  have get : ∀ (i : ℕ) (x : Int), (∃ t ∈ S, t[i]? = some x) → ∃ bs ∈ W, ∃ (r : CResp) (c : Comm) (mem : Mem l),
      (P bs).resp[i]? = some r ∧ cs[i]? = some c ∧ Possible l (unpackResponse l H mem x₀ x₁ r) (some (x, c)) := by
    rintro i x ⟨t, ht, hx⟩
    obtain ⟨bs, hb, rfl⟩ := hS t ht
    obtain ⟨_, _, hf, hl, hc⟩ := convinces_iff l (hmem bs hb).2
    have hi : i < (params l).reps := by
      rw [← hl]
      exact (List.getElem?_eq_some_iff.1 hx).1
    have hci : cs[i]? = some (cs[i]'(by omega)) := List.getElem?_eq_getElem _
    have hz : (((Spec.tritStream bs).take (params l).reps).zip cs)[i]? = some (x, cs[i]'(by omega)) := by
      rw [List.getElem?_zip_eq_some]
      exact ⟨hx, hci⟩
    have hri : i < (P bs).resp.length := by
      rw [hf.length_eq, List.length_zip]
      omega
    obtain ⟨hz1, hz2⟩ := List.getElem?_eq_some_iff.1 hz
    have := (List.forall₂_iff_get.1 hf).2 i hri hz1
    rw [List.get_eq_getElem, List.get_eq_getElem, hz2] at this
    obtain ⟨mem, hp⟩ := this
    exact ⟨bs, hb, _, _, mem, List.getElem?_eq_getElem hri, hci, hp⟩
  obtain ⟨i, i1, i2, i3⟩ := h3
  obtain ⟨b₁, m1, rl, c, ml, l1, l2, l3⟩ := get i _ i1
  obtain ⟨b₂, m2, rb, c', mb, b1, b2, b3⟩ := get i _ i2
  obtain ⟨b₃, m3, rr, c'', mr, r1, r2, r3⟩ := get i _ i3
  cases l2.symm.trans b2
  cases l2.symm.trans r2
  have wf : ∀ bs ∈ W, ∀ r, (P bs).resp[i]? = some r → r.WF (params l) := fun bs hb r hr =>
    (hmem bs hb).2.wf.2.2.2 r (List.mem_of_getElem? hr)
  obtain ⟨o0, o1, _⟩ := convinces_iff l (hmem b₁ m1).2
  obtain ⟨a₂, a₂', a₃, a₃', p1, p2, p3, p4, p5, p6⟩ :=
    c19_special_soundness l H o0 o1 (wf _ m1 _ l1) (wf _ m2 _ b1) (wf _ m3 _ r1) l3 b3 r3
  refine ⟨b₁, b₂, b₃, i, rl, rb, rr, (hmem _ m1).1, (hmem _ m2).1, (hmem _ m3).1, (hmem _ m1).2, (hmem _ m2).2, (hmem _ m3).2,
    l1, b1, r1, a₂, a₂', a₃, a₃', p1, p2, p3, p4, p5, ?_⟩
  rcases p6 with p6 | p6 | p6
  · exact .inl p6
  · exact .inr (.inl p6)
  · exact .inr (.inr ⟨p6.1, p6.2.1⟩)

/-! ### A prover that meets the hypothesis -/

/-- A commitment of zeros, and the hash function that is zero -/
def zeroHash : Hash := ⟨fun n _ => List.replicate n 0, fun _ _ => []⟩

def zeroComm : Comm := ⟨List.replicate (params l).hash 0, List.replicate (params l).hash 0⟩

theorem zero_responses {H : Hash} (hH : H.out = zeroHash.out) (mem : Mem l) {x₀ x₁ : PFp2} (h0 : Super l.φ l.σ l.p (decode l x₀))
    (h1 : Super l.φ l.σ l.p (decode l x₁)) : ∀ ts : List Int, (∀ c ∈ ts, Spec.Trit c) →
    ∃ rs : List CResp, (∀ r ∈ rs, r.WF (params l)) ∧ rs.length = ts.length ∧ List.Forall₂ (fun r o => ∃ mem, Possible l
      (unpackResponse l H mem x₀ x₁ r) (some o)) rs (ts.map fun c => (c, zeroComm l))
  | [], _ => ⟨[], by simp, rfl, .nil⟩
  | c :: ts, h => by
    obtain ⟨rs, hw, hl, hf⟩ := zero_responses hH mem h0 h1 ts fun c hc => h c (by simp [hc])
    obtain ⟨r, o, hr, -, ⟨s, _, rfl, hs⟩, ho⟩ := response_can l H mem h0 h1 (h c (by simp))
    rw [ho fun n x => by rw [hH]; rfl] at hs
    refine ⟨r :: rs, ?_, by simp [hl], .cons ⟨mem, _, _, hs s⟩ hf⟩
    intro r' hr'
    rcases List.mem_cons.1 hr' with rfl | hr'
    · exact hr
    · exact hw _ hr'

/-- For every string with enough trits there is a proof that convinces. -/
theorem zero_convinces {x₀ x₁ : PFp2} (w0 : x₀.WF (params l)) (w1 : x₁.WF (params l)) (h0 : RightOrder l (decode l x₀))
    (h1 : RightOrder l (decode l x₁)) {bs : Bytes} (hb : (params l).reps ≤ (Spec.tritStream bs).length) :
    ∃ prf, Convinces l zeroHash x₀ x₁ (List.replicate (params l).reps (zeroComm l)) 1 bs prf := by
  let mem : Mem l := ⟨fun _ => (⟨0, 0⟩, ⟨0, 0⟩), List.replicate (params l).reps 0⟩
  have hm : mem.challs.length = (params l).reps := by simp [mem]
  let H : Hash := ⟨zeroHash.out, fun _ _ => bs⟩
  have hfb : ∀ x, Spec.firstBlocks (H.block x) 1 = bs := fun x => by simp [Spec.firstBlocks, H]
  have htl : ((Spec.tritStream bs).take (params l).reps).length = (params l).reps := by rw [List.length_take]; omega
  obtain ⟨rs, hw, hl, hf⟩ := zero_responses l (H := H) rfl mem ((rightOrder_iff l).1 h0) ((rightOrder_iff l).1 h1)
    ((Spec.tritStream bs).take (params l).reps) fun c hc => Challenge.tritStream_trit (List.mem_of_mem_take hc)
  have hch : ∀ j0 j1 hs, challengeM l H mem 1 j0 j1 hs = pure ((Spec.tritStream bs).take (params l).reps) := by
    intro j0 j1 hs
    unfold challengeM
    have h := Challenge.challenge_spec (params l).reps (H.block (challengeInput j0 j1 hs)) 1 mem.challs hm
    generalize Challenge.challenge (params l).reps _ 1 mem.challs = c at h
    cases c with
    | oob => exact h.elim
    | running =>
      simp only [Challenge.seg_zero, hfb] at h
      omega
    | finished u k =>
      obtain ⟨hk, hu, hlen, -⟩ := h
      rw [Challenge.seg_zero] at hu hlen
      rw [hu, ← take_firstBlocks _ hk hlen, hfb]
  have hall := unpackAll_can l H mem h0 h1 hw hf
  have hcan : Can (verify l H mem 1 ⟨x₀, x₁, rs⟩) (fun b => b = true) := by
    unfold verify
    refine (checkedCurve_can l mem _ ((rightOrder_iff l).1 h0)).bind ?_
    rintro _ rfl
    simp only [Bool.true_eq_false, if_false]
    refine (checkedCurve_can l mem _ ((rightOrder_iff l).1 h1)).bind ?_
    rintro _ rfl
    simp only [Bool.true_eq_false, if_false]
    refine hall.bind ?_
    rintro _ rfl
    simp only
    rw [hch]
    refine (Can.pure (Q := fun c => c = (Spec.tritStream bs).take (params l).reps) rfl).bind ?_
    rintro _ rfl
    exact Can.pure (by simp [Function.comp_def])
  obtain ⟨s, _, rfl, hs⟩ := hcan
  refine ⟨⟨x₀, x₁, rs⟩, ⟨w0, w1, by rw [hl, htl], hw⟩, rfl, rfl, H, _, mem, _, _, rfl, hfb _, hf, ?_, hm, hs ⟨[], [], []⟩⟩
  rw [List.map_map]
  refine List.eq_replicate_iff.2 ⟨by rw [List.length_map, htl], ?_⟩
  intro c hc
  obtain ⟨_, _, rfl⟩ := List.mem_map.1 hc
  rfl

/-- The hypothesis of C80, for strings of one block of the XOF: with a hash function that is constant, a prover that answers
everything (and the conclusion holds because of collisions). -/
example : ∃ (H : Hash) (x₀ x₁ : PFp2) (cs : List Comm) (P : Bytes → CProof), 2 ^ (params l).reps * 256 ^ 136 <
    3 ^ (params l).reps * {bs : Bytes | bs.length = 136 ∧ Convinces l H x₀ x₁ cs 1 bs (P bs)}.ncard := by
  classical
  have h0 : RightOrder l (decode l (encode l 0)) := by rw [decode_encode]; exact rightOrder_zero l
  refine ⟨zeroHash, encode l 0, encode l 0, List.replicate (params l).reps (zeroComm l), fun bs =>
    if h : ∃ prf, Convinces l zeroHash (encode l 0) (encode l 0) (List.replicate (params l).reps (zeroComm l)) 1 bs prf
    then h.choose else ⟨encode l 0, encode l 0, []⟩, ?_⟩
  let f : (Fin 136 → Fin 243) → Bytes := fun g => List.ofFn fun i => UInt8.ofNat (g i)
  have hf : Function.Injective f := by
    intro g g' e
    funext i
    have := congrFun (List.ofFn_injective e) i
    have := congrArg UInt8.toNat this
    simp only [UInt8.toNat_ofNat'] at this
    omega
  have hcard : (Set.range f).ncard = 243 ^ 136 := by
    rw [← Set.image_univ, Set.ncard_image_of_injective _ hf, Set.ncard_univ, Nat.card_fun]
    simp
  have hreps : (params l).reps ≤ 680 := by cases l <;> decide
  have hsub : Set.range f ⊆ {bs : Bytes | bs.length = 136 ∧ Convinces l zeroHash (encode l 0) (encode l 0)
      (List.replicate (params l).reps (zeroComm l)) 1 bs (if h : ∃ prf, Convinces l zeroHash (encode l 0) (encode l 0)
        (List.replicate (params l).reps (zeroComm l)) 1 bs prf then h.choose else ⟨encode l 0, encode l 0, []⟩)} := by
    rintro _ ⟨g, rfl⟩
    have hgood : ∀ b ∈ f g, Spec.Good b := by
      intro b hb
      obtain ⟨i, rfl⟩ := List.mem_ofFn.1 hb
      unfold Spec.Good
      simp only [UInt8.toNat_ofNat']
      omega
    have hlen : (f g).length = 136 := List.length_ofFn
    have hex := zero_convinces l (encode_wf l 0) (encode_wf l 0) h0 h0 (bs := f g) (by
      rw [Challenge.tritStream_length, List.filter_eq_self.2 fun b hb => by simpa using hgood b hb, hlen]
      omega)
    refine ⟨hlen, ?_⟩
    rw [dif_pos hex]
    exact hex.choose_spec
  have := Set.ncard_le_ncard hsub ((Challenge.allStrings 136).toFinset.finite_toSet.subset fun bs h => by
    rw [Finset.mem_coe, List.mem_toFinset]
    exact (Challenge.mem_allStrings 136 bs).2 h.1)
  rw [hcard] at this
  refine lt_of_lt_of_le ?_ (Nat.mul_le_mul_left _ this)
  cases l <;> decide +kernel

end Secuer.ProtocolProps
