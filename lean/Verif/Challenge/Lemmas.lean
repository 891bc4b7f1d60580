import Verif.Challenge.Model
import Verif.Challenge.Spec
import Mathlib.Tactic.Ring
import Mathlib.Data.List.Nodup
import Mathlib.Data.Fintype.Basic

/-! Lemmas relating the block-wise sampler to the streaming specification. -/

namespace Secuer.Challenge

open Spec

/-- The digits the inner loop would write. -/
def dg : Nat → UInt8 → List Int
  | 0, _ => []
  | j + 1, v => tritOf v :: dg j (v / 3)

theorem dg_length (j : Nat) (v : UInt8) : (dg j v).length = j := by
  induction j generalizing v with
  | zero => rfl
  | succ j ih => simp [dg, ih]

theorem tritOf_eq (v : UInt8) : tritOf v = Int.bmod v.toNat 3 := by
  have h : (v % 3).toNat = v.toNat % 3 := by simp
  unfold tritOf
  simp only [h]
  have : v.toNat % 3 = 0 ∨ v.toNat % 3 = 1 ∨ v.toNat % 3 = 2 := by omega
  have hb : Int.bmod (v.toNat : Int) 3 = if ((v.toNat : Int) % 3) < 2 then (v.toNat : Int) % 3
    else (v.toNat : Int) % 3 - 3 := by simp [Int.bmod]
  rw [hb]
  split <;> split <;> omega

theorem dg_eq (v : UInt8) : dg 5 v = byteTrits v := by
  simp only [dg, byteTrits, List.range, List.range.loop, List.map_cons, List.map_nil, tritOf_eq,
    UInt8.toNat_div]
  have : (3 : UInt8).toNat = 3 := rfl
  simp only [this, Nat.div_div_eq_div_mul]
  norm_num

theorem byteTrits_length (v : UInt8) : (byteTrits v).length = 5 := by simp [byteTrits]

theorem bmod3 (x : Int) : Trit (Int.bmod x 3) := by
  have h1 := Int.le_bmod (x := x) (m := 3) (by decide)
  have h2 := Int.bmod_lt (x := x) (m := 3) (by decide)
  unfold Trit
  omega

theorem byteTrits_trit {v : UInt8} {t : Int} (h : t ∈ byteTrits v) : Trit t := by
  simp only [byteTrits, List.mem_map] at h
  obtain ⟨i, _, rfl⟩ := h
  exact bmod3 _

theorem tritStream_trit {bs : List UInt8} {t : Int} (h : t ∈ tritStream bs) : Trit t := by
  simp only [tritStream, List.mem_flatMap] at h
  obtain ⟨b, _, hb⟩ := h
  exact byteTrits_trit hb

theorem tritStream_length (bs : List UInt8) :
    (tritStream bs).length = 5 * (bs.filter fun b => decide (Good b)).length := by
  simp only [tritStream, List.length_flatMap, byteTrits_length]
  simp [Nat.mul_comm]

theorem tritStream_append (as bs : List UInt8) :
    tritStream (as ++ bs) = tritStream as ++ tritStream bs := by
  simp [tritStream]

theorem tritStream_cons_good {b : UInt8} (h : Good b) (bs : List UInt8) :
    tritStream (b :: bs) = byteTrits b ++ tritStream bs := by
  simp [tritStream, h]

theorem tritStream_cons_bad {b : UInt8} (h : ¬ Good b) (bs : List UInt8) :
    tritStream (b :: bs) = tritStream bs := by
  simp [tritStream, h]

theorem good_iff (b : UInt8) : ¬ (b ≥ 243) ↔ Good b := by
  rw [Good, ge_iff_le, UInt8.le_iff_toNat_le]
  have : (243 : UInt8).toNat = 243 := rfl
  rw [this]
  omega

theorem digitLoop_eq (base num : Nat) : ∀ (j : Nat) (v : UInt8) (pre post : List Int) (done : Nat),
    pre.length = base + done → done ≤ num → num - done ≤ post.length →
    digitLoop base num j v (pre ++ post) done =
      .ok (pre ++ (dg j v).take (num - done) ++ post.drop (min j (num - done)),
        done + min j (num - done))
  | 0, v, pre, post, done, _, _, _ => by simp [digitLoop, dg]
  | j + 1, v, pre, post, done, hpre, hdn, hpost => by
    unfold digitLoop
    split
    · rename_i hlt
      obtain ⟨x, post, rfl⟩ : ∃ x p, post = x :: p := by
        cases post with
        | nil => simp at hpost; omega
        | cons x p => exact ⟨x, p, rfl⟩
      have hs : store (pre ++ x :: post) (base + done) (tritOf v) = .ok ((pre ++ [tritOf v]) ++ post) := by
        unfold store
        rw [if_pos (by simp; omega), ← hpre]
        simp
      simp only [hs]
      rw [digitLoop_eq base num j (v / 3) (pre ++ [tritOf v]) post (done + 1) (by simp; omega)
        (by omega) (by simp at hpost; omega)]
      obtain ⟨m, hm⟩ : ∃ m, num - done = m + 1 := ⟨num - done - 1, by omega⟩
      have hm' : num - (done + 1) = m := by omega
      rw [hm, hm', Nat.add_min_add_right]
      simp [dg, List.append_assoc]
      omega
    · have : num - done = 0 := by omega
      simp [this]

theorem sampleLoop_eq (base num : Nat) : ∀ (bytes : List UInt8) (pre post : List Int) (done : Nat),
    pre.length = base + done → done ≤ num → num - done ≤ post.length →
    sampleLoop base num bytes (pre ++ post) done =
      .ok (pre ++ (tritStream bytes).take (num - done) ++
          post.drop (min (tritStream bytes).length (num - done)),
        done + min (tritStream bytes).length (num - done))
  | [], pre, post, done, _, hdn, _ => by
    unfold sampleLoop
    split
    · simp [tritStream]
    · have : num - done = 0 := by omega
      simp [tritStream]; omega
  | v :: bytes, pre, post, done, hpre, hdn, hpost => by
    unfold sampleLoop
    split
    · rename_i hlt
      simp only
      split
      · rename_i hb
        have hg : ¬ Good v := fun h => (good_iff v).2 h hb
        rw [sampleLoop_eq base num bytes pre post done hpre hdn hpost, tritStream_cons_bad hg]
      · rename_i hb
        have hg := (good_iff v).1 hb
        rw [digitLoop_eq base num 5 v pre post done hpre hdn hpost, dg_eq]
        simp only
        have hl := byteTrits_length v
        rw [sampleLoop_eq base num bytes (pre ++ (byteTrits v).take (num - done))
          (post.drop (min 5 (num - done))) (done + min 5 (num - done))
          (by simp [hl]; omega) (by omega) (by simp; omega)]
        rw [tritStream_cons_good hg]
        simp only [List.take_append, List.length_append, hl, List.drop_drop]
        have e1 : num - (done + min 5 (num - done)) = num - done - 5 := by omega
        rw [e1]
        have e2 : min 5 (num - done) + min (tritStream bytes).length (num - done - 5) =
          min (5 + (tritStream bytes).length) (num - done) := by omega
        rw [e2, Nat.add_assoc, e2]
        simp [List.append_assoc]
    · have : num - done = 0 := by omega
      simp [this]; omega

theorem sampleTernary_eq (bytes : List UInt8) (pre post : List Int) (num : Nat)
    (h : num ≤ post.length) :
    sampleTernary bytes (pre ++ post) pre.length num =
      .ok (pre ++ (tritStream bytes).take num ++ post.drop (min (tritStream bytes).length num),
        min (tritStream bytes).length num) := by
  have := sampleLoop_eq pre.length num bytes pre post 0 (by simp) (by omega) (by omega)
  simpa [sampleTernary] using this

/-- Trits in blocks `k .. k+i-1`. -/
def seg (blocks : Nat → List UInt8) (k i : Nat) : List Int :=
  tritStream ((List.range i).flatMap fun x => blocks (k + x))

theorem seg_succ (blocks : Nat → List UInt8) (k i : Nat) :
    seg blocks k (i + 1) = tritStream (blocks k) ++ seg blocks (k + 1) i := by
  rw [seg, List.range_succ_eq_map, List.flatMap_cons, tritStream_append, List.flatMap_map, seg]
  simp only [Nat.add_zero, Nat.succ_eq_add_one, Nat.add_assoc, Nat.add_comm 1]

theorem challengeLoop_spec (reps : Nat) (blocks : Nat → List UInt8) :
    ∀ (fuel k : Nat) (pre post : List Int), pre.length + post.length = reps →
    match challengeLoop reps blocks fuel k (pre ++ post) pre.length with
    | .oob => False
    | .running => pre.length + (seg blocks k fuel).length < reps
    | .finished t k' => ∃ i, i ≤ fuel ∧ k' = k + i ∧
        t = pre ++ (seg blocks k i).take post.length ∧ reps ≤ pre.length + (seg blocks k i).length ∧
        ∀ i' < i, pre.length + (seg blocks k i').length < reps
  | 0, k, pre, post, h => by
    unfold challengeLoop
    split
    · rename_i h1; split at h1 <;> cases h1
    · rename_i h1
      split at h1
      · simpa [seg, tritStream] using by assumption
      · cases h1
    · rename_i t k' h1
      split at h1
      · cases h1
      · injection h1 with h1 h2
        have hp : post = [] := List.length_eq_zero_iff.1 (by omega)
        subst hp
        exact ⟨0, by omega, by omega, by simp [seg, ← h1], by simp at h; omega, by omega⟩
  | fuel + 1, k, pre, post, h => by
    unfold challengeLoop
    by_cases hlt : pre.length < reps
    · rw [if_pos hlt]
      have hs := sampleTernary_eq (blocks k) pre post (reps - pre.length) (by omega)
      rw [hs]
      simp only
      have hr : reps - pre.length = post.length := by omega
      rw [hr]
      have ih := challengeLoop_spec reps blocks fuel (k + 1)
        (pre ++ (tritStream (blocks k)).take post.length)
        (post.drop (min (tritStream (blocks k)).length post.length)) (by simp; omega)
      have hl : (pre ++ (tritStream (blocks k)).take post.length).length =
        pre.length + min (tritStream (blocks k)).length post.length := by simp; omega
      rw [hl] at ih
      match hc : challengeLoop reps blocks fuel (k + 1)
          (pre ++ (tritStream (blocks k)).take post.length ++
            post.drop (min (tritStream (blocks k)).length post.length))
          (pre.length + min (tritStream (blocks k)).length post.length) with
      | .oob => rw [hc] at ih; exact ih
      | .running =>
        rw [hc] at ih
        simp only at ih ⊢
        rw [seg_succ, List.length_append]
        omega
      | .finished t k' =>
        rw [hc] at ih
        simp only at ih ⊢
        obtain ⟨i, hi, hk, ht, hle, hmin⟩ := ih
        refine ⟨i + 1, by omega, by omega, ?_, ?_, ?_⟩
        · rw [ht, seg_succ, List.take_append, List.append_assoc]
          congr 2
          simp
          congr 1
          omega
        · rw [seg_succ, List.length_append]; omega
        · intro i' hi'
          cases i' with
          | zero => simpa [seg, tritStream] using hlt
          | succ i' =>
            have := hmin i' (by omega)
            rw [seg_succ, List.length_append]
            by_cases hc' : post.length ≤ (tritStream (blocks k)).length
            · exfalso
              have := hmin i' (by omega)
              omega
            · omega
    · rw [if_neg hlt]
      have hp : post = [] := List.length_eq_zero_iff.1 (by omega)
      subst hp
      exact ⟨0, by omega, by omega, by simp [seg], by simp at h; omega, by omega⟩

theorem challenge_spec (reps : Nat) (blocks : Nat → List UInt8) (fuel : Nat) (challs : List Int)
    (h : challs.length = reps) :
    match challenge reps blocks fuel challs with
    | .oob => False
    | .running => (seg blocks 0 fuel).length < reps
    | .finished t k => k ≤ fuel ∧ t = (seg blocks 0 k).take reps ∧ reps ≤ (seg blocks 0 k).length ∧
        ∀ i < k, (seg blocks 0 i).length < reps := by
  have := challengeLoop_spec reps blocks fuel 0 [] challs (by simpa using h)
  simp only [List.nil_append, List.length_nil] at this
  unfold challenge
  match hc : challengeLoop reps blocks fuel 0 challs 0 with
  | .oob => rw [hc] at this; exact this
  | .running => rw [hc] at this; simpa using this
  | .finished t k =>
    rw [hc] at this
    obtain ⟨i, hi, hk, ht, hle, hmin⟩ := this
    have : k = i := by omega
    subst this
    exact ⟨hi, by rw [ht, h], by omega, fun i hi => by have := hmin i hi; omega⟩

theorem seg_zero (blocks : Nat → List UInt8) (k : Nat) :
    seg blocks 0 k = tritStream (firstBlocks blocks k) := by
  simp [seg, firstBlocks]

end Secuer.Challenge
