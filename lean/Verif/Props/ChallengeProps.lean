import Verif.Challenge.Lemmas
import Mathlib.Data.List.Count
import Mathlib.Algebra.BigOperators.Group.List.Basic
import Mathlib.Tactic.Ring

/-!
# Properties C08-C11: challenge sampling

About the model in `Verif.Challenge.Model` (`poik.c:225-242, 1154-1169`), against the streaming
specification in `Verif.Challenge.Spec`. `blocks` stands for the squeezed XOF blocks and is
arbitrary; `challs` is the uninitialised output array.
-/

namespace Secuer.Challenge

open Spec

/-! ## C08 -/

/-- **C08.** No write ever leaves the array, and a finished challenge consists of exactly `reps`
values among -1, 0, 1 (none of them the previous contents of the array). -/
theorem C08_challenge_trits (reps : ℕ) (blocks : ℕ → List UInt8) (fuel : ℕ) (challs : List Int)
    (hc : challs.length = reps) :
    challenge reps blocks fuel challs ≠ .oob ∧
    ∀ t k, challenge reps blocks fuel challs = .finished t k →
      t.length = reps ∧ ∀ x ∈ t, Trit x := by
  have h := challenge_spec reps blocks fuel challs hc
  refine ⟨fun e => by rw [e] at h; exact h, fun t k e => ?_⟩
  rw [e] at h
  obtain ⟨_, rfl, hl, _⟩ := h
  refine ⟨by rw [List.length_take]; omega, fun x hx => ?_⟩
  rw [seg_zero] at hx
  exact tritStream_trit (List.mem_of_mem_take hx)

/-- Runs that finish within one block of usable bytes. -/
theorem exRun' (n m : ℕ) (hnm : n ≤ 5 * m) :
    ∃ t k, challenge n (fun _ => List.replicate m 7) 1 (List.replicate n 99) = .finished t k := by
  have h := challenge_spec n (fun _ => List.replicate m 7) 1 (List.replicate n 99)
    List.length_replicate
  have hseg : (seg (fun _ => List.replicate m (7 : UInt8)) 0 1).length = 5 * m := by
    rw [seg_zero, tritStream_length]
    have : firstBlocks (fun _ => List.replicate m (7 : UInt8)) 1 = List.replicate m 7 := by
      simp [firstBlocks]
    rw [this, List.filter_replicate_of_pos (by decide), List.length_replicate]
  generalize hc : challenge n (fun _ => List.replicate m 7) 1 (List.replicate n 99) = o at h
  match o with
  | .finished t k => exact ⟨t, k, rfl⟩
  | .oob => exact h.elim
  | .running =>
    simp only [hseg] at h
    omega

/-- 219 trits from a block of 136 usable bytes (parameter set 434). -/
theorem exRun : ∃ t k, challenge 219 (fun _ => List.replicate 136 7) 1 (List.replicate 219 99)
    = .finished t k := exRun' 219 136 (by decide)

example : ∃ challs : List Int, challs.length = 219 ∧ ∃ t k,
    challenge 219 (fun _ => List.replicate 136 7) 1 challs = .finished t k :=
  ⟨List.replicate 219 99, List.length_replicate, exRun⟩

/-! ## C09 -/

/-- **C09.** The block-wise sampler equals the byte-at-a-time sampler on the concatenated output:
the result is the first `reps` trits of the trit stream of every sufficiently long prefix of the
blocks. -/
theorem C09_challenge_streaming (reps : ℕ) (blocks : ℕ → List UInt8) (fuel : ℕ)
    (challs t : List Int) (k : ℕ) (hc : challs.length = reps)
    (h : challenge reps blocks fuel challs = .finished t k) :
    ∀ m, k ≤ m → t = (tritStream (firstBlocks blocks m)).take reps := by
  have hs := challenge_spec reps blocks fuel challs hc
  rw [h] at hs
  obtain ⟨_, rfl, hl, _⟩ := hs
  intro m hm
  obtain ⟨d, rfl⟩ := Nat.exists_eq_add_of_le hm
  rw [seg_zero] at hl ⊢
  rw [firstBlocks, firstBlocks, List.range_add, List.flatMap_append, tritStream_append,
    List.take_append_of_le_length (by simpa [firstBlocks] using hl)]

example : ∃ t k, challenge 219 (fun _ => List.replicate 136 7) 1 (List.replicate 219 99)
    = .finished t k := exRun

/-- **C09**, two ways of cutting the same byte stream into blocks (for instance one block of 272
bytes or two of 136) give the same challenge. -/
theorem C09_challenge_block_size (reps : ℕ) (blocks blocks' : ℕ → List UInt8) (fuel fuel' : ℕ)
    (challs challs' t t' : List Int) (k k' : ℕ) (hc : challs.length = reps)
    (hc' : challs'.length = reps)
    (same : ∀ m, ∃ m', firstBlocks blocks m <+: firstBlocks blocks' m')
    (h : challenge reps blocks fuel challs = .finished t k)
    (h' : challenge reps blocks' fuel' challs' = .finished t' k') : t = t' := by
  have h1 := C09_challenge_streaming reps blocks fuel challs t k hc h
  have h2 := C09_challenge_streaming reps blocks' fuel' challs' t' k' hc' h'
  obtain ⟨m, u, hu⟩ := same k
  have hlen : reps ≤ (tritStream (firstBlocks blocks k)).length := by
    have hs := challenge_spec reps blocks fuel challs hc
    rw [h] at hs
    rw [← seg_zero]; exact hs.2.2.1
  have hpre : firstBlocks blocks' m <+: firstBlocks blocks' (max m k') := by
    obtain ⟨d, hd⟩ := Nat.exists_eq_add_of_le (le_max_left m k')
    rw [hd, firstBlocks, firstBlocks, List.range_add, List.flatMap_append]
    exact List.prefix_append _ _
  obtain ⟨w, hw⟩ := hpre
  rw [h1 k le_rfl, h2 (max m k') (le_max_right _ _), ← hw, ← hu, tritStream_append,
    tritStream_append, List.append_assoc, List.take_append_of_le_length hlen]

/-- The hypotheses hold for a stream cut into blocks of 136 and of 272 bytes. -/
example : (∀ m, ∃ m', firstBlocks (fun _ => List.replicate 136 (7 : UInt8)) m <+:
      firstBlocks (fun _ => List.replicate 272 (7 : UInt8)) m') ∧
    ∃ t k, challenge 219 (fun _ => List.replicate 136 7) 1 (List.replicate 219 99)
      = .finished t k := by
  refine ⟨fun m => ⟨m, ?_⟩, exRun⟩
  have h : ∀ n m, firstBlocks (fun _ => List.replicate n (7 : UInt8)) m = List.replicate (m * n) 7 := by
    intro n m
    simp [firstBlocks, List.flatMap, List.map_const']
  rw [h, h]
  refine ⟨List.replicate (m * 136) 7, ?_⟩
  rw [← List.replicate_add]
  congr 1
  omega

/-! ## C10 -/

theorem sampleTernary_full {bs : List UInt8} {arr t : List Int} {n : ℕ} (ha : arr.length = n)
    (ht : t.length = n) :
    sampleTernary bs arr 0 n = .ok (t, n) ↔ (tritStream bs).take n = t := by
  have h := sampleTernary_eq bs [] arr n (by omega)
  simp only [List.nil_append, List.length_nil] at h
  rw [h]
  constructor
  · intro e
    injection e with e
    injection e with e1 e2
    have : arr.drop (min (tritStream bs).length n) = [] := by
      rw [e2]; exact List.drop_eq_nil_of_le (by omega)
    rw [← e1, this, List.append_nil]
  · intro e
    have hl : min (tritStream bs).length n = n := by
      have := congrArg List.length e
      rw [List.length_take, ht] at this; omega
    rw [e, hl, List.drop_eq_nil_of_le (by omega), List.append_nil]

theorem bmod3_eq_iff (a b : ℕ) : Int.bmod (a : ℕ) 3 = Int.bmod (b : ℕ) 3 ↔ a % 3 = b % 3 := by
  have hb : ∀ a : ℕ, Int.bmod (a : Int) 3 = if ((a : Int) % 3) < 2 then (a : Int) % 3
    else (a : Int) % 3 - 3 := by intro a; simp [Int.bmod]
  rw [hb, hb]
  split <;> split <;> omega

/-- The first `k` digits determine, and are determined by, the residue modulo `3^k`. -/
theorem digits_eq_iff : ∀ (k a b : ℕ),
    ((List.range k).map fun i => Int.bmod (a / 3 ^ i : Nat) 3) =
      ((List.range k).map fun i => Int.bmod (b / 3 ^ i : Nat) 3) ↔ a % 3 ^ k = b % 3 ^ k
  | 0, a, b => by simp [Nat.mod_one]
  | k + 1, a, b => by
    have ih := digits_eq_iff k (a / 3) (b / 3)
    simp only [Nat.div_div_eq_div_mul, ← pow_succ'] at ih
    rw [List.range_succ_eq_map, List.map_cons, List.map_cons, List.map_map, List.map_map,
      List.cons.injEq]
    simp only [Function.comp_def, Nat.succ_eq_add_one, pow_zero, Nat.div_one]
    rw [ih, bmod3_eq_iff, pow_succ', Nat.mod_mul, Nat.mod_mul]
    omega

/-- Number of accepted bytes with given low digits. -/
theorem byte_table : ∀ k ∈ List.range 6, ∀ x ∈ List.range (3 ^ k),
    ((List.range 256).countP fun b => Nat.blt b 243 && Nat.beq (b % 3 ^ k) x) = 3 ^ (5 - k) := by
  decide +kernel

theorem trits_enum : ∀ (u : List Int), (∀ x ∈ u, Trit x) →
    ∃ x < 3 ^ u.length, u = (List.range u.length).map fun i => Int.bmod (x / 3 ^ i : Nat) 3
  | [], _ => ⟨0, by simp, rfl⟩
  | a :: u, h => by
    obtain ⟨x, hx, hu⟩ := trits_enum u fun y hy => h y (by simp [hy])
    have ha := h a (by simp)
    obtain ⟨r, hr, har⟩ : ∃ r < 3, a = Int.bmod (r : ℕ) 3 := by
      rcases ha with rfl | rfl | rfl
      · exact ⟨2, by omega, by decide⟩
      · exact ⟨0, by omega, by decide⟩
      · exact ⟨1, by omega, by decide⟩
    refine ⟨3 * x + r, by simp [pow_succ]; omega, ?_⟩
    rw [List.length_cons, List.range_succ_eq_map, List.map_cons, List.map_map]
    congr 1
    · rw [har]
      simp only [pow_zero, Nat.div_one, Nat.cast_add, Nat.cast_mul]
      rw [show ((3 : ℕ) : Int) * x + r = r + (3 : ℕ) * x by push_cast; ring]
      exact (Int.add_mul_bmod_self_left _ _ _).symm
    · rw [hu]
      simp only [List.length_map, List.length_range]
      apply List.map_congr_left
      intro i _
      simp only [Function.comp, Nat.succ_eq_add_one, pow_succ']
      rw [← Nat.div_div_eq_div_mul, show (3 * x + r) / 3 = x by omega]

theorem byte_count (u : List Int) (hu : ∀ x ∈ u, Trit x) (hl : u.length ≤ 5) :
    ((List.range 256).countP fun b =>
      decide (Good (UInt8.ofNat b) ∧ (byteTrits (UInt8.ofNat b)).take u.length = u))
        = 3 ^ (5 - u.length) := by
  obtain ⟨x, hx, hux⟩ := trits_enum u hu
  rw [← byte_table u.length (by simp; omega) x (by simpa using hx)]
  refine List.countP_congr fun b hb => ?_
  have hb' : (UInt8.ofNat b).toNat = b := by
    simp only [UInt8.toNat_ofNat']
    exact Nat.mod_eq_of_lt (by simpa using hb)
  have htk : (byteTrits (UInt8.ofNat b)).take u.length =
      (List.range u.length).map fun i => Int.bmod (b / 3 ^ i : Nat) 3 := by
    rw [byteTrits, ← List.map_take, List.take_range, Nat.min_eq_left hl, hb']
  have hmod : x % 3 ^ u.length = x := Nat.mod_eq_of_lt hx
  have key : ((byteTrits (UInt8.ofNat b)).take u.length = u) ↔ b % 3 ^ u.length = x := by
    rw [htk, ← hmod, ← digits_eq_iff u.length b x, ← hux]
  simp only [key, Good, hb', Bool.and_eq_true, decide_eq_true_eq]
  rw [Nat.blt_eq, Nat.beq_eq]

/-- All byte strings of a given length. -/
def allStrings : ℕ → List (List UInt8)
  | 0 => [[]]
  | m + 1 => (List.range 256).flatMap fun b => (allStrings m).map fun bs => UInt8.ofNat b :: bs

theorem mem_allStrings : ∀ (m : ℕ) (bs : List UInt8), bs ∈ allStrings m ↔ bs.length = m
  | 0, bs => by simp [allStrings]
  | m + 1, bs => by
    simp only [allStrings, List.mem_flatMap, List.mem_map, mem_allStrings m, List.mem_range]
    constructor
    · rintro ⟨b, _, bs, h, rfl⟩; simp [h]
    · intro h
      cases bs with
      | nil => simp at h
      | cons c bs => exact ⟨c.toNat, c.toNat_lt, bs, by simpa using h, by simp⟩

theorem nodup_allStrings : ∀ m : ℕ, (allStrings m).Nodup
  | 0 => by simp [allStrings]
  | m + 1 => by
    rw [allStrings, List.nodup_flatMap]
    refine ⟨fun b _ => (nodup_allStrings m).map fun x y h => by injection h, ?_⟩
    refine List.Pairwise.imp_of_mem ?_ List.nodup_range
    intro a b ha hb hab
    simp only [Function.onFun, List.disjoint_left, List.mem_map]
    rintro _ ⟨x, _, rfl⟩ ⟨y, _, h⟩
    injection h with h _
    apply hab
    have := congrArg UInt8.toNat h
    simp only [UInt8.toNat_ofNat'] at this
    rw [List.mem_range] at ha hb
    omega

/-- Number of byte strings of length `m` from which `sample_ternary` produces the vector `t`. -/
def ways (m : ℕ) (arr t : List Int) : ℕ :=
  (allStrings m).countP fun bs => decide (sampleTernary bs arr 0 t.length = .ok (t, t.length))

/-- The same number by recursion on the length. -/
def waysRec : ℕ → ℕ → ℕ
  | 0, n => if n = 0 then 1 else 0
  | m + 1, n => if n = 0 then 256 * waysRec m n else
      13 * waysRec m n + 3 ^ (5 - n) * waysRec m (n - 5)

theorem countP_stream : ∀ (m : ℕ) (t : List Int), (∀ x ∈ t, Trit x) →
    ((allStrings m).countP fun bs => decide ((tritStream bs).take t.length = t)) = waysRec m t.length
  | 0, t, _ => by
    cases t <;> simp [allStrings, waysRec, tritStream]
  | m + 1, t, ht => by
    rw [allStrings, List.countP_flatMap]
    simp only [List.countP_map, Function.comp_def]
    by_cases h0 : t = []
    · subst h0
      have := countP_stream m [] (by simp)
      simp only [List.length_nil, List.take_zero] at this ⊢
      rw [this, waysRec, if_pos rfl, List.map_const', List.sum_replicate, List.length_range]
      rfl
    · have hn : t.length ≠ 0 := by simpa using h0
      have step : ∀ b ∈ List.range 256, ((allStrings m).countP fun bs =>
          decide ((tritStream (UInt8.ofNat b :: bs)).take t.length = t)) =
          (if ¬ Good (UInt8.ofNat b) then waysRec m t.length else 0) +
          (if Good (UInt8.ofNat b) ∧ (byteTrits (UInt8.ofNat b)).take (t.take 5).length = t.take 5
            then waysRec m (t.length - 5) else 0) := by
        intro b _
        by_cases hg : Good (UInt8.ofNat b)
        · rw [if_neg (by simpa using hg), Nat.zero_add]
          have hsplit : ∀ bs, (tritStream (UInt8.ofNat b :: bs)).take t.length = t ↔
              (byteTrits (UInt8.ofNat b)).take (t.take 5).length = t.take 5 ∧
              (tritStream bs).take (t.drop 5).length = t.drop 5 := by
            intro bs
            rw [tritStream_cons_good hg, List.take_append, byteTrits_length]
            have hd : (t.drop 5).length = t.length - 5 := by simp
            have h5 : (t.take 5).length = min 5 t.length := by simp
            rw [hd, h5]
            have htk : (byteTrits (UInt8.ofNat b)).take (min 5 t.length) =
                (byteTrits (UInt8.ofNat b)).take t.length := by
              by_cases h : t.length ≤ 5
              · rw [Nat.min_eq_right h]
              · rw [Nat.min_eq_left (by omega), List.take_of_length_le (by rw [byteTrits_length]),
                  List.take_of_length_le (by rw [byteTrits_length]; omega)]
            rw [htk]
            constructor
            · intro h
              have hl : ((byteTrits (UInt8.ofNat b)).take t.length).length = (t.take 5).length := by
                simp [byteTrits_length, Nat.min_comm]
              have h' : (byteTrits (UInt8.ofNat b)).take t.length ++
                  (tritStream bs).take (t.length - 5) = t.take 5 ++ t.drop 5 := by
                rw [h, List.take_append_drop]
              exact List.append_inj h' hl
            · rintro ⟨h1, h2⟩
              rw [h1, h2, List.take_append_drop]
          by_cases hp : (byteTrits (UInt8.ofNat b)).take (t.take 5).length = t.take 5
          · rw [if_pos ⟨hg, hp⟩]
            have := countP_stream m (t.drop 5) fun x hx => ht x (List.mem_of_mem_drop hx)
            rw [List.length_drop] at this
            rw [← this]
            refine List.countP_congr fun bs _ => ?_
            simp only [decide_eq_true_eq, hsplit bs, hp, true_and, List.length_drop]
          · rw [if_neg fun h => hp h.2, List.countP_eq_zero]
            intro bs _
            simp only [decide_eq_true_eq, hsplit bs, hp, false_and, not_false_eq_true]
        · rw [if_pos hg, if_neg fun h => hg h.1, Nat.add_zero]
          rw [← countP_stream m t ht]
          refine List.countP_congr fun bs _ => ?_
          rw [tritStream_cons_bad hg]
      rw [List.map_congr_left step]
      have hsum : ∀ (l : List ℕ) (f g : ℕ → ℕ), (l.map fun b => f b + g b).sum =
          (l.map f).sum + (l.map g).sum := by
        intro l f g
        induction l with
        | nil => rfl
        | cons a l ih => simp only [List.map_cons, List.sum_cons, ih]; omega
      have hif : ∀ (l : List ℕ) (p : ℕ → Prop) [DecidablePred p] (c : ℕ),
          (l.map fun b => if p b then c else 0).sum = l.countP (fun b => decide (p b)) * c := by
        intro l p _ c
        induction l with
        | nil => simp
        | cons a l ih =>
          simp only [List.map_cons, List.sum_cons, ih, List.countP_cons]
          by_cases hp : p a
          · simp [hp]; ring
          · simp [hp]
      rw [hsum, hif, hif, byte_count (t.take 5) (fun x hx => ht x (List.mem_of_mem_take hx)) (by simp)]
      have h13 : ((List.range 256).countP fun b => decide (¬ Good (UInt8.ofNat b))) = 13 := by
        have e : ((List.range 256).countP fun b => decide (¬ Good (UInt8.ofNat b))) =
            (List.range 256).countP fun b => Nat.ble 243 b := by
          refine List.countP_congr fun b hb => ?_
          have hb' : (UInt8.ofNat b).toNat = b := by
            simp only [UInt8.toNat_ofNat']
            exact Nat.mod_eq_of_lt (by simpa using hb)
          rw [decide_eq_true_eq, Good, hb', Nat.ble_eq]
          omega
        rw [e]
        decide +kernel
      have h5 : 5 - (t.take 5).length = 5 - t.length := by rw [List.length_take]; omega
      rw [h13, waysRec, if_neg hn, h5]

/-- **C10.** Sampling is unbiased: among all byte strings of any length `m`, every vector of `n`
trits is produced by the same number of strings (so uniform bytes give uniform, independent
trits, also after rejections and when the last group is cut). -/
theorem C10_sampling_uniform (m n : ℕ) (arr arr' t t' : List Int) (ha : arr.length = n)
    (ha' : arr'.length = n) (hl : t.length = n) (hl' : t'.length = n) (ht : ∀ x ∈ t, Trit x)
    (ht' : ∀ x ∈ t', Trit x) : ways m arr t = ways m arr' t' := by
  have key : ∀ arr t : List Int, arr.length = n → t.length = n → (∀ x ∈ t, Trit x) →
      ways m arr t = waysRec m n := by
    intro arr t ha hl ht
    rw [← hl, ← countP_stream m t ht, ways]
    refine List.countP_congr fun bs _ => ?_
    simp only [decide_eq_true_eq]
    exact sampleTernary_full (by omega) rfl
  rw [key arr t ha hl ht, key arr' t' ha' hl' ht']

/-- What `ways` counts: each string of length `m` once. -/
example (m : ℕ) : (allStrings m).Nodup ∧ ∀ bs, bs ∈ allStrings m ↔ bs.length = m :=
  ⟨nodup_allStrings m, mem_allStrings m⟩

example : ∃ arr t t' : List Int, arr.length = 7 ∧ t.length = 7 ∧ t'.length = 7 ∧
    (∀ x ∈ t, Trit x) ∧ (∀ x ∈ t', Trit x) ∧ t ≠ t' :=
  ⟨List.replicate 7 0, [1, 0, -1, 0, 1, 1, 0], [0, 0, 0, -1, -1, 1, 1], by simp, by simp, by simp,
    by simp [Trit], by simp [Trit], by decide⟩

/-- **C10.** For whole groups the correspondence is one to one: every vector of `5m` trits is
produced by exactly one string of `m` bytes. -/
theorem C10_sampling_bijective (m : ℕ) (arr t : List Int) (ha : arr.length = 5 * m)
    (hl : t.length = 5 * m) (ht : ∀ x ∈ t, Trit x) :
    ∃! bs : List UInt8, bs.length = m ∧ sampleTernary bs arr 0 (5 * m) = .ok (t, 5 * m) := by
  have hr0 : ∀ m n, m * 5 < n → waysRec m n = 0 := by
    intro m
    induction m with
    | zero => intro n h; simp [waysRec]; omega
    | succ m ih =>
      intro n h
      rw [waysRec, if_neg (by omega), ih n (by omega), ih (n - 5) (by omega)]
      omega
  have hr : ∀ m, waysRec m (5 * m) = 1 := by
    intro m
    induction m with
    | zero => rfl
    | succ m ih =>
      rw [waysRec, if_neg (by omega), hr0 m _ (by omega), show 5 * (m + 1) - 5 = 5 * m by omega, ih,
        show 5 - 5 * (m + 1) = 0 by omega]
      rfl
  have hcount := countP_stream m t ht
  rw [hl, hr] at hcount
  obtain ⟨bs, hbs, hp⟩ := List.countP_pos_iff.1 (by rw [hcount]; exact Nat.one_pos)
  simp only [decide_eq_true_eq] at hp
  refine ⟨bs, ⟨(mem_allStrings m bs).1 hbs, (sampleTernary_full ha hl).2 hp⟩, ?_⟩
  rintro bs' ⟨hl', hp'⟩
  have hp'' := (sampleTernary_full ha hl).1 hp'
  have hmem := (mem_allStrings m bs').2 hl'
  rw [List.countP_eq_length_filter, List.length_eq_one_iff] at hcount
  obtain ⟨c, hc⟩ := hcount
  have h1 : bs ∈ [c] := hc ▸ List.mem_filter.2 ⟨hbs, by simpa using hp⟩
  have h2 : bs' ∈ [c] := hc ▸ List.mem_filter.2 ⟨hmem, by simpa using hp''⟩
  rw [List.mem_singleton] at h1 h2
  rw [h1, h2]

example : ∃ arr t : List Int, arr.length = 5 * 2 ∧ t.length = 5 * 2 ∧ ∀ x ∈ t, Trit x :=
  ⟨List.replicate 10 0, [1, 0, -1, 0, 1, 1, 0, -1, -1, 0], by simp, by simp, by simp [Trit]⟩

/-- **C10.** Every challenge vector is reachable from some XOF output with blocks of 136 bytes. -/
theorem C10_challenge_reachable (reps : ℕ) (t challs : List Int) (hc : challs.length = reps)
    (hl : t.length = reps) (ht : ∀ x ∈ t, Trit x) :
    ∃ (blocks : ℕ → List UInt8) (fuel k : ℕ), (∀ i, (blocks i).length = 136) ∧
      challenge reps blocks fuel challs = .finished t k := by
  -- pad the target to whole groups and take the bytes that produce it
  obtain ⟨bs, ⟨hbl, hbs⟩, _⟩ := C10_sampling_bijective reps (List.replicate (5 * reps) 0)
    (t ++ List.replicate (4 * reps) 0) (by simp) (by simp; omega)
    (fun x hx => by
      rcases List.mem_append.1 hx with h | h
      · exact ht x h
      · rw [List.eq_of_mem_replicate h]; exact .inr (.inl rfl))
  rw [sampleTernary_full (by simp) (by simp; omega)] at hbs
  let s : ℕ → UInt8 := fun i => bs.getD i 0
  let blocks : ℕ → List UInt8 := fun k => (List.range 136).map fun i => s (136 * k + i)
  have hfb : ∀ k, firstBlocks blocks k = (List.range (136 * k)).map s := by
    intro k
    induction k with
    | zero => simp [firstBlocks]
    | succ k ih =>
      have : firstBlocks blocks (k + 1) = firstBlocks blocks k ++ blocks k := by
        simp [firstBlocks, List.range_succ]
      rw [this, ih, Nat.mul_succ, List.range_add, List.map_append, List.map_map]
      rfl
  have hpre : ∃ u, firstBlocks blocks reps = bs ++ u := by
    refine ⟨((List.range (136 * reps)).map s).drop bs.length, ?_⟩
    rw [hfb]
    have : ((List.range (136 * reps)).map s).take bs.length = bs := by
      apply List.ext_getElem
      · simp; omega
      · intro i h1 h2
        simp [s]
        rw [List.getElem?_eq_getElem h2]; rfl
    conv_lhs => rw [← List.take_append_drop bs.length ((List.range (136 * reps)).map s), this]
  obtain ⟨u, hu⟩ := hpre
  have hstream : (tritStream (firstBlocks blocks reps)).take reps = t ∧
      reps ≤ (tritStream (firstBlocks blocks reps)).length := by
    have h5 : 5 * reps ≤ (tritStream bs).length := by
      have := congrArg List.length hbs
      simp at this; omega
    rw [hu, tritStream_append]
    refine ⟨?_, by simp; omega⟩
    rw [List.take_append_of_le_length (by omega)]
    have := congrArg (List.take reps) hbs
    rw [List.take_take, Nat.min_eq_left (by omega), List.take_append_of_le_length (by omega)] at this
    rw [this, List.take_of_length_le (by omega)]
  have hs := challenge_spec reps blocks reps challs hc
  match hcc : challenge reps blocks reps challs with
  | .oob => rw [hcc] at hs; exact hs.elim
  | .running => rw [hcc, seg_zero] at hs; simp only at hs; omega
  | .finished t' k =>
    refine ⟨blocks, reps, k, by simp [blocks], ?_⟩
    rw [hcc]
    have := C09_challenge_streaming reps blocks reps challs t' k hc hcc
    rw [hcc] at hs
    rw [this reps hs.1, hstream.1]

example : ∃ t challs : List Int, challs.length = 329 ∧ t.length = 329 ∧ (∀ x ∈ t, Trit x) ∧ 1 ∈ t :=
  ⟨1 :: List.replicate 328 (-1), List.replicate 329 0, List.length_replicate,
    by rw [List.length_cons, List.length_replicate],
    fun x hx => by
      rcases List.mem_cons.1 hx with h | h
      · exact .inr (.inr h)
      · exact .inl (List.eq_of_mem_replicate h),
    List.mem_cons_self⟩

/-! ## C11 -/

/-- **C11.** Sampling `reps` trits finishes iff the stream contains at least `⌈reps/5⌉` usable
bytes. -/
theorem C11_finishes_iff (reps : ℕ) (blocks : ℕ → List UInt8) (challs : List Int)
    (hc : challs.length = reps) :
    (∃ fuel t k, challenge reps blocks fuel challs = .finished t k) ↔
      ∃ k, (reps + 4) / 5 ≤ goodBytes blocks k := by
  have hlen : ∀ k, (seg blocks 0 k).length = 5 * goodBytes blocks k := by
    intro k; rw [seg_zero, tritStream_length]; rfl
  constructor
  · rintro ⟨fuel, t, k, h⟩
    have hs := challenge_spec reps blocks fuel challs hc
    rw [h] at hs
    refine ⟨k, ?_⟩
    have := hs.2.2.1
    rw [hlen] at this
    omega
  · rintro ⟨k, hk⟩
    have hs := challenge_spec reps blocks k challs hc
    match hcc : challenge reps blocks k challs with
    | .oob => rw [hcc] at hs; exact hs.elim
    | .running => rw [hcc] at hs; simp only [hlen] at hs; omega
    | .finished t k' => exact ⟨k, t, k', hcc⟩

/-- **C11.** No block is read beyond the one containing the last byte needed, and the verdict
"finished" is stable: it does not depend on how long one is prepared to wait. -/
theorem C11_reads_minimal (reps : ℕ) (blocks : ℕ → List UInt8) (fuel : ℕ) (challs t : List Int)
    (k : ℕ) (hc : challs.length = reps) (h : challenge reps blocks fuel challs = .finished t k) :
    (reps + 4) / 5 ≤ goodBytes blocks k ∧ (∀ i < k, goodBytes blocks i < (reps + 4) / 5) ∧
    ∀ fuel', fuel ≤ fuel' → challenge reps blocks fuel' challs = .finished t k := by
  have hlen : ∀ k, (seg blocks 0 k).length = 5 * goodBytes blocks k := by
    intro k; rw [seg_zero, tritStream_length]; rfl
  have hs := challenge_spec reps blocks fuel challs hc
  rw [h] at hs
  obtain ⟨h1, h2, h3, h4⟩ := hs
  rw [hlen] at h3
  refine ⟨by omega, fun i hi => by have := h4 i hi; rw [hlen] at this; omega, ?_⟩
  intro fuel' hf
  have hs' := challenge_spec reps blocks fuel' challs hc
  match hcc : challenge reps blocks fuel' challs with
  | .oob => rw [hcc] at hs'; exact hs'.elim
  | .running =>
    rw [hcc] at hs'
    simp only at hs'
    exfalso
    have hmono : ∀ a b, a ≤ b → (seg blocks 0 a).length ≤ (seg blocks 0 b).length := by
      intro a b hab
      obtain ⟨d, rfl⟩ := Nat.exists_eq_add_of_le hab
      rw [seg_zero, seg_zero, firstBlocks, firstBlocks, List.range_add, List.flatMap_append,
        tritStream_append, List.length_append]
      omega
    have := hmono k fuel' (by omega)
    rw [hlen k] at this
    omega
  | .finished t' k' =>
    rw [hcc] at hs'
    obtain ⟨g1, g2, g3, g4⟩ := hs'
    have : k = k' := by
      rcases Nat.lt_trichotomy k k' with hlt | heq | hgt
      · have := g4 k hlt; rw [hlen] at this; omega
      · exact heq
      · have := h4 k' hgt; omega
    subst this
    rw [h2, g2]

example : ∃ challs t k, challs.length = 219 ∧
    challenge 219 (fun _ => List.replicate 136 7) 1 challs = .finished t k :=
  ⟨List.replicate 219 99, exRun.choose, exRun.choose_spec.choose, List.length_replicate,
    exRun.choose_spec.choose_spec⟩

end Secuer.Challenge
