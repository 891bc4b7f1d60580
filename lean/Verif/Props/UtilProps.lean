import Verif.Util.Model
import Mathlib.Tactic.Ring
import Mathlib.Tactic.NormNum
import Mathlib.Tactic.Linarith
import Mathlib.Data.List.Basic

/-! # Properties of small functions (C25, C26, C52, C53) -/

namespace Secuer.Util

/-! ### C25: progress bar -/

/-- The bar for position `d`: `d` times `=`, then `>`, then dots. -/
def Spec.bar (d : ℕ) : List UInt8 := List.replicate d 61 ++ [62] ++ List.replicate (63 - d) 46

theorem cString_nul (l t : List UInt8) (h : ∀ c ∈ l, c ≠ 0) : cString (l ++ 0 :: t) = .ok l := by
  induction l with
  | nil => simp [cString]
  | cons a l ih =>
    rw [List.cons_append, cString, if_neg (h a (by simp)), ih fun c hc => h c (by simp [hc])]
    rfl

theorem doneOf_eq {reps idx : ℕ} (hr : 64 * reps < 2 ^ 32) (hi : idx ≤ reps) :
    doneOf reps idx = 63 * idx / reps ∧ 63 * idx / reps ≤ 63 := by
  have h1 : 63 * idx < 2 ^ 64 := by omega
  have h2 : 63 * idx / reps ≤ 63 := by
    rcases Nat.eq_zero_or_pos reps with h | h
    · simp [h]
    · exact (Nat.div_le_iff_le_mul_add_pred h).2 (by omega)
  refine ⟨?_, h2⟩
  rw [doneOf, Nat.mod_eq_of_lt h1, Nat.mod_eq_of_lt (by omega)]

theorem render_eq {reps idx last : ℕ} (hr : 64 * reps < 2 ^ 32) (hi : idx ≤ reps) :
    renderProgress reps last idx =
      .ok (if 63 * idx / reps = last then ([], last)
        else (eraseLine ++ Spec.bar (63 * idx / reps), 63 * idx / reps)) := by
  obtain ⟨hd, hle⟩ := doneOf_eq hr hi
  rw [renderProgress, if_neg (by omega)]
  simp only [hd]
  generalize 63 * idx / reps = d at hle
  split
  · rfl
  · have e1 : memset (List.replicate 65 0) 46 64 = .ok (List.replicate 64 46 ++ [0]) := by
      rw [memset, if_pos (by simp)]; rfl
    rw [e1]
    have e2 : memset (List.replicate 64 46 ++ [0]) 61 d =
        .ok (List.replicate d 61 ++ (46 :: List.replicate (63 - d) 46 ++ [0])) := by
      rw [memset, if_pos (by simp; omega)]
      congr 2
      rw [List.drop_append_of_le_length (by simp; omega), List.drop_replicate,
        ← List.replicate_succ]
      congr 2
      omega
    have e3 : store (List.replicate d 61 ++ (46 :: List.replicate (63 - d) 46 ++ [0])) d 62 =
        .ok (Spec.bar d ++ 0 :: []) := by
      rw [store, if_pos (by simp), List.set_append_right _ _ (by simp)]
      simp [Spec.bar]
    simp only [Res.bind, e2, e3]
    rw [cString_nul]
    · intro c hc
      simp only [Spec.bar, List.mem_append, List.mem_replicate, List.mem_singleton] at hc
      rcases hc with (⟨_, rfl⟩ | rfl) | ⟨_, rfl⟩ <;> decide

/-- **C25.** For every progress value up to `reps` — everything the callers pass — and whatever was
shown last, rendering stays inside its buffer, and what it prints (if the bar moved) is the line
eraser and a bar of exactly 64 visible characters with one `>`, at position `63 * idx / reps`. -/
theorem C25_render_in_bounds {P : Params} (hP : P.Supported) (last idx : ℕ) (hi : idx ≤ P.reps) :
    ∃ out last', renderProgress P.reps last idx = .ok (out, last') ∧
      last' = 63 * idx / P.reps ∧
      (out = [] ∧ last = 63 * idx / P.reps ∨
        ∃ bar, out = eraseLine ++ bar ∧ bar.length = 64 ∧ bar.count 62 = 1 ∧
          bar[63 * idx / P.reps]? = some 62 ∧ 0 ∉ bar) := by
  have hr : 64 * P.reps < 2 ^ 32 := by rcases hP with rfl | rfl | rfl | rfl <;> decide
  have hle := (doneOf_eq hr hi).2
  rw [render_eq hr hi]
  generalize 63 * idx / P.reps = d at hle
  by_cases h : d = last
  · exact ⟨_, _, by rw [if_pos h], h.symm, .inl ⟨rfl, h.symm⟩⟩
  · refine ⟨_, _, by rw [if_neg h], rfl, .inr ⟨_, rfl, ?_, ?_, ?_, ?_⟩⟩
    · simp only [Spec.bar, List.length_append, List.length_replicate, List.length_singleton]; omega
    · simp [Spec.bar, List.count_append, List.count_replicate]
    · simp [Spec.bar]
    · simp [Spec.bar, List.mem_replicate]

/-- **C25** for the callers: neither the polling loop of the main thread, whatever values it reads
from the racing counter, nor the sequential loops ever leave the buffer. -/
theorem C25_callers_in_bounds {P : Params} (hP : P.Supported) :
    (∀ vals last, mainLoop P.reps vals last ≠ .ub) ∧ (∀ last, seqLoop P.reps P.reps 0 last ≠ .ub) := by
  have hr : 64 * P.reps < 2 ^ 32 := by rcases hP with rfl | rfl | rfl | rfl <;> decide
  constructor
  · intro vals
    induction vals with
    | nil => intro last; simp [mainLoop]
    | cons v vals ih =>
      intro last
      rw [mainLoop]
      split
      · rename_i hv
        rw [render_eq hr (le_of_lt hv)]
        simp only [Res.bind]
        generalize (if 63 * v / P.reps = last then ([], last) else _ : List UInt8 × ℕ).2 = l
        cases h : mainLoop P.reps vals l
        · simp
        · exact absurd h (ih _)
      · simp [renderProgress, Res.bind]
  · have : ∀ k i last, i + k ≤ P.reps → seqLoop P.reps k i last ≠ .ub := by
      intro k
      induction k with
      | zero => intro i last _; simp [seqLoop, renderProgress, Res.bind]
      | succ k ih =>
        intro i last hik
        rw [seqLoop, render_eq hr (by omega)]
        simp only [Res.bind]
        generalize (if 63 * (i + 1) / P.reps = last then ([], last) else _ : List UInt8 × ℕ).2 = l
        cases h : seqLoop P.reps k (i + 1) l
        · simp
        · exact absurd h (ih _ _ (by omega))
    intro last
    exact this _ _ _ (by omega)

/-- The premise `idx ≤ reps` matters: a slightly larger value loses the terminating NUL. -/
example : renderProgress 219 0 223 = .ub := by decide +kernel

/-! ### C26: order bound -/

/-- `log2 3` lies between the two fractions the code uses. -/
theorem two_three : 2 ^ 1054 ≤ 3 ^ 665 ∧ 3 ^ 665 ≤ 2 ^ 1055 := by
  constructor <;> decide +kernel

/-- The parameters `(OALICE_BITS, OBOB_EXPON)` of the four primes. -/
def Spec.Exponents (e2 e3 : ℕ) : Prop :=
  (e2, e3) = (216, 137) ∨ (e2, e3) = (250, 159) ∨ (e2, e3) = (305, 192) ∨ (e2, e3) = (372, 239)

theorem provesOrder_iff {e2 e3 : ℕ} (he : Spec.Exponents e2 e3) {a b : ℕ} (ha : a < 2 ^ 32)
    (hb : b < 2 ^ 32) :
    provesOrder (.ofNat e2) (.ofNat e3) (.ofNat a) (.ofNat b) = true ↔
      665 * (2 + e2) + 1055 * e3 < 665 * a + 1054 * b := by
  have h : e2 ≤ 372 ∧ e3 ≤ 239 := by
    rcases he with h | h | h | h <;> (injection h with h1 h2; subst h1 h2; decide)
  have m : ∀ x : ℕ, x < 2 ^ 48 → x % 18446744073709551616 = x := by intro x hx; omega
  simp only [provesOrder, decide_eq_true_eq, gt_iff_lt, UInt64.lt_iff_toNat_lt, UInt64.toNat_add,
    UInt64.toNat_mul, UInt64.toNat_ofNat', UInt64.toNat_ofNat, Nat.reduceMod, Nat.reduceAdd,
    Nat.reducePow]
  rw [m e2 (by omega), m e3 (by omega), m a (by omega), m b (by omega), m (2 + e2) (by omega),
    m (665 * (2 + e2)) (by omega), m (1055 * e3) (by omega), m (665 * a) (by omega),
    m (1054 * b) (by omega), m _ (by omega), m _ (by omega)]

/-- **C26.** If the order test accepts `(a, b)` then `2^a * 3^b > 4p`, where
`p = 2^e2 * 3^e3 - 1` — for each of the four parameter sets and all exponents below `2^32`
(`unsigned` values, the type of the fields passed in). -/
theorem C26_proves_order_sound {e2 e3 : ℕ} (he : Spec.Exponents e2 e3) {a b : ℕ} (ha : a < 2 ^ 32)
    (hb : b < 2 ^ 32) (h : provesOrder (.ofNat e2) (.ofNat e3) (.ofNat a) (.ofNat b) = true) :
    4 * (2 ^ e2 * 3 ^ e3 - 1) < 2 ^ a * 3 ^ b := by
  rw [provesOrder_iff he ha hb] at h
  obtain ⟨h1, h2⟩ := two_three
  have key : (4 * (2 ^ e2 * 3 ^ e3)) ^ 665 < (2 ^ a * 3 ^ b) ^ 665 := by
    calc (4 * (2 ^ e2 * 3 ^ e3)) ^ 665 = 2 ^ (665 * (2 + e2)) * (3 ^ 665) ^ e3 := by
          rw [show 4 = 2 ^ 2 from rfl, ← mul_assoc, ← pow_add, mul_pow, ← pow_mul, ← pow_mul,
            ← pow_mul, mul_comm e3, mul_comm (2 + e2)]
      _ ≤ 2 ^ (665 * (2 + e2)) * (2 ^ 1055) ^ e3 := Nat.mul_le_mul_left _ (Nat.pow_le_pow_left h2 _)
      _ = 2 ^ (665 * (2 + e2) + 1055 * e3) := by rw [← pow_mul, ← pow_add]
      _ < 2 ^ (665 * a + 1054 * b) := Nat.pow_lt_pow_right (by decide) h
      _ = 2 ^ (665 * a) * (2 ^ 1054) ^ b := by rw [← pow_mul, ← pow_add]
      _ ≤ 2 ^ (665 * a) * (3 ^ 665) ^ b := Nat.mul_le_mul_left _ (Nat.pow_le_pow_left h1 _)
      _ = (2 ^ a * 3 ^ b) ^ 665 := by
          rw [mul_pow, ← pow_mul, ← pow_mul, ← pow_mul, mul_comm b, mul_comm a]
  have := lt_of_pow_lt_pow_left₀ 665 (Nat.zero_le _) key
  omega

/-- **C26**, converse direction: the test is not too strict. The orders `(2·e2, 2·e3)` of a full
`2^e2·3^e3`-torsion group are accepted, and so are all larger exponents. -/
theorem C26_proves_order_complete {e2 e3 : ℕ} (he : Spec.Exponents e2 e3) {a b : ℕ} (ha : a < 2 ^ 32)
    (hb : b < 2 ^ 32) (h : 2 * e2 ≤ a) (h' : 2 * e3 ≤ b) :
    provesOrder (.ofNat e2) (.ofNat e3) (.ofNat a) (.ofNat b) = true := by
  rw [provesOrder_iff he ha hb]
  rcases he with h | h | h | h <;> (injection h with h1 h2; subst h1 h2; omega)

/-- Premises are satisfiable, and the test does reject: the order of one point is never enough. -/
example : provesOrder 216 137 432 274 = true ∧ provesOrder 216 137 216 137 = false ∧
    provesOrder 216 137 219 137 = true := by decide +kernel

/-! ### C52: randombytes -/

/-- The bytes delivered by a sequence of reads. -/
def Spec.delivered : List ReadRes → List UInt8
  | [] => []
  | .err :: rs => delivered rs
  | .data bs :: rs => bs ++ delivered rs

theorem delivered_append (a b : List ReadRes) :
    Spec.delivered (a ++ b) = Spec.delivered a ++ Spec.delivered b := by
  induction a with
  | nil => rfl
  | cons x a ih => cases x <;> simp [Spec.delivered, ih]

theorem blit_blit (buf : List UInt8) (i : ℕ) (as bs : List UInt8)
    (h : i + as.length ≤ buf.length) :
    blit (blit buf i as) (i + as.length) bs = blit buf i (as ++ bs) := by
  have h1 : (buf.take i).length = i := by simp; omega
  have e1 : (blit buf i as).take (i + as.length) = buf.take i ++ as := by
    unfold blit
    rw [List.take_append_of_le_length (by simp; omega), List.take_of_length_le (by simp)]
  have e2 : (blit buf i as).drop (i + as.length + bs.length) =
      buf.drop (i + (as ++ bs).length) := by
    unfold blit
    rw [List.drop_append, List.drop_eq_nil_of_le (by simp; omega), List.nil_append, List.drop_drop]
    congr 1
    simp
    omega
  rw [blit, e1, e2, blit]
  simp

theorem blit_length (buf : List UInt8) (i : ℕ) (as : List UInt8)
    (h : i + as.length ≤ buf.length) : (blit buf i as).length = buf.length := by
  simp [blit]; omega

theorem readLoop_zero {reads : List ReadRes} {buf : List UInt8} {n : Int} {count : ℕ}
    (h : ¬ n > 0) : readLoop buf n count reads = .done buf := by
  cases reads with
  | nil => simp only [readLoop, if_neg h]
  | cons r reads => cases r <;> simp only [readLoop, if_neg h]

theorem readLoop_done {reads : List ReadRes} : ∀ {buf : List UInt8} {n : Int} {count : ℕ}
    {out : List UInt8}, 0 ≤ n → readLoop buf n count reads = .done out →
      ∃ used rest, reads = used ++ rest ∧ ((Spec.delivered used).length : Int) = n ∧
        (n = 0 ∨ count + (Spec.delivered used).length ≤ buf.length) ∧
        out = (if n = 0 then buf else blit buf count (Spec.delivered used)) := by
  have hz : ∀ (reads : List ReadRes) (buf : List UInt8) (n : Int) (count : ℕ) (out : List UInt8),
      0 ≤ n → ¬ n > 0 → readLoop buf n count reads = .done out →
      ∃ used rest, reads = used ++ rest ∧ ((Spec.delivered used).length : Int) = n ∧
        (n = 0 ∨ count + (Spec.delivered used).length ≤ buf.length) ∧
        out = (if n = 0 then buf else blit buf count (Spec.delivered used)) := by
    intro reads buf n count out h0 h1 h
    rw [readLoop_zero h1] at h
    injection h with h
    have : n = 0 := by omega
    exact ⟨[], reads, rfl, by simp [Spec.delivered, this], .inl this, by simp [this, h]⟩
  induction reads with
  | nil =>
    intro buf n count out hn h
    by_cases hp : n > 0
    · rw [readLoop, if_pos hp] at h; cases h
    · exact hz _ _ _ _ _ hn hp h
  | cons r reads ih =>
    intro buf n count out hn h
    by_cases hp : n > 0
    · cases r with
      | err =>
        rw [readLoop, if_pos hp] at h
        obtain ⟨used, rest, h1, h2, h3, h4⟩ := ih hn h
        exact ⟨.err :: used, rest, by simp [h1], h2, h3, h4⟩
      | data bs =>
        rw [readLoop, if_pos hp] at h
        split at h
        · rename_i hb
          obtain ⟨used, rest, h1, h2, h3, h4⟩ := ih (by omega) h
          have hl : ((Spec.delivered (.data bs :: used)).length : Int) = n := by
            simp only [Spec.delivered, List.length_append]; omega
          refine ⟨.data bs :: used, rest, by simp [h1], hl, ?_, ?_⟩
          · right
            simp only [Spec.delivered, List.length_append]
            rcases h3 with h3 | h3
            · have : (Spec.delivered used).length = 0 := by omega
              omega
            · rw [blit_length _ _ _ hb.2] at h3; omega
          · rw [if_neg (by omega), h4]
            simp only [Spec.delivered]
            split
            · have : Spec.delivered used = [] := by
                apply List.eq_nil_of_length_eq_zero; omega
              rw [this, List.append_nil]
            · exact blit_blit _ _ _ _ hb.2
        · cases h
    · exact hz _ _ _ _ _ hn hp h

/-- **C52.** Whenever `randombytes` returns, for a request below 2 GiB that fits the buffer, it has
consumed a prefix of the read results that delivered exactly `nbytes` bytes, those bytes are at
the front of the buffer in order, and the rest of the buffer is untouched. -/
theorem C52_randombytes_fills {locked : Bool} {opens : List Bool} {reads : List ReadRes}
    {buf out : List UInt8} {nbytes : ℕ} (hn : nbytes < 2 ^ 31)
    (h : randombytes locked opens reads buf nbytes = .done out) :
    ∃ used rest, reads = used ++ rest ∧ (Spec.delivered used).length = nbytes ∧
      out = Spec.delivered used ++ buf.drop nbytes := by
  have key : readLoop buf (toInt32 nbytes) 0 reads = .done out := by
    induction opens generalizing locked with
    | nil =>
      cases locked
      · simp [randombytes] at h
      · simpa [randombytes] using h
    | cons o opens ih =>
      cases locked
      · exact ih (locked := o) (by rw [randombytes] at h; simpa using h)
      · simpa [randombytes] using h
  have h32 : toInt32 nbytes = nbytes := by
    unfold toInt32; split <;> omega
  rw [h32] at key
  obtain ⟨used, rest, h1, h2, h3, h4⟩ := readLoop_done (by omega) key
  have h2' : (Spec.delivered used).length = nbytes := by omega
  refine ⟨used, rest, h1, h2', ?_⟩
  rw [h4]
  split
  · have h0 : nbytes = 0 := by omega
    subst h0
    rw [List.eq_nil_of_length_eq_zero h2']; simp
  · simp [blit, h2']

/-- **C52**: it is never stuck once enough bytes were delivered by reads that keep within the
request (no overrun): with `n` the number of bytes requested, a sequence of reads each delivering
at most what is missing and together `nbytes` bytes makes it return. -/
theorem C52_randombytes_returns {buf : List UInt8} {nbytes : ℕ} {reads : List ReadRes}
    (hn : nbytes < 2 ^ 31) (hbuf : nbytes ≤ buf.length)
    (hlen : (Spec.delivered reads).length = nbytes) :
    ∃ out, randombytes true [] reads buf nbytes = .done out := by
  have h32 : toInt32 nbytes = nbytes := by
    unfold toInt32; split <;> omega
  have : ∀ (reads : List ReadRes) (buf : List UInt8) (n : Int) (count : ℕ),
      ((Spec.delivered reads).length : Int) = n → count + (Spec.delivered reads).length ≤ buf.length →
      ∃ out, readLoop buf n count reads = .done out := by
    intro reads
    induction reads with
    | nil =>
      intro buf n count h _
      exact ⟨buf, readLoop_zero (by simp [Spec.delivered] at h; omega)⟩
    | cons r reads ih =>
      intro buf n count h hb
      by_cases hp : n > 0
      · cases r with
        | err =>
          rw [readLoop, if_pos hp]
          exact ih _ _ _ h hb
        | data bs =>
          simp only [Spec.delivered, List.length_append] at h hb
          rw [readLoop, if_pos hp, if_pos ⟨by omega, by omega⟩]
          refine ih _ _ _ (by omega) ?_
          rw [blit_length _ _ _ (by omega)]
          omega
      · exact ⟨_, readLoop_zero hp⟩
  simp only [randombytes, if_true, h32]
  exact this _ _ _ _ (by omega) (by omega)

/-- **C52** (finding): a device that keeps reporting end of file makes it wait for ever. -/
theorem C52_eof_loops (buf : List UInt8) {nbytes : ℕ} (h0 : 0 < nbytes) (hn : nbytes < 2 ^ 31)
    (k : ℕ) : randombytes true [] (List.replicate k (.data [])) buf nbytes = .waiting := by
  have h32 : toInt32 nbytes = nbytes := by
    unfold toInt32; split <;> omega
  simp only [randombytes, if_true, h32]
  have hb : blit buf 0 [] = buf := by simp [blit]
  induction k with
  | zero => rw [List.replicate_zero, readLoop, if_pos (by omega)]
  | succ k ih =>
    rw [List.replicate_succ, readLoop, if_pos (by omega),
      if_pos ⟨by simp only [List.length_nil]; omega, by simp⟩, hb]
    simpa using ih

/-- **C52** (finding): the request is narrowed to a 32-bit `int`, so for `2^31 ≤ nbytes < 2^32` the
function reports success without writing anything. -/
theorem C52_large_request_unfilled (reads : List ReadRes) (buf : List UInt8) {nbytes : ℕ}
    (h1 : 2 ^ 31 ≤ nbytes) (h2 : nbytes < 2 ^ 32) :
    randombytes true [] reads buf nbytes = .done buf := by
  have h32 : toInt32 nbytes ≤ 0 := by
    unfold toInt32; split <;> omega
  rw [randombytes, if_pos rfl, readLoop_zero (by omega)]

/-- Non-vacuous: three reads, one of them failing, one short. -/
example : randombytes false [false, true] [.err, .data [1, 2], .data [3], .data [9]] [0, 0, 0, 7] 3 =
    .done [1, 2, 3, 7] := by decide +kernel

/-! ### C53: constant-time helpers -/

theorem u8_or_zero (a b : UInt8) : a ||| b = 0 ↔ a = 0 ∧ b = 0 := by
  constructor
  · intro h
    have h' := congrArg UInt8.toBitVec h
    simp only [UInt8.toBitVec_or] at h'
    have h0 : (0 : UInt8).toBitVec = 0#8 := rfl
    rw [h0] at h'
    refine ⟨UInt8.eq_of_toBitVec_eq ?_, UInt8.eq_of_toBitVec_eq ?_⟩ <;> rw [h0] <;>
      (ext i hi
       have := congrArg (fun v => v[i]) h'
       simp at this
       simp [this])
  · rintro ⟨rfl, rfl⟩; rfl

theorem ctAcc_zero (a b : List UInt8) (h : a.length = b.length) :
    ∀ r, ctAcc r a b = 0 ↔ r = 0 ∧ a = b := by
  induction a generalizing b with
  | nil =>
    intro r
    cases b with
    | nil => simp [ctAcc]
    | cons _ _ => simp at h
  | cons x a ih =>
    intro r
    cases b with
    | nil => simp at h
    | cons y b =>
      rw [ctAcc, ih b (by simpa using h), u8_or_zero, UInt8.xor_eq_zero_iff]
      constructor
      · rintro ⟨⟨h1, h2⟩, h3⟩; exact ⟨h1, by rw [h2, h3]⟩
      · rintro ⟨h1, h2⟩; injection h2 with h2 h3; exact ⟨⟨h1, h2⟩, h3⟩

/-- The final expression on all 256 accumulator values. -/
theorem shift_table : ∀ r : Fin 256,
    ((-((BitVec.ofFin r : BitVec 8).setWidth 32)).sshiftRight 31).setWidth 8 =
      if r = 0 then 0#8 else 255#8 := by decide +kernel

/-- **C53.** `ct_compare` returns 0 exactly for equal buffers, and -1 (`0xFF`) otherwise. -/
theorem C53_ct_compare (a b : List UInt8) (h : a.length = b.length) :
    ctCompare a b = if a = b then 0#8 else 255#8 := by
  have h1 := shift_table (ctAcc 0 a b).toBitVec.toFin
  have h2 := ctAcc_zero a b h 0
  rw [ctCompare]
  rw [show (BitVec.ofFin (ctAcc 0 a b).toBitVec.toFin : BitVec 8) = (ctAcc 0 a b).toBitVec from rfl] at h1
  rw [h1]
  have : (ctAcc 0 a b).toBitVec.toFin = 0 ↔ a = b := by
    constructor
    · intro hz
      refine (h2.1 ?_).2
      apply UInt8.eq_of_toBitVec_eq
      exact congrArg BitVec.ofFin hz
    · intro he
      rw [h2.2 ⟨rfl, he⟩]; rfl
  by_cases he : a = b
  · rw [if_pos he, if_pos (this.2 he)]
  · rw [if_neg he, if_neg (fun hh => he (this.1 hh))]

/-- **C53.** `ct_cmov` with selector `0xFF` copies the source, with selector `0` keeps the
destination. -/
theorem C53_ct_cmov (r a : List UInt8) (h : r.length = a.length) :
    ctCmov 255 r a = a ∧ ctCmov 0 r a = r := by
  induction r generalizing a with
  | nil => cases a <;> simp_all [ctCmov]
  | cons x r ih =>
    cases a with
    | nil => simp at h
    | cons y a =>
      obtain ⟨h1, h2⟩ := ih a (by simpa using h)
      have e1 : x ^^^ ((255 : UInt8) &&& (y ^^^ x)) = y := by
        rw [show (255 : UInt8) = -1 from rfl, UInt8.neg_one_and, UInt8.xor_comm y x,
          ← UInt8.xor_assoc, UInt8.xor_self, UInt8.zero_xor]
      have e2 : x ^^^ ((0 : UInt8) &&& (y ^^^ x)) = x := by
        rw [UInt8.zero_and, UInt8.xor_zero]
      simp only [ctCmov, h1, h2, e1, e2, and_self]

example : ctCompare [1, 2, 3] [1, 2, 3] = 0 ∧ ctCompare [1, 2, 3] [1, 2, 131] = 255 := by
  decide +kernel
example : ctCmov 255 [1, 2] [3, 4] = [3, 4] := by decide +kernel

end Secuer.Util
