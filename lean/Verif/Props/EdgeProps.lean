import Verif.Props.TextProps
import Verif.Props.ChallengeProps
import Verif.Props.KeccakProps
import Verif.Props.UtilProps
import Verif.Props.KemProps

/-!
# The edges of the elementary operations

The theorems about the functions of the code say that no access is out of bounds, and so never meet the case that one is.  Here is what the
elementary operations of the models do at their limits: the first index outside an array is refused, the last one inside is not.
-/

namespace Secuer.EdgeProps

/-! ## Text (C01-C07, C22) -/

/-- The value of a byte as a `signed char` -/
def schar (c : UInt8) : Int := if c.toNat < 128 then c.toNat else (c.toNat : Int) - 256

/-- Undefined behaviour of `isxdigit` exactly for the values that are neither an `unsigned char` nor `EOF` (C11 7.4p1) -/
theorem ctypeUB_iff (c : UInt8) : Text.ctypeUB c = true ↔ ¬ (0 ≤ schar c ∧ schar c ≤ 255) ∧ schar c ≠ -1 := by
  have h := c.toNat_lt
  simp only [Text.ctypeUB, schar, Bool.and_eq_true, decide_eq_true_eq]
  split <;> omega

example : Text.ctypeUB 128 = true ∧ Text.ctypeUB 254 = true ∧ Text.ctypeUB 127 = false ∧ Text.ctypeUB 255 = false := by decide

/-- The tag of a response in memory may be any `int`, and nothing else. -/
theorem tag_range {P : Params} {r : Text.CResp} (h : r.WF P) (v : Int) : Text.CResp.WF P { r with tag := v } ↔ -2 ^ 31 ≤ v ∧ v < 2 ^ 31 := by
  obtain ⟨h1, h2, h3, -, -⟩ := h
  constructor
  · rintro ⟨-, -, -, h4, h5⟩
    simp only at h4 h5
    omega
  · rintro ⟨h4, h5⟩
    exact ⟨h1, h2, h3, by simp only; omega, by simp only; omega⟩

/-! ## Challenge (C08-C11) -/

/-- `trits[i] = x` is defined exactly for the indices of the array. -/
theorem trit_store (ts : List Int) (i : ℕ) (x : Int) :
    (Challenge.store ts i x = .oob ↔ ts.length ≤ i) ∧ (i < ts.length → Challenge.store ts i x = .ok (ts.set i x)) := by
  unfold Challenge.store
  refine ⟨?_, fun h => if_pos h⟩
  by_cases h : i < ts.length
  · rw [if_pos h]
    simp only [reduceCtorEq, false_iff]
    omega
  · rw [if_neg h]
    simp only [true_iff]
    omega

/-! ## Utilities (C25, C52) -/

theorem byte_store (bs : List UInt8) (i : ℕ) (c : UInt8) :
    (Util.store bs i c = .ub ↔ bs.length ≤ i) ∧ (i < bs.length → Util.store bs i c = .ok (bs.set i c)) := by
  unfold Util.store
  refine ⟨?_, fun h => if_pos h⟩
  by_cases h : i < bs.length
  · rw [if_pos h]
    simp only [reduceCtorEq, false_iff]
    omega
  · rw [if_neg h]
    simp only [true_iff]
    omega

/-- `memset` may fill an array to its end and not beyond; what lies behind the bytes set is kept. -/
theorem memset_edge (bs : List UInt8) (c : UInt8) (n : ℕ) : (Util.memset bs c n = .ub ↔ bs.length < n) ∧
    (n ≤ bs.length → ∃ r, Util.memset bs c n = .ok r ∧ r.length = bs.length ∧ ∀ i (h : i < bs.length), r[i]? = some (if i < n then c else bs[i])) := by
  unfold Util.memset
  refine ⟨?_, fun h => ?_⟩
  · by_cases h : n ≤ bs.length
    · rw [if_pos h]
      simp only [reduceCtorEq, false_iff]
      omega
    · rw [if_neg h]
      simp only [true_iff]
      omega
  · rw [if_pos h]
    refine ⟨_, rfl, by simp; omega, fun i hi => ?_⟩
    by_cases g : i < n
    · rw [if_pos g, List.getElem?_append_left (by simpa using g)]
      simp [g]
    · rw [if_neg g, List.getElem?_append_right (by simp; omega)]
      simp only [List.length_replicate, List.getElem?_drop]
      rw [show n + (i - n) = i by omega, List.getElem?_eq_getElem hi]

/-- The escape sequence that clears the line: carriage return, `ESC [ K` -/
theorem eraseLine_eq : Util.eraseLine = "\r\x1b[K".toUTF8.toList := by decide +kernel

/-- `(int)nbytes` is the representative of `nbytes` modulo `2^32` in the range of `int`. -/
theorem toInt32_eq (n : ℕ) : -2 ^ 31 ≤ Util.toInt32 n ∧ Util.toInt32 n < 2 ^ 31 ∧ Util.toInt32 n % 2 ^ 32 = (n : Int) % 2 ^ 32 := by
  unfold Util.toInt32
  split <;> omega

/-- In the range of the callers, the conversions in `render_progress` change nothing. -/
theorem doneOf_eq {reps idx : ℕ} (h : idx ≤ reps) (hr : reps ≤ 438) : Util.doneOf reps idx = 63 * idx / reps := by
  unfold Util.doneOf
  rw [Nat.mod_eq_of_lt (a := 63 * idx) (by omega), Nat.mod_eq_of_lt]
  have := Nat.div_le_self (63 * idx) reps
  omega

/-! ## SHAKE256 (C13) -/

/-- All 25 lanes come from the list. -/
theorem ofList_lane (ws : List Keccak.W) (h : ws.length = 25) (i : Fin 25) : Keccak.ofList ws i = ws[i.1]'(by omega) := by
  unfold Keccak.ofList
  rw [List.getD_eq_getElem?_getD, List.getElem?_eq_getElem (by omega)]
  rfl

/-! ## Key encapsulation (C57, C58) -/

/-- A slice is defined exactly if it ends within the buffer. -/
theorem slice_none (buf : List UInt8) (i n : ℕ) : Kem.slice buf i n = none ↔ buf.length < i + n := by
  unfold Kem.slice
  by_cases h : i + n ≤ buf.length
  · rw [if_pos h]
    simp only [reduceCtorEq, false_iff]
    omega
  · rw [if_neg h]
    simp only [true_iff]
    omega

theorem put_none (buf : List UInt8) (i : ℕ) (bs : List UInt8) : Kem.put buf i bs = none ↔ buf.length < i + bs.length := by
  unfold Kem.put
  by_cases h : i + bs.length ≤ buf.length
  · rw [if_pos h]
    simp only [reduceCtorEq, false_iff]
    omega
  · rw [if_neg h]
    simp only [true_iff]
    omega

/-- The sizes of the four parameter sets fit together: a public key is six field elements, a ciphertext a public key and a message, a secret key a
message, an exponent and a public key; the shared key is as long as the message. -/
theorem sizes_fit : ∀ P ∈ [Kem.sizes434, Kem.sizes503, Kem.sizes610, Kem.sizes751], P.ss = P.msg ∧ P.ct = P.pk + P.msg ∧
    P.sk = P.msg + P.skB + P.pk := by decide

theorem sizes_pk : Kem.sizes434.pk = 6 * ((434 + 7) / 8) ∧ Kem.sizes503.pk = 6 * ((503 + 7) / 8) ∧ Kem.sizes610.pk = 6 * ((610 + 7) / 8) ∧
    Kem.sizes751.pk = 6 * ((751 + 7) / 8) := by decide

/-- If `randombytes` fails, `crypto_kem_keypair` returns 1 and leaves the public key alone. -/
theorem keypair_fails (K : Kem.Kex) (P : Kem.Sizes) (s b : Option (List UInt8)) (pk sk : List UInt8) (h : s = none ∨ b = none) {r : ℕ}
    {pk' sk' : List UInt8} (hk : Kem.keypair K P s b pk sk = some (r, pk', sk')) : r = 1 ∧ pk' = pk := by
  rcases s with _ | s
  · cases hk
    exact ⟨rfl, rfl⟩
  · rcases h with h | rfl
    · cases h
    · simp only [Kem.keypair] at hk
      cases hp : Kem.put sk 0 s with
      | none => rw [hp] at hk; cases hk
      | some v =>
        rw [hp] at hk
        cases hk
        exact ⟨rfl, rfl⟩

example : Kem.keypair ⟨id, id, fun _ _ => [], fun _ _ => none⟩ Kem.sizes434 none none [1] [2] = some (1, [1], [2]) := rfl

end Secuer.EdgeProps
