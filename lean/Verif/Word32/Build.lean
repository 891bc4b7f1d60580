import Verif.Word32.Bytes
import Verif.WCurve.RefineChain

/-!
# The portable build with 32-bit digits as a build of the field arithmetic

The code above the field arithmetic (`Verif/WCurve`, `Verif/WProtocol`) is written with arrays of 64-bit words.  An array of
`digit_t` of a 32-bit build is the same memory, two digits to a word (`split`, `join`).
-/

namespace Secuer.Word32

open Secuer.Word (UInt Arith ArithOK RandOK Bit)
open Secuer.Field Secuer.Scalar

/-- The `uint64_t` at the place of two consecutive `uint32_t`, for an array of an even number of digits -/
def join : List Digit → List Word.Digit
  | a :: b :: xs => (b ++ a : BitVec 64) :: join xs
  | _ => []

/-- Both components -/
def join2 (x : F2) : Word.F2 := ⟨join x.c0, join x.c1⟩

theorem join_split : ∀ a : List Word.Digit, join (split a) = a
  | [] => rfl
  | x :: xs => by
    rw [split, join, join_split xs]
    congr 1
    apply BitVec.eq_of_toNat_eq
    have := x.isLt
    rw [BitVec.toNat_append, BitVec.toNat_setWidth, BitVec.toNat_setWidth, BitVec.toNat_ushiftRight,
      Nat.shiftRight_eq_div_pow, ← Nat.shiftLeft_add_eq_or_of_lt (by omega), Nat.shiftLeft_eq]
    omega

theorem join2_split2 (a : Word.F2) : join2 (split2 a) = a := by
  rw [join2, split2]
  show (⟨join (split a.c0), join (split a.c1)⟩ : Word.F2) = a
  rw [join_split, join_split]

theorem join_val : ∀ (n : ℕ) (a : List Digit), a.length = 2 * n → (join a).length = n ∧ Word.val (join a) = val a ∧ split (join a) = a
  | 0, [], _ => ⟨rfl, rfl, rfl⟩
  | 0, _ :: _, h => by simp at h
  | n + 1, [], h => by simp at h
  | n + 1, [_], h => by simp at h; omega
  | n + 1, a :: b :: xs, h => by
    obtain ⟨h1, h2, h3⟩ := join_val n xs (by simp at h; omega)
    have ha := a.isLt
    have e : ((b ++ a : BitVec 64)).toNat = a.toNat + 2 ^ 32 * b.toNat := by
      rw [BitVec.toNat_append, ← Nat.shiftLeft_add_eq_or_of_lt (by omega), Nat.shiftLeft_eq]
      omega
    refine ⟨by rw [join, List.length_cons, h1], ?_, ?_⟩
    · rw [join, Word.val, h2, e, val, val]
      omega
    · rw [join, split, h3]
      congr 1
      · apply BitVec.eq_of_toNat_eq
        rw [BitVec.toNat_setWidth, e]
        omega
      · congr 1
        apply BitVec.eq_of_toNat_eq
        have hb := b.isLt
        rw [BitVec.toNat_setWidth, BitVec.toNat_ushiftRight, Nat.shiftRight_eq_div_pow, e]
        omega

/-- The routines of the portable build with 32-bit digits compiled for a level, on the contents of memory -/
@[reducible] def arith (l : Level) : Arith where
  fpadd _ a b := join (fpaddC (tables l) (split a) (split b))
  fpsub _ a b := join (fpsubC (tables l) (split a) (split b))
  subP2 _ a b := join (subP2C (tables l) (split a) (split b))
  mpAddfast a b := join (mpAddfastC (split a) (split b))
  fpmul _ a b := join (fpmulC (tables l) (split a) (split b))
  fp2sqr _ a := join2 (fp2sqrC (tables l) (split2 a))
  fp2mul _ a b := join2 (fp2mulC (tables l) (split2 a) (split2 b))
  rand _ b := join (fprand (tables l) b)

/-- It has what the code above it needs, for all levels, apart from `fprand`. -/
theorem arith_ok (l : Level) : @ArithOK (Word.tables l) l.p (arith l) :=
  @ArithOK.mk (Word.tables l) l.p (arith l)
    (fun ha hb => by show join _ = _; rw [fpaddC_split ha hb, join_split])
    (fun ha hb => by show join _ = _; rw [fpsubC_split ha hb, join_split])
    (fun ha hb => by show join _ = _; rw [subP2C_split ha hb, join_split])
    (fun ha hb => by show join _ = _; rw [mpAddfastC_split ha hb, join_split])
    (fun ha hb h => by show join _ = _; rw [fpmulC_split ha.len hb.len h, join_split])
    (fun ha => by show join2 _ = _; rw [fp2sqrC_split ha, join2_split2])
    (fun {a b} ha hb => by
      show Word.Rng2 _ _ (join2 (fp2mulC (tables l) (split2 a) (split2 b))) ∧
        Word.f2Val _ _ (join2 (fp2mulC (tables l) (split2 a) (split2 b))) = _
      rw [fp2mulC_split ha hb (by norm_num) (by norm_num) (by norm_num), join2_split2]
      exact Word.fp2mulC_spec (Word.good l) ha hb (by norm_num) (by norm_num) (by norm_num))

theorem rand_ok {l : Level} (hl : l = .l434 ∨ l = .l503) : @RandOK (Word.tables l) l.p (arith l) := by
  refine @RandOK.mk (Word.tables l) l.p (arith l) fun b hb => ?_
  obtain ⟨h1, h2⟩ := fprand_val (l := l) hb
  obtain ⟨h3, h4, _⟩ := join_val (Word.tables l).n _ (h1.trans tables_n)
  refine ⟨h3, ?_⟩
  show Word.val (join (fprand (tables l) b)) < _
  rw [h4, h2]
  have h5 : 2 ^ randBits l ≤ 2 * l.p := by rcases hl with rfl | rfl <;> decide +kernel
  exact lt_of_lt_of_le (Nat.mod_lt _ (by positivity)) h5

/-! ## Scalars -/

theorem bit_toNat {w : ℕ} (x : BitVec w) (k : ℕ) (hw : 0 < w) : ((x >>> k) &&& 1).toNat = x.toNat / 2 ^ k % 2 := by
  have h1 : (1 : BitVec w).toNat = 2 ^ 1 - 1 := by
    have : 1 < 2 ^ w := Nat.one_lt_two_pow (by omega)
    show (BitVec.ofNat w 1).toNat = _
    rw [BitVec.toNat_ofNat, Nat.mod_eq_of_lt this]; rfl
  rw [BitVec.toNat_and, h1, Nat.and_two_pow_sub_one_eq_mod, BitVec.toNat_ushiftRight, Nat.shiftRight_eq_div_pow, pow_one]

/-- The bit that `Ladder` reads is the bit of the number. -/
theorem scalarBit_val : ∀ (m : List Digit) (i : ℕ), i < 32 * m.length →
    scalarBit m i = some (BitVec.ofNat 32 (val m / 2 ^ i % 2))
  | [], i, h => by simp at h
  | x :: xs, i, h => by
    by_cases hi : i < 32
    · unfold scalarBit
      rw [Nat.div_eq_of_lt hi]
      show some _ = some _
      congr 1
      apply BitVec.eq_of_toNat_eq
      rw [BitVec.toNat_setWidth, bit_toNat _ _ (by norm_num), BitVec.toNat_ofNat, Nat.mod_eq_of_lt hi, val,
        ← Nat.toNat_testBit, ← Nat.toNat_testBit]
      congr 2
      have : (x.toNat + 2 ^ 32 * val xs) % 2 ^ 32 = x.toNat := by
        rw [Nat.add_mul_mod_self_left, Nat.mod_eq_of_lt x.isLt]
      conv_lhs => rw [← this, Nat.testBit_mod_two_pow, decide_eq_true hi, Bool.true_and]
    · have ih := scalarBit_val xs (i - 32) (by rw [List.length_cons] at h; omega)
      unfold scalarBit at ih ⊢
      rw [show i / 32 = (i - 32) / 32 + 1 by omega, List.getElem?_cons_succ, show i % 32 = (i - 32) % 32 by omega, ih, val]
      congr 2
      have e : (2 : ℕ) ^ i = 2 ^ 32 * 2 ^ (i - 32) := by rw [← pow_add]; congr 1; omega
      rw [e, ← Nat.div_div_eq_div_mul, Nat.add_mul_div_left _ _ (by positivity), Nat.div_eq_of_lt x.isLt, Nat.zero_add]

theorem scalarBit64_val (m : List Word.Digit) (i : ℕ) (h : i < 64 * m.length) :
    scalarBit64 m i = some (BitVec.ofNat 32 (Word.val m / 2 ^ i % 2)) := by
  rw [← scalarBit_split, scalarBit_val _ _ (by rw [split_length]; omega), val_split]

/-- `decode_to_digits` for scalars: as long as the array is larger than the number of bytes, the bits below are those of the
bytes, whatever the array held. -/
theorem decode_bits {dec : List Digit} {x : List UInt8} {k n i : ℕ} (hdec : dec.length = n) (hx : k ≤ x.length) (h2 : k ≤ 4 * n)
    (hi : i < 8 * k) : scalarBit (decodeToDigits dec x k n) i = some (BitVec.ofNat 32 (leNat (x.take k) / 2 ^ i % 2)) := by
  have hl : (x.take k).length = k := by rw [List.length_take, Nat.min_eq_left hx]
  have hdl : (digitBytes (dec.set (n - 1) 0)).length = 4 * n := by rw [digitBytes_length, List.length_set, hdec]
  rw [scalarBit_val _ _ (by rw [decodeToDigits, digitsOf_length]; omega), decodeToDigits,
    val_digitsOf _ _ (by rw [List.length_append, List.length_drop, hl, hdl]; omega), Word.leNat_append, hl,
    ← Nat.toNat_testBit, ← Nat.toNat_testBit]
  congr 3
  have h3 := leNat_lt (x.take k)
  rw [hl] at h3
  have e : (256 : ℕ) ^ k = 2 ^ (8 * k) := by rw [pow_mul]; norm_num
  rw [e] at h3 ⊢
  have : (leNat (x.take k) + 2 ^ (8 * k) * leNat ((digitBytes (dec.set (n - 1) 0)).drop k)) % 2 ^ (8 * k) = leNat (x.take k) := by
    rw [Nat.add_mul_mod_self_left, Nat.mod_eq_of_lt h3]
  conv_rhs => rw [← this, Nat.testBit_mod_two_pow, decide_eq_true hi, Bool.true_and]

theorem decode_bits64 {dec : List Word.Digit} {x : List UInt8} {k n i : ℕ} (hdec : dec.length = n) (hx : k ≤ x.length)
    (h2 : k ≤ 8 * n) (hi : i < 8 * k) :
    scalarBit64 (Word.decodeToDigits dec x k n) i = some (BitVec.ofNat 32 (leNat (x.take k) / 2 ^ i % 2)) := by
  have hl : (x.take k).length = k := by rw [List.length_take, Nat.min_eq_left hx]
  have hdl : (Word.digitBytes (dec.set (n - 1) 0)).length = 8 * n := by rw [Word.digitBytes_length, List.length_set, hdec]
  rw [scalarBit64_val _ _ (by rw [Word.decodeToDigits, Word.digitsOf_length]; omega), Word.decodeToDigits,
    Word.val_digitsOf _ _ (by rw [List.length_append, List.length_drop, hl, hdl]; omega), Word.leNat_append, hl,
    ← Nat.toNat_testBit, ← Nat.toNat_testBit]
  congr 3
  have h3 := leNat_lt (x.take k)
  rw [hl] at h3
  have e : (256 : ℕ) ^ k = 2 ^ (8 * k) := by rw [pow_mul]; norm_num
  rw [e] at h3 ⊢
  have : (leNat (x.take k) + 2 ^ (8 * k) * leNat ((Word.digitBytes (dec.set (n - 1) 0)).drop k)) % 2 ^ (8 * k) =
      leNat (x.take k) := by
    rw [Nat.add_mul_mod_self_left, Nat.mod_eq_of_lt h3]
  conv_rhs => rw [← this, Nat.testBit_mod_two_pow, decide_eq_true hi, Bool.true_and]

/-! ## The ladder -/

open Secuer.Curve (Pt)

/-- `swap_points` (`ec_isogeny.c:306-318`) on the contents of memory -/
def swapPoints (option : Digit) (P Q : Pt Word.F2) : Pt Word.F2 × Pt Word.F2 :=
  let sw (a b : List Word.Digit) := ((swapWords option (split a) (split b)).map join join)
  let x0 := sw P.X.c0 Q.X.c0
  let x1 := sw P.X.c1 Q.X.c1
  let z0 := sw P.Z.c0 Q.Z.c0
  let z1 := sw P.Z.c1 Q.Z.c1
  (⟨⟨x0.1, x1.1⟩, ⟨z0.1, z1.1⟩⟩, ⟨⟨x0.2, x1.2⟩, ⟨z0.2, z1.2⟩⟩)

/-- The main loop of `Ladder` (`poik.c:533-546`), `i` iterations left; `none` for an access beyond the scalar -/
def ladderLoop [Arith] (l : Level) (P : Pt Word.F2) (m : List Digit) (A24 : Word.F2) :
    ℕ → (prevbit : UInt) → Pt Word.F2 → Pt Word.F2 → Option (Pt Word.F2)
  | 0, prevbit, R0, R1 => some (swapPoints (ladderMask prevbit) R0 R1).1
  | i + 1, prevbit, R0, R1 => do
    let bit ← scalarBit m i
    let r := swapPoints (ladderMask (bit ^^^ prevbit)) R0 R1
    let r := WCurve.xDBLADD l r.1 r.2 P.X P.Z A24
    ladderLoop l P m A24 i bit r.1 r.2

/-- `Ladder` (`poik.c:518-547`) -/
def ladder [Arith] (l : Level) (P : Pt Word.F2) (m : List Digit) (A : Word.F2) (orderBits : ℕ) : Option (Pt Word.F2) :=
  let A24 := Word.fp2one (Word.tables l)
  let A24 : Word.F2 := ⟨Word.fpadd (Word.tables l) A24.c0 A24.c0, A24.c1⟩
  let A24 := Word.fp2add (Word.tables l) A A24
  let A24 := Word.fp2div2 (Word.tables l) A24
  let A24 := Word.fp2div2 (Word.tables l) A24
  ladderLoop l P m A24 orderBits 0 ⟨Word.fp2one (Word.tables l), Word.fp2zero (Word.tables l)⟩ P

/-- The array `scalar` in `Pack_Chain_A` (`poik.c:954-960`); `old` is the array before the call. -/
def scalarOf (l : Level) (old : List Digit) (m : ℕ) : List Digit :=
  let buf := Scalar.leBytes (Scalar.keyBytes l.iso.e2) m
  let buf := Scalar.maskLast (Scalar.maskAlice l.iso.e2) buf
  let buf := Scalar.setOdd buf
  decodeToDigits old buf (Scalar.keyBytes l.iso.e2) (nwordsOrder l)

theorem swapPoints_eq {c : UInt} (hc : Bit c) (P Q : Pt Word.F2) :
    swapPoints (ladderMask c) P Q = WCurve.swapPoints (- c.setWidth 64) P Q := by
  unfold swapPoints WCurve.swapPoints
  simp only [swapWords_split hc, Prod.map_apply, join_split]

theorem bit_cases {b : UInt} (hb : Bit b) : b = 0 ∨ b = 1 := by
  rcases Nat.le_one_iff_eq_zero_or_eq_one.1 hb with h | h
  · exact Or.inl (BitVec.eq_of_toNat_eq h)
  · exact Or.inr (BitVec.eq_of_toNat_eq h)

theorem bit_xor {b c : UInt} (hb : Bit b) (hc : Bit c) : Bit (b ^^^ c) := by
  rcases bit_cases hb with rfl | rfl <;> rcases bit_cases hc with rfl | rfl <;> unfold Bit <;> decide

theorem ladderLoop_eq [Arith] {l : Level} {P : Pt Word.F2} {m : List Digit} {m' : List Word.Digit} {A24 : Word.F2} :
    ∀ (i : ℕ), (∀ j < i, ∃ b, Bit b ∧ scalarBit m j = some b ∧ scalarBit64 m' j = some b) →
      ∀ (prev : UInt), Bit prev → ∀ R0 R1, ladderLoop l P m A24 i prev R0 R1 = WCurve.ladderLoop l P m' A24 i prev R0 R1
  | 0, _, prev, hp, R0, R1 => by
    rw [ladderLoop, WCurve.ladderLoop, swapPoints_eq hp]
  | i + 1, h, prev, hp, R0, R1 => by
    obtain ⟨b, hb, e1, e2⟩ := h i (Nat.lt_succ_self i)
    rw [ladderLoop, WCurve.ladderLoop, e1]
    unfold scalarBit64 at e2
    cases hw : m'[i / 64]? with
    | none => rw [hw] at e2; cases e2
    | some w =>
      rw [hw] at e2
      have e3 : ((w >>> (i % 64)) &&& 1).setWidth 32 = b := Option.some.inj e2
      show ladderLoop l P m A24 i b _ _ = WCurve.ladderLoop l P m' A24 i (((w >>> (i % 64)) &&& 1).setWidth 32) _ _
      rw [e3, swapPoints_eq (bit_xor hb hp)]
      exact ladderLoop_eq i (fun j hj => h j (Nat.lt_succ_of_lt hj)) b hb _ _

theorem ofNat_bit (k : ℕ) : Bit (BitVec.ofNat 32 (k % 2)) := by
  rcases Nat.mod_two_eq_zero_or_one k with h | h <;> rw [h] <;> unfold Bit <;> decide

/-- The scalar multiplication in `Pack_Chain_A`: the result does not depend on the bytes of the scalar that are not set. -/
theorem ladder_eq [Arith] {l : Level} {old : List Digit} {old' : List Word.Digit} (ho : old.length = nwordsOrder l)
    (ho' : old'.length = WCurve.nwordsOrder l) (P : Pt Word.F2) (A : Word.F2) (m : ℕ) :
    ladder l P (scalarOf l old m) A l.iso.e2 = WCurve.ladder l P (WCurve.scalarOf l old' m) A l.iso.e2 := by
  unfold ladder WCurve.ladder
  refine ladderLoop_eq _ (fun j hj => ?_) _ Word.bit_zero _ _
  have hk : l.iso.e2 ≤ 8 * keyBytes l.iso.e2 := by cases l <;> decide
  have h1 : keyBytes l.iso.e2 ≤ 4 * nwordsOrder l := by cases l <;> decide
  have h2 : keyBytes l.iso.e2 ≤ 8 * WCurve.nwordsOrder l := by cases l <;> decide
  have hlen : (setOdd (maskLast (maskAlice l.iso.e2) (leBytes (keyBytes l.iso.e2) m))).length = keyBytes l.iso.e2 := by
    rw [WCurve.setOdd_length, WCurve.maskLast_length, leBytes_length]
  refine ⟨_, ofNat_bit _, decode_bits ho hlen.ge h1 (by omega), decode_bits64 ho' hlen.ge h2 (by omega)⟩

end Secuer.Word32
