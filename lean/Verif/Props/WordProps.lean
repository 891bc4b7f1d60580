import Verif.Word.Encode

/-!
# Properties of the field arithmetic on machine words (C42–C51)

The code modelled is the portable backend (`P434/generic/fp_generic.c` …) and `fpx.c`, on arrays of 64-bit digits; for the
default build on x86-64 see `Verif.Props.BuildProps`.  A list of
digits stands for the integer `val x` (little endian).  `fpVal`, `f2Val` are the elements of `GF(p)`, `GF(p²)` that arrays
stand for in Montgomery representation: `val x / R` with `R = 2^(64 n)`.
-/

namespace Secuer.Word

open Secuer.Field Secuer.Scalar Secuer.Protocol

/-- Array of `NWORDS_FIELD` digits with integer value below the bound -/
abbrev In (l : Level) (b : ℕ) (x : List Digit) : Prop := x.length = (tables l).n ∧ val x < b

theorem In.rng {l : Level} {b : ℕ} {x : List Digit} (h : In l b x) : Rng (tables l) b x := ⟨h.1, h.2⟩
theorem Rng.in {l : Level} {b : ℕ} {x : List Digit} (h : Rng (tables l) b x) : In l b x := ⟨h.len, h.lt⟩

/-- Pair of arrays, each with integer value below the bound -/
abbrev In2 (l : Level) (b : ℕ) (x : F2) : Prop := In l b x.c0 ∧ In l b x.c1

theorem In2.rng {l : Level} {b : ℕ} {x : F2} (h : In2 l b x) : Rng2 (tables l) b x := ⟨h.1.rng, h.2.rng⟩
theorem Rng2.in {l : Level} {b : ℕ} {x : F2} (h : Rng2 (tables l) b x) : In2 l b x := ⟨h.c0.in, h.c1.in⟩

variable (l : Level)

/-- A concrete array used in the examples: all words zero except the lowest -/
def small (l : Level) (d : Digit) : List Digit := d :: List.replicate ((tables l).n - 1) 0

theorem small_in (d : Digit) : In l l.p (small l d) := by
  have hn := (good l).n_pos
  refine ⟨?_, ?_⟩
  · rw [small, List.length_cons, List.length_replicate]; omega
  · rw [small, val, val_replicate_zero, Nat.mul_zero, Nat.add_zero]
    have := d.isLt
    have h2 : 2 ^ 64 < l.p := by cases l <;> decide +kernel
    omega

theorem small_in2 (d e : Digit) {b : ℕ} (hb : l.p ≤ b) : In2 l b ⟨small l d, small l e⟩ :=
  ⟨⟨(small_in l d).1, lt_of_lt_of_le (small_in l d).2 hb⟩, ⟨(small_in l e).1, lt_of_lt_of_le (small_in l e).2 hb⟩⟩

/-! ## C42 -/

/-- **C42.** `fpadd` on inputs below `2p`: the result is below `2p` and congruent to the sum. -/
theorem C42_fpadd (a b : List Digit) (ha : In l (2 * l.p) a) (hb : In l (2 * l.p) b) :
    In l (2 * l.p) (fpaddC (tables l) a b) ∧ val (fpaddC (tables l) a b) ≡ val a + val b [MOD l.p] := by
  have g := good l
  have := g.room
  have h1 := ha.2
  have h2 := hb.2
  obtain ⟨hl, hv⟩ := fpadd_val g ha.1 hb.1 (by omega)
  refine ⟨⟨hl, by rw [hv]; split <;> omega⟩, ?_⟩
  rw [hv]
  split
  · rw [Nat.ModEq, ← Nat.add_mul_mod_self_right (val a + val b - 2 * l.p) 2 l.p]
    congr 1; omega
  · rfl

/-- **C42.** `fpsub` on inputs below `2p`: the result is below `2p` and congruent to the difference. -/
theorem C42_fpsub (a b : List Digit) (ha : In l (2 * l.p) a) (hb : In l (2 * l.p) b) :
    In l (2 * l.p) (fpsubC (tables l) a b) ∧ val (fpsubC (tables l) a b) + val b ≡ val a [MOD l.p] := by
  have g := good l
  have h1 := ha.2
  have h2 := hb.2
  obtain ⟨hl, hv⟩ := fpsub_val g ha.1 hb.1 (by omega)
  refine ⟨⟨hl, by rw [hv]; split <;> omega⟩, ?_⟩
  rw [hv]
  split
  · rw [Nat.sub_add_cancel (by assumption)]
  · rw [Nat.sub_add_cancel (by omega)]
    exact Nat.add_mul_mod_self_right _ _ _

/-- **C42.** `fpneg` on an input at most `2p` gives `2p - a` exactly, so `2p` from zero. -/
theorem C42_fpneg (a : List Digit) (hl : a.length = (tables l).n) (ha : val a ≤ 2 * l.p) :
    (fpneg (tables l) a).length = (tables l).n ∧ val (fpneg (tables l) a) + val a = 2 * l.p := by
  obtain ⟨h1, h2⟩ := fpneg_val (good l) hl ha
  exact ⟨h1, by omega⟩

/-- **C42.** `fpdiv2` on an input below `2p`: the result is below `2p` and twice it is congruent to the input. -/
theorem C42_fpdiv2 (a : List Digit) (ha : In l (2 * l.p) a) :
    In l (2 * l.p) (fpdiv2 (tables l) a) ∧ 2 * val (fpdiv2 (tables l) a) ≡ val a [MOD l.p] := by
  have g := good l
  have := g.room
  have := g.odd
  have h1 := ha.2
  obtain ⟨hl, hv⟩ := fpdiv2_val g ha.1 (by omega)
  refine ⟨⟨hl, by rw [hv]; split <;> omega⟩, ?_⟩
  rw [hv]
  split
  · rw [show 2 * ((val a + l.p) / 2) = val a + l.p by omega]
    exact Nat.add_mod_right _ _
  · rw [show 2 * (val a / 2) = val a by omega]

/-- **C42.** `fpcorrection` on an input below `2p` gives the least residue. -/
theorem C42_fpcorrection (a : List Digit) (ha : In l (2 * l.p) a) :
    (fpcorrection (tables l) a).length = (tables l).n ∧ val (fpcorrection (tables l) a) = val a % l.p := by
  obtain ⟨hl, hv⟩ := fpcorrection_val (good l) ha.1
  refine ⟨hl, ?_⟩
  have h1 := ha.2
  rw [hv]
  split
  · rw [Nat.mod_eq_sub_mod (by assumption), Nat.mod_eq_of_lt (by omega)]
  · rw [Nat.mod_eq_of_lt (by omega)]

/-- **C42.** `mp_sub434_p2`, `mp_sub434_p4` …: `a - b + 2p` and `a - b + 4p` without borrow or carry lost. -/
theorem C42_mp_sub (a b : List Digit) (ha : In l (4 * l.p) a) :
    (In l (2 * l.p) b → val (subP2C (tables l) a b) + val b = val a + 2 * l.p) ∧
      (In l (4 * l.p) b → val (subP4 (tables l) a b) + val b = val a + 4 * l.p) := by
  have g := good l
  have := g.room
  have h1 := ha.2
  constructor
  · rintro ⟨hb, h2⟩
    have := (subP2_val g ha.1 hb (by omega) (by omega)).2
    omega
  · rintro ⟨hb, h2⟩
    have := (subP4_val g ha.1 hb (by omega) (by omega)).2
    omega

example : In l (2 * l.p) (small l (-1)) ∧ In l (4 * l.p) (small l 5) :=
  ⟨⟨(small_in l _).1, by have := (small_in l (-1)).2; omega⟩, ⟨(small_in l _).1, by have := (small_in l 5).2; omega⟩⟩

/-- `fpadd` really reduces: `p + p` gives zero, from arrays that are not zero. -/
example : In l (2 * l.p) (tables l).p ∧ val (fpaddC (tables l) (tables l).p (tables l).p) = 0 := by
  have g := good l
  have := g.pos
  have := g.room
  refine ⟨⟨g.len_p, by rw [g.val_p]; omega⟩, ?_⟩
  rw [(fpadd_val g g.len_p g.len_p (by rw [g.val_p]; omega)).2, g.val_p, if_pos (by omega)]
  omega

/-! ## C43 -/

/-- **C43.** `digit_x_digit` returns the two halves of the exact product. -/
theorem C43_digit_x_digit (a b : Digit) :
    (digitXDigit a b).1.toNat + 2 ^ 64 * (digitXDigit a b).2.toNat = a.toNat * b.toNat := digitXDigit_spec a b

/-- **C43.** `mp_mul` stays inside its arrays and returns the exact product of `2n` digits. -/
theorem C43_mp_mul (n : ℕ) (a b : List Digit) (hn : 0 < n) (hn' : n < 2 ^ 32) (ha : a.length = n) (hb : b.length = n) :
    ∃ c, mpMul n a b = some c ∧ c.length = 2 * n ∧ val c = val a * val b := mpMul_spec hn hn' ha hb

example : ∃ c, mpMul 7 (List.replicate 7 (-1)) (List.replicate 7 (-1)) = some c ∧ c.length = 14 ∧
    val c = (2 ^ 448 - 1) * (2 ^ 448 - 1) := by
  obtain ⟨c, h1, h2, h3⟩ := C43_mp_mul 7 (List.replicate 7 (-1)) (List.replicate 7 (-1)) (by norm_num) (by norm_num) rfl rfl
  exact ⟨c, h1, h2, by rw [h3]; rfl⟩

/-! ## C44 -/

/-- **C44.** `rdc_mont` on a number of `2n` digits below `R p` stays inside its arrays, and returns a number below `2p`
which multiplied by `R` is congruent to the input. -/
theorem C44_rdc_mont (ma : List Digit) (hl : ma.length = 2 * (tables l).n)
    (h : val ma < 2 ^ (64 * (tables l).n) * l.p) :
    ∃ c, rdcMont (tables l) ma = some c ∧ In l (2 * l.p) c ∧ val c * 2 ^ (64 * (tables l).n) ≡ val ma [MOD l.p] := by
  obtain ⟨c, q, h1, h2, h3, h4⟩ := rdcMont_exact (good l) hl h
  refine ⟨c, h1, ⟨h2, lt_two_of_exact h3 h h4⟩, ?_⟩
  rw [h4]
  exact Nat.add_mul_mod_self_right _ _ _

/-- **C44.** `fpmul_mont` on inputs below `2p`: the product divided by `R`, below `2p`. -/
theorem C44_fpmul_mont (a b : List Digit) (ha : In l (2 * l.p) a) (hb : In l (2 * l.p) b) :
    ∃ c, fpmul? (tables l) a b = some c ∧ In l (2 * l.p) c ∧
      val c * 2 ^ (64 * (tables l).n) ≡ val a * val b [MOD l.p] := by
  have hb2 := mul_bound (good l) ha.2 hb.2 (by norm_num)
  obtain ⟨c, q, h1, _, h2, h3, h4⟩ := fpmul_exact (good l) ha.1 hb.1 hb2
  refine ⟨c, h1, ⟨h2, lt_two_of_exact h3 hb2 h4⟩, ?_⟩
  rw [h4]
  exact Nat.add_mul_mod_self_right _ _ _

example : ∃ ma : List Digit, ma.length = 2 * (tables l).n ∧ val ma < 2 ^ (64 * (tables l).n) * l.p ∧ val ma ≠ 0 := by
  have g := good l
  have := g.pos
  refine ⟨List.replicate (tables l).n 0 ++ small l 1, ?_, ?_, ?_⟩
  · rw [List.length_append, List.length_replicate, (small_in l 1).1]; ring
  · rw [val_append, val_replicate_zero, List.length_replicate, Nat.zero_add]
    exact Nat.mul_lt_mul_of_pos_left (small_in l 1).2 (by positivity)
  · rw [val_append, val_replicate_zero, List.length_replicate, Nat.zero_add, small, val, val_replicate_zero]
    have : (1 : Digit).toNat = 1 := rfl
    rw [this]
    positivity

/-! ## C45 -/

/-- **C45.** `fp2mul_mont` on unreduced inputs (components below `B p` and `C p`, `2BC ≤ 256`; so for instance up to `4p`
and `32p`, or `8p` and `16p`) stays inside its arrays, returns components below `2p` and the product in `GF(p²)`. -/
theorem C45_fp2mul (B C : ℕ) (hBC : 2 * B * C ≤ 256) (hB : B ≤ 64) (hC : C ≤ 64) (a b : F2) (ha : In2 l (B * l.p) a)
    (hb : In2 l (C * l.p) b) :
    ∃ c, fp2mul? (tables l) a b = some c ∧ fp2mulC (tables l) a b = c ∧ In2 l (2 * l.p) c ∧
      f2Val (tables l) l.p c = f2Val (tables l) l.p a * f2Val (tables l) l.p b := by
  obtain ⟨c, h1, h2, h3⟩ := fp2mul?_spec (good l) ha.rng hb.rng hB hC hBC
  exact ⟨c, h1, by rw [fp2mulC, h1]; rfl, h2.in, h3⟩

/-- **C45.** `fp2sqr_mont` on inputs with components below `4p` -/
theorem C45_fp2sqr (a : F2) (ha : In2 l (4 * l.p) a) :
    In2 l (2 * l.p) (fp2sqrC (tables l) a) ∧
      f2Val (tables l) l.p (fp2sqrC (tables l) a) = f2Val (tables l) l.p a ^ 2 := by
  obtain ⟨h1, h2⟩ := fp2sqrC_spec (good l) ha.rng (le_refl 4)
  exact ⟨h1.in, by rw [h2, sq]⟩

/-- **C45.** `fp2add`, `fp2sub`, `fp2neg`, `fp2div2` and `fp2correction` on inputs below `2p` -/
theorem C45_fp2_linear (a b : F2) (ha : In2 l (2 * l.p) a) (hb : In2 l (2 * l.p) b) :
    (In2 l (2 * l.p) (fp2add (tables l) a b) ∧
      f2Val (tables l) l.p (fp2add (tables l) a b) = f2Val (tables l) l.p a + f2Val (tables l) l.p b) ∧
    (In2 l (2 * l.p) (fp2sub (tables l) a b) ∧
      f2Val (tables l) l.p (fp2sub (tables l) a b) = f2Val (tables l) l.p a - f2Val (tables l) l.p b) ∧
    (In2 l (2 * l.p + 1) (fp2neg (tables l) a) ∧
      f2Val (tables l) l.p (fp2neg (tables l) a) = - f2Val (tables l) l.p a) ∧
    (In2 l (2 * l.p) (fp2div2 (tables l) a) ∧
      f2Val (tables l) l.p (fp2div2 (tables l) a) = f2Val (tables l) l.p a / 2) ∧
    (In2 l l.p (fp2correction (tables l) a) ∧
      f2Val (tables l) l.p (fp2correction (tables l) a) = f2Val (tables l) l.p a) := by
  have g := good l
  have hb' := hb.rng.mono (by omega : 2 * l.p ≤ 2 * l.p + 1)
  have ha' := ha.rng.mono (by omega : 2 * l.p ≤ 2 * l.p + 1)
  obtain ⟨h1, h2⟩ := fp2add_spec g ha.rng hb.rng (by omega)
  obtain ⟨h3, h4⟩ := fp2sub_spec g ha.rng hb'
  obtain ⟨h5, h6⟩ := fp2neg_spec g ha'
  obtain ⟨h7, h8⟩ := fp2div2_spec g ha.rng (by omega)
  obtain ⟨h9, ha⟩ := fp2correction_spec g ha.rng
  exact ⟨⟨h1.in, h2⟩, ⟨h3.in, h4⟩, ⟨h5.in, h6⟩, ⟨h7.in, h8⟩, ⟨h9.in, ha⟩⟩

/-- **C45.** `fp2inv_mont` on inputs at most `2p` returns the inverse, and zero from zero. -/
theorem C45_fp2inv (a : F2) (ha : In2 l (2 * l.p + 1) a) :
    In2 l (2 * l.p) (fp2inv (tables l) l.chain a) ∧
      f2Val (tables l) l.p (fp2inv (tables l) l.chain a) = (f2Val (tables l) l.p a)⁻¹ := by
  obtain ⟨h1, h2⟩ := fp2inv_spec (good l) l.chain_exp ha.rng
  exact ⟨h1.in, h2⟩

/-- The lazy additions `mp2_add` and `mp2_sub_p2` (`ec_isogeny.c:8-20`) lose no carry while the bounds stay below `256p`. -/
theorem C45_mp2 (B C : ℕ) (a b : F2) (ha : In2 l (B * l.p) a) (hb : In2 l (C * l.p) b) :
    (B + C ≤ 256 → In2 l ((B + C) * l.p) (mp2add a b) ∧
      f2Val (tables l) l.p (mp2add a b) = f2Val (tables l) l.p a + f2Val (tables l) l.p b) ∧
    (C ≤ 2 → B + 2 ≤ 256 → In2 l ((B + 2) * l.p) (mp2subP2 (tables l) a b) ∧
      f2Val (tables l) l.p (mp2subP2 (tables l) a b) = f2Val (tables l) l.p a - f2Val (tables l) l.p b) := by
  have g := good l
  constructor
  · intro h
    have hm := Nat.mul_le_mul_right l.p h
    obtain ⟨h1, h2⟩ := mp2add_spec g ha.rng hb.rng (by rw [← Nat.add_mul]; exact hm)
    rw [← Nat.add_mul] at h1
    exact ⟨h1.in, h2⟩
  · intro h h'
    have hm := Nat.mul_le_mul_right l.p h'
    have hc := Nat.mul_le_mul_right l.p h
    obtain ⟨h1, h2⟩ := mp2subP2_spec g ha.rng hb.rng (by omega) (by rw [← Nat.add_mul]; exact hm)
    rw [← Nat.add_mul] at h1
    exact ⟨h1.in, h2⟩

example : In2 l (8 * l.p) ⟨(tables l).x4, (tables l).x2⟩ ∧ In2 l (16 * l.p) ⟨small l 3, (tables l).x4⟩ := by
  have g := good l
  have := g.pos
  exact ⟨⟨⟨g.len_x4, by rw [g.val_x4]; omega⟩, ⟨g.len_x2, by rw [g.val_x2]; omega⟩⟩,
    ⟨⟨(small_in l 3).1, lt_of_lt_of_le (small_in l 3).2 (by omega)⟩, ⟨g.len_x4, by rw [g.val_x4]; omega⟩⟩⟩

example : In2 l (2 * l.p) ⟨small l 1, small l 2⟩ ∧ In2 l (2 * l.p + 1) ⟨(tables l).x2, small l 2⟩ ∧
    In2 l (4 * l.p) ⟨small l 1, small l 2⟩ := by
  have g := good l
  exact ⟨small_in2 l _ _ (by omega), ⟨⟨g.len_x2, by rw [g.val_x2]; omega⟩, ⟨(small_in l 2).1, lt_of_lt_of_le (small_in l 2).2 (by omega)⟩⟩,
    small_in2 l _ _ (by omega)⟩

/-! ## C46 -/

/-- **C46.** The addition chains: the chain of the parameter set reads no unassigned table entry
and computes the power `(p - 3) / 4`. -/
theorem C46_chain (v : ZMod l.p) :
    runChain (fun x => x * x) (fun x y => x * y) v l.chain.1 l.chain.2 = some (v ^ ((l.p - 3) / 4)) :=
  runChain_pow v l.chain_exp

/-- **C46.** `fpinv_chain_mont` on words -/
theorem C46_fpinv_chain_mont (a : List Digit) (ha : In l (2 * l.p) a) :
    In l (2 * l.p) (fpinvChain (tables l) l.chain a) ∧
      fpVal (tables l) l.p (fpinvChain (tables l) l.chain a) = fpVal (tables l) l.p a ^ ((l.p - 3) / 4) := by
  obtain ⟨h1, h2⟩ := fpinvChain_spec (good l) l.chain_exp ha.rng
  exact ⟨h1.in, h2⟩

/-- **C46.** `fpinv_mont` returns the inverse of every nonzero element (and zero from zero). -/
theorem C46_fpinv_mont (a : List Digit) (ha : In l (2 * l.p) a) :
    In l (2 * l.p) (fpinv (tables l) l.chain a) ∧
      (fpVal (tables l) l.p a ≠ 0 → fpVal (tables l) l.p (fpinv (tables l) l.chain a) * fpVal (tables l) l.p a = 1) ∧
      (fpVal (tables l) l.p a = 0 → fpVal (tables l) l.p (fpinv (tables l) l.chain a) = 0) := by
  obtain ⟨h1, h2⟩ := fpinv_spec (good l) l.chain_exp ha.rng
  refine ⟨h1.in, fun h => ?_, fun h => ?_⟩
  · rw [h2, inv_mul_cancel₀ h]
  · rw [h2, h, inv_zero]

/-- `Montgomery_one` represents one, so it is a nonzero element in range. -/
example : In l (2 * l.p) (tables l).one ∧ fpVal (tables l) l.p (tables l).one = 1 := by
  have g := good l
  have := g.pos
  refine ⟨⟨g.len_one, ?_⟩, ?_⟩
  · rw [g.val_one]
    have := Nat.mod_lt (2 ^ (64 * (tables l).n)) (by omega : l.p > 0)
    omega
  · have e2 : ((2 : ℕ) : ZMod l.p) = 2 := by norm_num
    rw [fpVal, g.val_one, ZMod.natCast_mod, Nat.cast_pow, e2, mul_inv_cancel₀ (R_ne_zero g)]

/-! ## C47 -/

theorem sqrt_two_lt : 2 < l.iso.e2 := by cases l <;> decide

/-- **C47.** `fp2sqrt(x, y, false)`, on `x` with components below `2p`, returns `true` exactly when `x` is a square of
`GF(p²)`, and then `y² = x`. -/
theorem C47_fp2sqrt (x : F2) (hx : In2 l (2 * l.p) x) :
    ((fp2sqrt (tables l) l.chain l.iso.e2 l.iso.e3 false x).2 = true ↔ ∃ z, z ^ 2 = f2Val (tables l) l.p x) ∧
      ((fp2sqrt (tables l) l.chain l.iso.e2 l.iso.e3 false x).2 = true →
        f2Val (tables l) l.p (fp2sqrt (tables l) l.chain l.iso.e2 l.iso.e3 false x).1 ^ 2 = f2Val (tables l) l.p x) := by
  have g := good l
  have := g.pos
  obtain ⟨r, v⟩ := fp2sqrtY_spec g l.chain_exp (sqrt_two_lt l) (half_bounds l).2.1 (half_bounds l).2.2 (e3 := l.iso.e3)
    (hx.rng.c0.mono (by omega)) hx.rng.c1
  obtain ⟨r2, v2⟩ := fp2sqr_spec g (r.mono (by omega : 2 * l.p ≤ 4 * l.p)) (le_refl 4)
  have heq := fp2equal_ne g r2 (hx.rng.mono (by omega : 2 * l.p ≤ 2 * l.p + 1))
  have e1 : (fp2sqrt (tables l) l.chain l.iso.e2 l.iso.e3 false x).1 = fp2sqrtY (tables l) l.chain l.iso.e2 l.iso.e3 x := rfl
  have e2 : (fp2sqrt (tables l) l.chain l.iso.e2 l.iso.e3 false x).2 = true ↔
      f2Val (tables l) l.p (fp2sqrtY (tables l) l.chain l.iso.e2 l.iso.e3 x) ^ 2 = f2Val (tables l) l.p x := by
    rw [sq, ← v2, ← heq]
    exact decide_eq_true_iff
  rw [e1, e2]
  refine ⟨⟨fun h => ⟨_, h⟩, ?_⟩, id⟩
  rintro ⟨z, hz⟩
  rw [v, sq]
  exact sqrtF_ok l.p_succ (sqrt_two_lt l).le (fun _ => rfl) _ ⟨z, by rw [← hz, sq]⟩

/-- **C47.** `fp2sqrt(x, y, true)` on a square: `y² = x`; it always returns `true`. -/
theorem C47_fp2sqrt_known (x : F2) (hx : In2 l (2 * l.p) x) (h : ∃ z, z ^ 2 = f2Val (tables l) l.p x) :
    (fp2sqrt (tables l) l.chain l.iso.e2 l.iso.e3 true x).2 = true ∧
      f2Val (tables l) l.p (fp2sqrt (tables l) l.chain l.iso.e2 l.iso.e3 true x).1 ^ 2 = f2Val (tables l) l.p x :=
  ⟨rfl, (C47_fp2sqrt l x hx).2 ((C47_fp2sqrt l x hx).1.2 h)⟩

/-- **C47.** The word-level square root computes the element the curve-level model uses, with components below `2p`. -/
theorem C47_refines (known : Bool) (x : F2) (hx : In2 l (2 * l.p) x) :
    In2 l (2 * l.p) (fp2sqrt (tables l) l.chain l.iso.e2 l.iso.e3 known x).1 ∧
      f2Val (tables l) l.p (fp2sqrt (tables l) l.chain l.iso.e2 l.iso.e3 known x).1 = l.env.sqrt (f2Val (tables l) l.p x) := by
  obtain ⟨r, v⟩ := fp2sqrtY_spec (good l) l.chain_exp (sqrt_two_lt l) (half_bounds l).2.1 (half_bounds l).2.2
    (e3 := l.iso.e3) (hx.rng.c0.mono (by omega)) hx.rng.c1
  have e1 : (fp2sqrt (tables l) l.chain l.iso.e2 l.iso.e3 known x).1 = fp2sqrtY (tables l) l.chain l.iso.e2 l.iso.e3 x := by
    cases known <;> rfl
  rw [e1]
  refine ⟨r.in, v.trans ?_⟩
  show sqrtF _ _ _ _ = sqrtF _ _ _ _
  rw [show l.chainF = fun v => v ^ ((l.p - 3) / 4) from funext l.chainF_eq]

example : ∃ z, z ^ 2 = f2Val (tables l) l.p ⟨(tables l).one, small l 0⟩ ∧ In2 l (2 * l.p) ⟨(tables l).one, small l 0⟩ := by
  have g := good l
  have := g.pos
  refine ⟨1, ?_, ⟨⟨g.len_one, ?_⟩, ⟨(small_in l 0).1, lt_of_lt_of_le (small_in l 0).2 (by omega)⟩⟩⟩
  · have e2 : ((2 : ℕ) : ZMod l.p) = 2 := by norm_num
    rw [one_pow]
    apply QuadraticAlgebra.ext
    · show 1 = fpVal _ _ _
      rw [fpVal, g.val_one, ZMod.natCast_mod, Nat.cast_pow, e2, mul_inv_cancel₀ (R_ne_zero g)]
    · show 0 = fpVal _ _ _
      rw [fpVal, small, val, val_replicate_zero]
      simp
  · rw [g.val_one]
    have := Nat.mod_lt (2 ^ (64 * (tables l).n)) (by omega : l.p > 0)
    omega

/-! ## C48 -/

/-- **C48.** `fp_equal` on arrays below `2p` returns 255 when the residues are equal and 0 otherwise. -/
theorem C48_fp_equal (a b : List Digit) (ha : In l (2 * l.p) a) (hb : In l (2 * l.p) b) :
    (val a ≡ val b [MOD l.p] → fpEqual (tables l) a b = 255) ∧
      (¬ val a ≡ val b [MOD l.p] → fpEqual (tables l) a b = 0) := by
  have g := good l
  have h := fpEqual_spec g ha.rng (hb.rng.mono (by omega))
  have h2 : fpVal (tables l) l.p a = fpVal (tables l) l.p b ↔ val a ≡ val b [MOD l.p] := by
    rw [fpVal_eq_iff g, ZMod.natCast_eq_natCast_iff]
  rw [h]
  exact ⟨fun hh => by rw [if_pos (h2.2 hh)]; rfl, fun hh => by rw [if_neg (fun h3 => hh (h2.1 h3))]; rfl⟩

/-- **C48.** `fp2_equal` likewise; the second operand may also be `2p`. -/
theorem C48_fp2_equal (a b : F2) (ha : In2 l (2 * l.p) a) (hb : In2 l (2 * l.p + 1) b) :
    fp2equal (tables l) a b = if f2Val (tables l) l.p a = f2Val (tables l) l.p b then 255 else 0 :=
  fp2equal_spec (good l) ha.rng hb.rng

/-- **C48 (finding).** `fpneg` maps zero to the array of `2p`; `fp_equal` does not find that array equal to zero although it
represents zero, but does find zero equal to it. -/
theorem C48_two_p :
    val (fpneg (tables l) (List.replicate (tables l).n 0)) = 2 * l.p ∧
    fpVal (tables l) l.p (fpneg (tables l) (List.replicate (tables l).n 0)) = 0 ∧
    fpEqual (tables l) (fpneg (tables l) (List.replicate (tables l).n 0)) (List.replicate (tables l).n 0) = 0 ∧
    fpEqual (tables l) (List.replicate (tables l).n 0) (fpneg (tables l) (List.replicate (tables l).n 0)) = 255 := by
  have g := good l
  have hpos := g.pos
  have hz := rng_zero g (by omega : 0 < 2 * l.p + 1)
  obtain ⟨h1, h2⟩ := fpneg_val g hz.len (by rw [val_replicate_zero]; omega)
  rw [val_replicate_zero, Nat.sub_zero] at h2
  obtain ⟨h3, h4⟩ := fpneg_spec g hz
  rw [fpVal_zero, neg_zero] at h4
  refine ⟨h2, h4, fpEqual_two_p g h1 h2, ?_⟩
  rw [fpEqual_spec g (rng_zero g (by omega)) h3, h4, fpVal_zero, if_pos rfl]
  rfl

example : In l (2 * l.p) (small l 1) ∧ In l (2 * l.p) (small l 2) ∧ ¬ val (small l 1) ≡ val (small l 2) [MOD l.p] := by
  have h1 := small_in l 1
  have h2 := small_in l 2
  refine ⟨⟨h1.1, by omega⟩, ⟨h2.1, by omega⟩, ?_⟩
  rw [Nat.ModEq, Nat.mod_eq_of_lt h1.2, Nat.mod_eq_of_lt h2.2, small, small, val, val, val_replicate_zero]
  decide

/-! ## C49 -/

/-- **C49.** `fp2_encode`, on any pair of arrays, writes the least residues of the element represented in little endian. -/
theorem C49_encode (x : F2) (h0 : x.c0.length = (tables l).n) (h1 : x.c1.length = (tables l).n) :
    fp2encode (tables l) x = leBytes (params l).fpBytes (f2Val (tables l) l.p x).re.val ++
      leBytes (params l).fpBytes (f2Val (tables l) l.p x).im.val := by
  have g := good l
  exact fp2encode_of l (fromMont_spec' g h0 rfl) (fromMont_spec' g h1 rfl)

/-- **C49.** `fp2_encode` is the encoding the protocol model uses. -/
theorem C49_encode_refines (x : F2) (h0 : x.c0.length = (tables l).n) (h1 : x.c1.length = (tables l).n) :
    fp2encode (tables l) x = flat (encode l (f2Val (tables l) l.p x)) := C49_encode l x h0 h1

/-- **C49.** `fp2_decode`, whatever the output variable held, gives arrays below `2p` that represent the integers in the two
halves of the string modulo `p`. -/
theorem C49_decode (dec : F2) (hd0 : dec.c0.length = (tables l).n) (hd1 : dec.c1.length = (tables l).n)
    (b0 b1 : List UInt8) (hb0 : b0.length = (params l).fpBytes) (hb1 : b1.length = (params l).fpBytes) :
    In2 l (2 * l.p) (fp2decode (tables l) dec (b0 ++ b1)) ∧
      f2Val (tables l) l.p (fp2decode (tables l) dec (b0 ++ b1)) = ⟨(leNat b0 : ZMod l.p), (leNat b1 : ZMod l.p)⟩ := by
  obtain ⟨h1, h2⟩ := fp2decode_spec l dec hd0 hd1 b0 b1 hb0 hb1
  exact ⟨h1.in, h2⟩

/-- **C49.** `fp2_decode` is the decoding the protocol model uses. -/
theorem C49_decode_refines (dec : F2) (hd0 : dec.c0.length = (tables l).n) (hd1 : dec.c1.length = (tables l).n)
    (x : Text.PFp2) (hx : x.WF (params l)) :
    In2 l (2 * l.p) (fp2decode (tables l) dec (flat x)) ∧
      f2Val (tables l) l.p (fp2decode (tables l) dec (flat x)) = decode l x :=
  C49_decode l dec hd0 hd1 x.real x.imag hx.1 hx.2

/-- **C49.** Decoding an encoding gives the same element. -/
theorem C49_decode_encode (dec x : F2) (hd0 : dec.c0.length = (tables l).n) (hd1 : dec.c1.length = (tables l).n)
    (h0 : x.c0.length = (tables l).n) (h1 : x.c1.length = (tables l).n) :
    f2Val (tables l) l.p (fp2decode (tables l) dec (fp2encode (tables l) x)) = f2Val (tables l) l.p x := by
  have hb := half_bounds l
  rw [half_eq] at hb
  have hlt : ∀ v : ZMod l.p, v.val < 256 ^ (params l).fpBytes := fun v => lt_of_lt_of_le (ZMod.val_lt v) hb.2.2
  rw [C49_encode l x h0 h1, (C49_decode l dec hd0 hd1 _ _ (leBytes_length _ _) (leBytes_length _ _)).2,
    leNat_leBytes _ _ (hlt _), leNat_leBytes _ _ (hlt _), ZMod.natCast_zmod_val, ZMod.natCast_zmod_val]

/-- **C49.** Encoding a decoding gives the string back exactly when both halves are below `p`. -/
theorem C49_encode_decode (dec : F2) (hd0 : dec.c0.length = (tables l).n) (hd1 : dec.c1.length = (tables l).n)
    (b0 b1 : List UInt8) (hb0 : b0.length = (params l).fpBytes) (hb1 : b1.length = (params l).fpBytes) :
    fp2encode (tables l) (fp2decode (tables l) dec (b0 ++ b1)) = b0 ++ b1 ↔ leNat b0 < l.p ∧ leNat b1 < l.p := by
  obtain ⟨r, v⟩ := C49_decode l dec hd0 hd1 b0 b1 hb0 hb1
  have hb := half_bounds l
  rw [half_eq] at hb
  have hp0 := (good l).pos
  have key : ∀ b : List UInt8, b.length = (params l).fpBytes →
      (leBytes (params l).fpBytes (leNat b % l.p) = b ↔ leNat b < l.p) := by
    intro b hl
    have hm := Nat.mod_lt (leNat b) (by omega : l.p > 0)
    constructor
    · intro h
      have := congrArg leNat h
      rw [leNat_leBytes _ _ (lt_of_lt_of_le hm hb.2.2)] at this
      omega
    · intro h
      apply leNat_inj (by rw [leBytes_length, hl])
      rw [leNat_leBytes _ _ (lt_of_lt_of_le hm hb.2.2), Nat.mod_eq_of_lt h]
  rw [C49_encode l _ r.1.1 r.2.1, v, ZMod.val_natCast, ZMod.val_natCast, ← key b0 hb0, ← key b1 hb1]
  constructor
  · intro h
    exact List.append_inj h (by rw [leBytes_length, hb0])
  · rintro ⟨h1, h2⟩
    rw [h1, h2]

/-- **C49.** Two pairs of arrays have the same encoding exactly when they represent the same element. -/
theorem C49_canonical (x y : F2) (hx0 : x.c0.length = (tables l).n) (hx1 : x.c1.length = (tables l).n)
    (hy0 : y.c0.length = (tables l).n) (hy1 : y.c1.length = (tables l).n) :
    fp2encode (tables l) x = fp2encode (tables l) y ↔ f2Val (tables l) l.p x = f2Val (tables l) l.p y := by
  constructor
  · intro h
    rw [← C49_decode_encode l x x hx0 hx1 hx0 hx1, h, C49_decode_encode l x y hx0 hx1 hy0 hy1]
  · intro h
    rw [C49_encode l x hx0 hx1, C49_encode l y hy0 hy1, h]

/-- Both cases of the equivalence occur. -/
example : ∃ b c : List UInt8, b.length = (params l).fpBytes ∧ c.length = (params l).fpBytes ∧ leNat b < l.p ∧
    ¬ leNat c < l.p := by
  have hb := half_bounds l
  rw [half_eq] at hb
  have hp0 := (good l).pos
  have hp1 : l.p < 256 ^ (params l).fpBytes := by cases l <;> decide +kernel
  refine ⟨leBytes _ 1, leBytes _ l.p, leBytes_length _ _, leBytes_length _ _, ?_, ?_⟩
  · rw [leNat_leBytes _ _ (by omega)]; omega
  · rw [leNat_leBytes _ _ hp1]; omega

/-! ## C50 -/

/-- **C50.** The tables of each parameter set: `p = 2^e2 * 3^e3 - 1`, prime, `3` modulo `4`, and the words of `p`, `p+1`,
`2p`, `4p`, `R² mod p`, `R mod p` and of the orders of the torsion subgroups. -/
theorem C50_tables :
    l.p = 2 ^ l.iso.e2 * 3 ^ l.iso.e3 - 1 ∧ l.p.Prime ∧ l.p % 4 = 3 ∧
    val (tables l).p = l.p ∧ val (tables l).p1 = l.p + 1 ∧ val (tables l).x2 = 2 * l.p ∧ val (tables l).x4 = 4 * l.p ∧
    val (tables l).r2 = (2 ^ (64 * (tables l).n)) ^ 2 % l.p ∧ val (tables l).one = 2 ^ (64 * (tables l).n) % l.p ∧
    val (tables l).oA = 2 ^ l.iso.e2 ∧ val (tables l).oB = 3 ^ l.iso.e3 := by
  have g := good l
  refine ⟨by have := l.p_succ; omega, Prime3.prime, Prime3.mod4, g.val_p, g.val_p1, g.val_x2, g.val_x4,
    by rw [g.val_r2, sq], g.val_one, ?_, ?_⟩ <;> cases l <;> decide +kernel

/-- **C50.** All tables have `NWORDS_FIELD` words, the top `NBITS_FIELD` bits suffice for `p` and are needed, and the words
skipped by the reduction (`p434_ZERO_WORDS` …) are the zero words of `p+1`. -/
theorem C50_sizes :
    (tables l).p.length = (tables l).n ∧ (tables l).p1.length = (tables l).n ∧ (tables l).x2.length = (tables l).n ∧
    (tables l).x4.length = (tables l).n ∧ (tables l).r2.length = (tables l).n ∧ (tables l).one.length = (tables l).n ∧
    2 ^ ((tables l).nbits - 1) < l.p ∧ l.p < 2 ^ (tables l).nbits ∧
    (∀ k < (tables l).z, dig (tables l).p1 k = 0) ∧ dig (tables l).p1 (tables l).z ≠ 0 := by
  have g := good l
  refine ⟨g.len_p, g.len_p1, g.len_x2, g.len_x4, g.len_r2, g.len_one, ?_, ?_, g.low, ?_⟩ <;> cases l <;> decide +kernel

/-! ## C51 -/

/-- **C51.** `fprand`, for any random bytes, gives an array below `p` (even below `2^398`, `2^457`, `2^606`, `2^721`). -/
theorem C51_in_range (bytes : List UInt8) (h : bytes.length = 8 * (tables l).n) :
    In l l.p (fprand (tables l) bytes) ∧ val (fprand (tables l) bytes) < 2 ^ randBits l := by
  obtain ⟨h1, h2⟩ := fprand_val l h
  have h3 : val (fprand (tables l) bytes) < 2 ^ randBits l := by rw [h2]; exact Nat.mod_lt _ (by positivity)
  exact ⟨⟨h1, h3.trans (randBits_lt l)⟩, h3⟩

/-- **C51 (finding).** Exactly those elements can be returned whose Montgomery representative is below `2^randBits`. -/
theorem C51_image (v : ZMod l.p) :
    (∃ bytes : List UInt8, bytes.length = 8 * (tables l).n ∧ fpVal (tables l) l.p (fprand (tables l) bytes) = v) ↔
      (v * 2 ^ (64 * (tables l).n)).val < 2 ^ randBits l := by
  have g := good l
  have hR := R_ne_zero (p := l.p) g
  constructor
  · rintro ⟨bytes, hb, rfl⟩
    obtain ⟨h1, h2⟩ := C51_in_range l bytes hb
    rw [fpVal, mul_assoc, inv_mul_cancel₀ hR, mul_one, ZMod.val_natCast_of_lt h1.2]
    exact h2
  · intro h
    have hk : randBits l ≤ 64 * (tables l).n := by cases l <;> decide
    have hlt : (v * 2 ^ (64 * (tables l).n)).val < 256 ^ (8 * (tables l).n) := by
      refine lt_of_lt_of_le h ?_
      rw [show 256 = 2 ^ 8 by norm_num, ← pow_mul]
      exact Nat.pow_le_pow_right (by norm_num) (by omega)
    refine ⟨leBytes (8 * (tables l).n) (v * 2 ^ (64 * (tables l).n)).val, leBytes_length _ _, ?_⟩
    rw [fpVal, (fprand_val l (leBytes_length _ _)).2, leNat_leBytes _ _ hlt, Nat.mod_eq_of_lt h, ZMod.natCast_zmod_val,
      mul_assoc, mul_inv_cancel₀ hR, mul_one]

/-- **C51 (finding).** So some element is never returned. -/
theorem C51_unreachable : ∃ v : ZMod l.p, ∀ bytes : List UInt8, bytes.length = 8 * (tables l).n →
    fpVal (tables l) l.p (fprand (tables l) bytes) ≠ v := by
  have g := good l
  have hR := R_ne_zero (p := l.p) g
  refine ⟨((2 ^ randBits l : ℕ) : ZMod l.p) * (2 ^ (64 * (tables l).n))⁻¹, fun bytes hb h => ?_⟩
  have := (C51_image l _).1 ⟨bytes, hb, h⟩
  rw [mul_assoc, inv_mul_cancel₀ hR, mul_one, ZMod.val_natCast_of_lt (randBits_lt l)] at this
  exact lt_irrefl _ this

example : (List.replicate (8 * (tables l).n) (255 : UInt8)).length = 8 * (tables l).n := List.length_replicate

end Secuer.Word
