import Verif.Arm.Routine

/-!
# What `mul503_asm` and `mul751_asm` compute

The two functions do not always store the product of their inputs.  Here are claims, for the checker, that describe the number
they store exactly, and what follows from them about the words in memory.
-/

namespace Secuer.Arm

open Secuer.Word
open Secuer.X64 (Tab Env Poly TabOK Sig InB wordsAt wordsAt_length bd bd_length Found num)

set_option exponentiation.threshold 4000

theorem view_mem (s : St) : (view s).mem = s.mem := rfl

/-- A checked claim about a function that reads two numbers of `n` words and writes `2 n` words -/
theorem mul_found {n K t u : ℕ} {al : List (ℕ × ℕ)} {tabs : Tab → List ℕ} {prog : List Instr} {hints : List (ℕ × List Hint)}
    {claim : X64.Sym → Bool} (h : check tabs ⟨[n, n], 2 * n, K, al, []⟩ prog hints (bd n t ++ bd n u) [] claim = true)
    (hK : K % 16 = 0) (hn : 2 * n < 1000) (hn0 : 0 < n) {E : Env} (hE : TabOK tabs E) {s : St}
    (hp : Pre E ⟨[n, n], 2 * n, K, al, []⟩ s)
    (ha : val (wordsAt s.mem (ptr s 0) n) < (t + 1) * 2 ^ (64 * (n - 1)))
    (hb : val (wordsAt s.mem (ptr s 1) n) < (u + 1) * 2 ^ (64 * (n - 1))) :
    ∃ s' ρ σ, Done E ⟨[n, n], 2 * n, K, al, []⟩ prog s s' ∧ Found ⟨[n, n], 2 * n, K, al, []⟩ (view s) (view s') ρ σ ∧
      claim σ = true := by
  obtain ⟨s', ρ, σ, hd, f, hc, -⟩ := check_sound h hE hp (X64.inB_bd (s := view s) hn0 ha hb) hyp_nil hK (by simp)
    (by rw [List.length_append, bd_length hn0, bd_length hn0]; omega) (by simp)
  exact ⟨s', ρ, σ, hd, f, hc⟩

/-! ## 503 -/

/-- What `mul503_asm` stores for the product `a b`, where `A` and `B` are the upper four words of `a` and `b`: all words are those of
the product but word 13, which is word 5 of `A B`.  (In the function the carry into this word is added to the register after the register
has been stored, `P503/ARM64/fp_arm64_asm.S`, lines 464-465.) -/
def mul503Val (a b : ℕ) : ℕ :=
  a * b % 2 ^ 832 + 2 ^ 832 * ((a / 2 ^ 256) * (b / 2 ^ 256) / 2 ^ 320 % 2 ^ 64) + 2 ^ 896 * (a * b / 2 ^ 896)

/-- `y`: 13 words, the lower words of the output; `h`: 8 words, the product of the upper halves; `v` the carry into word 13, `w`
the carry out of it, `x` the word with the carry added -/
def mul503Claim (S : Sig) (y h x v w eH : ℕ) (ws : List (ℕ × ℕ)) (ex : ℕ) (σ : X64.Sym) : Bool :=
  match σ.outNum S, Poly.mul (num 8 8) (num 16 8), Poly.mul (num 12 4) (num 20 4) with
  | some O, some P, some H =>
    (σ.below (2 ^ 64 - 1) (List.range' 8 4) && σ.below (2 ^ 64 - 1) (List.range' 16 4) &&
      σ.below (2 ^ 64 - 1) (List.range' 12 4) && σ.below (2 ^ 64 - 1) (List.range' 20 4)) &&
    (σ.below (2 ^ 64 - 1) (List.range' y 13) && σ.below (2 ^ 64 - 1) (List.range' h 5) &&
      σ.below (2 ^ 64 - 1) (List.range' (h + 5) 1) && σ.below (2 ^ 64 - 1) (List.range' (h + 6) 2) &&
      σ.below (2 ^ 64 - 1) (List.range' x 1) && σ.below 1 [v] && σ.below 1 [w]) &&
    (σ.zero [] (Poly.sub (num 8 8) (Poly.add (num 8 4) (Poly.scale (2 ^ 256) (num 12 4)))) &&
      σ.zero [] (Poly.sub (num 16 8) (Poly.add (num 16 4) (Poly.scale (2 ^ 256) (num 20 4)))) &&
      σ.zero ws (Poly.sub (Poly.add (Poly.add (num y 13) (Poly.scale (2 ^ 832) (Poly.var v)))
        (Poly.scale (2 ^ 832) (Poly.add (num (h + 5) 1) (Poly.scale (2 ^ 64) (num (h + 6) 2))))) P) &&
      σ.zero [(eH, 0)] (Poly.sub (Poly.add (num h 5)
        (Poly.scale (2 ^ 320) (Poly.add (num (h + 5) 1) (Poly.scale (2 ^ 64) (num (h + 6) 2))))) H) &&
      σ.zero [(ex, 0)] (Poly.sub (Poly.add (num x 1) (Poly.scale (2 ^ 64) (Poly.var w))) (Poly.add (num (h + 5) 1) (Poly.var v))) &&
      σ.zero [] (Poly.sub O (Poly.add (Poly.add (num y 13) (Poly.scale (2 ^ 832) (num (h + 5) 1)))
        (Poly.scale (2 ^ 896) (Poly.add (num (h + 6) 2) (Poly.var w))))))
  | _, _, _ => false

/-- The arithmetic behind `mul503Claim` -/
theorem mul503_arith {a b o al ah bl bh y h0 h5 h6 x v w : ℕ} (ha : a = al + 2 ^ 256 * ah) (hb : b = bl + 2 ^ 256 * bh)
    (lal : al < 2 ^ 256) (lbl : bl < 2 ^ 256) (ly : y < 2 ^ 832) (lh0 : h0 < 2 ^ 320) (lh5 : h5 < 2 ^ 64) (lx : x < 2 ^ 64)
    (h1 : y + 2 ^ 832 * v + 2 ^ 832 * (h5 + 2 ^ 64 * h6) = a * b) (h2 : h0 + 2 ^ 320 * (h5 + 2 ^ 64 * h6) = ah * bh)
    (h3 : x + 2 ^ 64 * w = h5 + v) (h4 : o = y + 2 ^ 832 * h5 + 2 ^ 896 * (h6 + w)) : o = mul503Val a b := by
  have ea : a / 2 ^ 256 = ah := by rw [ha, Nat.add_mul_div_left _ _ (by positivity), Nat.div_eq_of_lt lal, Nat.zero_add]
  have eb : b / 2 ^ 256 = bh := by rw [hb, Nat.add_mul_div_left _ _ (by positivity), Nat.div_eq_of_lt lbl, Nat.zero_add]
  have eh : ah * bh / 2 ^ 320 = h5 + 2 ^ 64 * h6 := by
    rw [← h2, Nat.add_mul_div_left _ _ (by positivity), Nat.div_eq_of_lt lh0, Nat.zero_add]
  have e5 : (h5 + 2 ^ 64 * h6) % 2 ^ 64 = h5 := by rw [Nat.add_mul_mod_self_left, Nat.mod_eq_of_lt lh5]
  have hab : a * b = y + 2 ^ 832 * (v + h5 + 2 ^ 64 * h6) := by rw [← h1]; ring
  have el : a * b % 2 ^ 832 = y := by rw [hab, Nat.add_mul_mod_self_left, Nat.mod_eq_of_lt ly]
  have eq : a * b / 2 ^ 896 = h6 + w := by
    rw [show (2 : ℕ) ^ 896 = 2 ^ 832 * 2 ^ 64 by rw [← pow_add], ← Nat.div_div_eq_div_mul, hab,
      Nat.add_mul_div_left _ _ (by positivity), Nat.div_eq_of_lt ly, Nat.zero_add,
      show v + h5 + 2 ^ 64 * h6 = x + 2 ^ 64 * (h6 + w) by rw [Nat.add_comm v, ← h3]; ring,
      Nat.add_mul_div_left _ _ (by positivity), Nat.div_eq_of_lt lx, Nat.zero_add]
  unfold mul503Val
  rw [ea, eb, eh, e5, el, eq, h4]

theorem mul503_of_found {K y h x v w eH ex : ℕ} {al : List (ℕ × ℕ)} {ws : List (ℕ × ℕ)} {s s' : X64.St} {ρ : ℕ → ℕ} {σ : X64.Sym}
    (f : Found ⟨[8, 8], 2 * 8, K, al, []⟩ s s' ρ σ)
    (hc : mul503Claim ⟨[8, 8], 2 * 8, K, al, []⟩ y h x v w eH ws ex σ = true) :
    val (wordsAt s'.mem (X64.ptr s 2) (2 * 8)) =
      mul503Val (val (wordsAt s.mem (X64.ptr s 0) 8)) (val (wordsAt s.mem (X64.ptr s 1) 8)) := by
  obtain ⟨e1, e2⟩ := X64.in_two f
  unfold mul503Claim at hc
  cases ho : σ.outNum ⟨[8, 8], 2 * 8, K, al, []⟩ with
  | none => rw [ho] at hc; cases hc
  | some O =>
  cases hm : Poly.mul (num 8 8) (num 16 8) with
  | none => rw [ho, hm] at hc; cases hc
  | some P =>
  cases hh : Poly.mul (num 12 4) (num 20 4) with
  | none => rw [ho, hm, hh] at hc; cases hc
  | some H =>
    rw [ho, hm, hh] at hc
    dsimp only at hc
    simp only [Bool.and_eq_true] at hc
    obtain ⟨⟨⟨⟨⟨b1, b2⟩, b3⟩, b4⟩, ⟨⟨⟨⟨⟨⟨b5, b6⟩, b7⟩, b8⟩, b9⟩, b10⟩, b11⟩⟩, ⟨⟨⟨⟨⟨z1, z2⟩, z3⟩, z4⟩, z5⟩, z6⟩⟩ := hc
    obtain ⟨AL, eAL, lAL⟩ := X64.num_sound f.one f.bnd b1
    obtain ⟨BL, eBL, lBL⟩ := X64.num_sound f.one f.bnd b2
    obtain ⟨AH, eAH, -⟩ := X64.num_sound f.one f.bnd b3
    obtain ⟨BH, eBH, -⟩ := X64.num_sound f.one f.bnd b4
    obtain ⟨Y, eY, lY⟩ := X64.num_sound f.one f.bnd b5
    obtain ⟨H0, eH0, lH0⟩ := X64.num_sound f.one f.bnd b6
    obtain ⟨H5, eH5, lH5⟩ := X64.num_sound f.one f.bnd b7
    obtain ⟨H6, eH6, -⟩ := X64.num_sound f.one f.bnd b8
    obtain ⟨X, eX, lX⟩ := X64.num_sound f.one f.bnd b9
    have ev : Poly.eval ρ (Poly.var v) = ρ v := Poly.eval_var f.one (X64.below_sound f.bnd b10 v (by simp)).1
    have ew : Poly.eval ρ (Poly.var w) = ρ w := Poly.eval_var f.one (X64.below_sound f.bnd b11 w (by simp)).1
    have h1 := X64.zero_sound f.eqs z1
    have h2 := X64.zero_sound f.eqs z2
    have h3 := X64.zero_sound f.eqs z3
    have h4 := X64.zero_sound f.eqs z4
    have h5 := X64.zero_sound f.eqs z5
    have h6 := X64.zero_sound f.eqs z6
    have e2' : Poly.eval ρ (num 16 8) = val (wordsAt s.mem (X64.ptr s 1) 8) := e2
    simp only [Poly.eval_sub, Poly.eval_add, Poly.eval_scale, X64.outNum_sound f ho, Poly.eval_mul f.one _ _ _ hm,
      Poly.eval_mul f.one _ _ _ hh, e1, e2', eAL, eBL, eAH, eBH, eY, eH0, eH5, eH6, eX, ev, ew, sub_eq_zero] at h1 h2 h3 h4 h5 h6
    refine mul503_arith (al := AL) (ah := AH) (bl := BL) (bh := BH) (y := Y) (h0 := H0) (h5 := H5) (h6 := H6) (x := X)
      (v := ρ v) (w := ρ w) (by exact_mod_cast h1) (by exact_mod_cast h2) lAL lBL lY lH0 lH5 lX (by exact_mod_cast h3)
      (by exact_mod_cast h4) (by exact_mod_cast h5) (by exact_mod_cast h6)

theorem mul503_of_check {K t u y h x v w eH ex : ℕ} {al : List (ℕ × ℕ)} {ws : List (ℕ × ℕ)} {tabs : Tab → List ℕ}
    {prog : List Instr} {hints : List (ℕ × List Hint)}
    (hc : check tabs ⟨[8, 8], 2 * 8, K, al, []⟩ prog hints (bd 8 t ++ bd 8 u) []
      (mul503Claim ⟨[8, 8], 2 * 8, K, al, []⟩ y h x v w eH ws ex) = true)
    (hK : K % 16 = 0) {E : Env} (hE : TabOK tabs E) {s : St} (hp : Pre E ⟨[8, 8], 2 * 8, K, al, []⟩ s)
    (ha : val (wordsAt s.mem (ptr s 0) 8) < (t + 1) * 2 ^ (64 * (8 - 1)))
    (hb : val (wordsAt s.mem (ptr s 1) 8) < (u + 1) * 2 ^ (64 * (8 - 1))) :
    ∃ s', Done E ⟨[8, 8], 2 * 8, K, al, []⟩ prog s s' ∧
      val (wordsAt s'.mem (ptr s 2) (2 * 8)) = mul503Val (val (wordsAt s.mem (ptr s 0) 8)) (val (wordsAt s.mem (ptr s 1) 8)) := by
  obtain ⟨s', ρ, σ, hd, f, hc⟩ := mul_found hc hK (by decide) (by decide) hE hp ha hb
  have := mul503_of_found f hc
  rw [view_mem, view_mem, ptr_view, ptr_view, ptr_view] at this
  exact ⟨s', hd, this⟩

/-! ## 751 -/

/-- The middle term of the product of `a = al + 2^384 ah` and `b = bl + 2^384 bh` -/
def mid751 (a b : ℕ) : ℕ := (a % 2 ^ 384) * (b / 2 ^ 384) + (a / 2 ^ 384) * (b % 2 ^ 384)

/-- The upper half of the product of the lower halves -/
def low751 (a b : ℕ) : ℕ := (a % 2 ^ 384) * (b % 2 ^ 384) / 2 ^ 384

/-- The inputs for which `mul751_asm` loses a borrow: the middle term with the upper half of the product of the lower halves
added fits into six words, but adding that upper half to the lower six words of the middle term and the product of the upper
halves gives a carry -/
def Lost751 (a b : ℕ) : Prop :=
  mid751 a b + low751 a b < 2 ^ 384 ∧
    2 ^ 384 ≤ (mid751 a b + (a / 2 ^ 384) * (b / 2 ^ 384)) % 2 ^ 384 + low751 a b

instance (a b : ℕ) : Decidable (Lost751 a b) := by unfold Lost751; infer_instance

/-- What `mul751_asm` stores for the product `a b`.  (In the function the carry of the addition of the upper half of the product
of the lower halves to the middle term is kept aside while the product of the upper halves is subtracted, and added only then;
if the difference without the carry is negative, its sign in the top word `x9` is added to the result as a word and not extended,
`P751/ARM64/fp_arm64_asm.S`, lines 709-785.) -/
def mul751Val (a b : ℕ) : ℕ := a * b + if Lost751 a b then 2 ^ 1216 else 0

/-- `l`: 12 words, the product of the lower halves; `u`: 13 words, the middle term and the product of the upper halves; `z`: 6
words, the lower words of `u` and the upper words of `l`, `k` the carry; `y`: 13 words, the middle term, `w` the borrow -/
def mul751Claim (S : Sig) (l u z y k w eL eu ez : ℕ) (w4 w5 : List (ℕ × ℕ)) (σ : X64.Sym) : Bool :=
  match σ.outNum S, Poly.mul (num 8 12) (num 20 12), Poly.mul (num 8 6) (num 20 6), Poly.mul (num 14 6) (num 26 6),
    X64.dot (num 8 6) (num 26 6) (num 14 6) (num 20 6) with
  | some O, some P, some L, some H, some D =>
    (σ.below (2 ^ 64 - 1) (List.range' 8 6) && σ.below (2 ^ 64 - 1) (List.range' 20 6) &&
      σ.below (2 ^ 64 - 1) (List.range' 14 6) && σ.below (2 ^ 64 - 1) (List.range' 26 6)) &&
    (σ.below (2 ^ 64 - 1) (List.range' l 6) && σ.below (2 ^ 64 - 1) (List.range' (l + 6) 6) &&
      σ.below (2 ^ 64 - 1) (List.range' u 6) && σ.below (2 ^ 64 - 1) (List.range' (u + 6) 7) &&
      σ.below (2 ^ 64 - 1) (List.range' z 6) && σ.below (2 ^ 64 - 1) (List.range' y 13) && σ.below 1 [k] && σ.below 1 [w]) &&
    (σ.zero [] (Poly.sub (num 8 12) (Poly.add (num 8 6) (Poly.scale (2 ^ 384) (num 14 6)))) &&
      σ.zero [] (Poly.sub (num 20 12) (Poly.add (num 20 6) (Poly.scale (2 ^ 384) (num 26 6)))) &&
      σ.zero [(eL, 0)] (Poly.sub (Poly.add (num l 6) (Poly.scale (2 ^ 384) (num (l + 6) 6))) L) &&
      σ.zero [(eu, 0)] (Poly.sub (Poly.add (num u 6) (Poly.scale (2 ^ 384) (num (u + 6) 7))) (Poly.add D H)) &&
      σ.zero [(ez, 0)] (Poly.sub (Poly.add (num z 6) (Poly.scale (2 ^ 384) (Poly.var k))) (Poly.add (num u 6) (num (l + 6) 6))) &&
      σ.zero w4 (Poly.sub (Poly.add (num y 13) (Poly.scale (2 ^ 384) (Poly.var k)))
        (Poly.add (Poly.add D (num (l + 6) 6)) (Poly.scale (2 ^ 832) (Poly.var w)))) &&
      σ.zero w5 (Poly.sub O (Poly.add P (Poly.scale (2 ^ 1216) (Poly.var w)))))
  | _, _, _, _, _ => false

/-- The arithmetic behind `mul751Claim` -/
theorem mul751_arith {a b o al ah bl bh l0 l1 u0 u1 z y k w : ℕ} (ha : a = al + 2 ^ 384 * ah) (hb : b = bl + 2 ^ 384 * bh)
    (lal : al < 2 ^ 384) (lbl : bl < 2 ^ 384) (ll : l0 < 2 ^ 384) (lu : u0 < 2 ^ 384) (lz : z < 2 ^ 384) (ly : y < 2 ^ 832)
    (hk : k ≤ 1) (hw : w ≤ 1)
    (h1 : l0 + 2 ^ 384 * l1 = al * bl) (h2 : u0 + 2 ^ 384 * u1 = al * bh + ah * bl + ah * bh) (h3 : z + 2 ^ 384 * k = u0 + l1)
    (h4 : y + 2 ^ 384 * k = al * bh + ah * bl + l1 + 2 ^ 832 * w) (h5 : o = a * b + 2 ^ 1216 * w) : o = mul751Val a b := by
  have ea : a / 2 ^ 384 = ah := by rw [ha, Nat.add_mul_div_left _ _ (by positivity), Nat.div_eq_of_lt lal, Nat.zero_add]
  have eb : b / 2 ^ 384 = bh := by rw [hb, Nat.add_mul_div_left _ _ (by positivity), Nat.div_eq_of_lt lbl, Nat.zero_add]
  have ea' : a % 2 ^ 384 = al := by rw [ha, Nat.add_mul_mod_self_left, Nat.mod_eq_of_lt lal]
  have eb' : b % 2 ^ 384 = bl := by rw [hb, Nat.add_mul_mod_self_left, Nat.mod_eq_of_lt lbl]
  have el : al * bl / 2 ^ 384 = l1 := by rw [← h1, Nat.add_mul_div_left _ _ (by positivity), Nat.div_eq_of_lt ll, Nat.zero_add]
  have eu : (al * bh + ah * bl + ah * bh) % 2 ^ 384 = u0 := by rw [← h2, Nat.add_mul_mod_self_left, Nat.mod_eq_of_lt lu]
  have hl : Lost751 a b ↔ w = 1 := by
    unfold Lost751 mid751 low751
    rw [ea, eb, ea', eb', el, eu]
    generalize al * bh + ah * bl = d at *
    have hp : (2 : ℕ) ^ 384 ≤ 2 ^ 832 := Nat.pow_le_pow_right (by norm_num) (by norm_num)
    generalize (2 : ℕ) ^ 384 = M at *
    generalize (2 : ℕ) ^ 832 = N at *
    obtain rfl | rfl : k = 0 ∨ k = 1 := by omega
    all_goals obtain rfl | rfl : w = 0 ∨ w = 1 := by omega
    all_goals omega
  unfold mul751Val
  by_cases h : Lost751 a b
  · rw [if_pos h, h5, hl.mp h, Nat.mul_one]
  · have : w = 0 := by
      have := mt hl.mpr h
      omega
    rw [if_neg h, h5, this, Nat.mul_zero]

theorem mul751_of_found {K l u z y k w eL eu ez : ℕ} {al : List (ℕ × ℕ)} {w4 w5 : List (ℕ × ℕ)} {s s' : X64.St} {ρ : ℕ → ℕ}
    {σ : X64.Sym} (f : Found ⟨[12, 12], 2 * 12, K, al, []⟩ s s' ρ σ)
    (hc : mul751Claim ⟨[12, 12], 2 * 12, K, al, []⟩ l u z y k w eL eu ez w4 w5 σ = true) :
    val (wordsAt s'.mem (X64.ptr s 2) (2 * 12)) =
      mul751Val (val (wordsAt s.mem (X64.ptr s 0) 12)) (val (wordsAt s.mem (X64.ptr s 1) 12)) := by
  obtain ⟨e1, e2⟩ := X64.in_two f
  unfold mul751Claim at hc
  cases ho : σ.outNum ⟨[12, 12], 2 * 12, K, al, []⟩ with
  | none => rw [ho] at hc; cases hc
  | some O =>
  cases hm : Poly.mul (num 8 12) (num 20 12) with
  | none => rw [ho, hm] at hc; cases hc
  | some P =>
  cases hl : Poly.mul (num 8 6) (num 20 6) with
  | none => rw [ho, hm, hl] at hc; cases hc
  | some L =>
  cases hh : Poly.mul (num 14 6) (num 26 6) with
  | none => rw [ho, hm, hl, hh] at hc; cases hc
  | some H =>
  cases hd : X64.dot (num 8 6) (num 26 6) (num 14 6) (num 20 6) with
  | none => rw [ho, hm, hl, hh, hd] at hc; cases hc
  | some D =>
    rw [ho, hm, hl, hh, hd] at hc
    dsimp only at hc
    simp only [Bool.and_eq_true] at hc
    obtain ⟨⟨⟨⟨⟨b1, b2⟩, b3⟩, b4⟩, ⟨⟨⟨⟨⟨⟨⟨b5, b6⟩, b7⟩, b8⟩, b9⟩, b10⟩, b11⟩, b12⟩⟩, ⟨⟨⟨⟨⟨⟨z1, z2⟩, z3⟩, z4⟩, z5⟩, z6⟩, z7⟩⟩ := hc
    obtain ⟨AL, eAL, lAL⟩ := X64.num_sound f.one f.bnd b1
    obtain ⟨BL, eBL, lBL⟩ := X64.num_sound f.one f.bnd b2
    obtain ⟨AH, eAH, -⟩ := X64.num_sound f.one f.bnd b3
    obtain ⟨BH, eBH, -⟩ := X64.num_sound f.one f.bnd b4
    obtain ⟨L0, eL0, lL0⟩ := X64.num_sound f.one f.bnd b5
    obtain ⟨L1, eL1, -⟩ := X64.num_sound f.one f.bnd b6
    obtain ⟨U0, eU0, lU0⟩ := X64.num_sound f.one f.bnd b7
    obtain ⟨U1, eU1, -⟩ := X64.num_sound f.one f.bnd b8
    obtain ⟨Z, eZ, lZ⟩ := X64.num_sound f.one f.bnd b9
    obtain ⟨Y, eY, lY⟩ := X64.num_sound f.one f.bnd b10
    obtain ⟨hk, bk⟩ := X64.below_sound f.bnd b11 k (by simp)
    obtain ⟨hw, bw⟩ := X64.below_sound f.bnd b12 w (by simp)
    have ek : Poly.eval ρ (Poly.var k) = ρ k := Poly.eval_var f.one hk
    have ew : Poly.eval ρ (Poly.var w) = ρ w := Poly.eval_var f.one hw
    have h1 := X64.zero_sound f.eqs z1
    have h2 := X64.zero_sound f.eqs z2
    have h3 := X64.zero_sound f.eqs z3
    have h4 := X64.zero_sound f.eqs z4
    have h5 := X64.zero_sound f.eqs z5
    have h6 := X64.zero_sound f.eqs z6
    have h7 := X64.zero_sound f.eqs z7
    have e2' : Poly.eval ρ (num 20 12) = val (wordsAt s.mem (X64.ptr s 1) 12) := e2
    simp only [Poly.eval_sub, Poly.eval_add, Poly.eval_scale, X64.outNum_sound f ho, Poly.eval_mul f.one _ _ _ hm,
      Poly.eval_mul f.one _ _ _ hl, Poly.eval_mul f.one _ _ _ hh, X64.eval_dot f.one hd,
      e1, e2', eAL, eBL, eAH, eBH, eL0, eL1, eU0, eU1, eZ, eY, ek, ew, sub_eq_zero] at h1 h2 h3 h4 h5 h6 h7
    refine mul751_arith (al := AL) (ah := AH) (bl := BL) (bh := BH) (l0 := L0) (l1 := L1) (u0 := U0) (u1 := U1) (z := Z) (y := Y)
      (k := ρ k) (w := ρ w) (by exact_mod_cast h1) (by exact_mod_cast h2) lAL lBL lL0 lU0 lZ lY bk bw (by exact_mod_cast h3)
      (by exact_mod_cast h4) (by exact_mod_cast h5) (by exact_mod_cast h6) (by exact_mod_cast h7)

theorem mul751_of_check {K t u l u' z y k w eL eu ez : ℕ} {al : List (ℕ × ℕ)} {w4 w5 : List (ℕ × ℕ)} {tabs : Tab → List ℕ}
    {prog : List Instr} {hints : List (ℕ × List Hint)}
    (hc : check tabs ⟨[12, 12], 2 * 12, K, al, []⟩ prog hints (bd 12 t ++ bd 12 u) []
      (mul751Claim ⟨[12, 12], 2 * 12, K, al, []⟩ l u' z y k w eL eu ez w4 w5) = true)
    (hK : K % 16 = 0) {E : Env} (hE : TabOK tabs E) {s : St} (hp : Pre E ⟨[12, 12], 2 * 12, K, al, []⟩ s)
    (ha : val (wordsAt s.mem (ptr s 0) 12) < (t + 1) * 2 ^ (64 * (12 - 1)))
    (hb : val (wordsAt s.mem (ptr s 1) 12) < (u + 1) * 2 ^ (64 * (12 - 1))) :
    ∃ s', Done E ⟨[12, 12], 2 * 12, K, al, []⟩ prog s s' ∧
      val (wordsAt s'.mem (ptr s 2) (2 * 12)) =
        mul751Val (val (wordsAt s.mem (ptr s 0) 12)) (val (wordsAt s.mem (ptr s 1) 12)) := by
  obtain ⟨s', ρ, σ, hd, f, hc⟩ := mul_found hc hK (by decide) (by decide) hE hp ha hb
  have := mul751_of_found f hc
  rw [view_mem, view_mem, ptr_view, ptr_view, ptr_view] at this
  exact ⟨s', hd, this⟩

end Secuer.Arm
