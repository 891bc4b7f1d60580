import Verif.Arm.Funcs

/-!
# The field arithmetic of the ARM build

`Func.call` runs the code of an assembly function on given arrays: these are laid out in memory together with a stack, the
registers are set as by a caller.  By `Computes` the results are the same for every other layout.  From the calls the functions
of `fpx.c` are put together as in the branches for `TARGET == TARGET_ARM64` and `OS_NIX`, which are the same for all parameter
sets.
-/

set_option maxRecDepth 100000

namespace Secuer.Arm

open Secuer.Word Secuer.Field
open Secuer.X64 (Env Sig wordsAt wordsAt_length wordsAt_get argAddr callMem toNat_off size_out Below glue glue_eq fp2mul_glue wrap_lt le_wrap
  half_lt n_le)

/-! ## Calling a function on arrays -/

/-- The state at the call -/
def callSt (args : List (List Digit)) : St where
  reg
    | .x0 => BitVec.ofNat 64 (argAddr 0)
    | .x1 => BitVec.ofNat 64 (argAddr 1)
    | .x2 => BitVec.ofNat 64 (argAddr 2)
    | .sp => 0x100000
    | _ => 0
  c := none
  mem := callMem args

/-- All of memory is accessible. -/
def callEnv (l : Level) : Env := ⟨asmTab l, fun _ => true, fun _ => true⟩

/-- Call a function with the given arguments; the first `n` words at the address of argument `i` after it returned -/
def Func.call (f : Func) (l : Level) (args : List (List Digit)) (i n : ℕ) : Option (List Digit) :=
  (run (callEnv l) f.code (callSt args)).map fun r => wordsAt r.1.mem (BitVec.ofNat 64 (argAddr i)) n

theorem ptr_callSt (args : List (List Digit)) (i : ℕ) :
    ptr (callSt args) i = BitVec.ofNat 64 (argAddr (min i 2)) := by
  rcases i with _ | _ | i
  · rfl
  · rfl
  · rw [show min (i + 1 + 1) 2 = 2 by omega]; rfl

theorem ptr_toNat (args : List (List Digit)) (i : ℕ) : (ptr (callSt args) i).toNat = 0x10000 * (min i 2 + 1) := by
  rw [ptr_callSt, BitVec.toNat_ofNat, argAddr]
  omega

theorem wordsAt_callMem {args : List (List Digit)} {i n : ℕ} {x : List Digit} (hi : i ≤ 2) (hx : args[i]? = some x)
    (hl : x.length = n) (hn : n ≤ 8192) : wordsAt (callSt args).mem (ptr (callSt args) i) n = x := by
  apply List.ext_getElem
  · rw [wordsAt_length, hl]
  · intro j h1 h2
    have hj : j < n := by rwa [wordsAt_length] at h1
    have e := wordsAt_get (m := (callSt args).mem) (a := ptr (callSt args) i) hj
    rw [List.getElem?_eq_getElem h1] at e
    have e := Option.some.inj e
    rw [e]
    have ht : (ptr (callSt args) i + BitVec.ofNat 64 (8 * j)).toNat = 0x10000 * (i + 1) + 8 * j := by
      rw [toNat_off (by rw [ptr_toNat]; omega), ptr_toNat, Nat.min_eq_left hi]
    show callMem args _ = _
    rw [callMem, ht, show (0x10000 * (i + 1) + 8 * j) / 0x10000 - 1 = i by omega,
      show (0x10000 * (i + 1) + 8 * j) % 0x10000 / 8 = j by omega, hx, Option.getD_some, List.getElem?_eq_getElem h2]
    rfl

/-- The layout meets the conventions. -/
theorem pre_call (l : Level) {S : Sig} (args : List (List Digit)) (hsz : ∀ x ∈ S.out :: S.ins, x ≤ 1000)
    (hst : S.stack ≤ 1000) (h : S.ins.length ≤ 2 ∨ S.ins.length = 3 ∧ S.out = 0) : Pre (callEnv l) S (callSt args) := by
  have hs : ∀ i, S.size i ≤ 1000 := by
    intro i
    unfold Sig.size
    cases hc : (S.ins ++ [S.out])[i]? with
    | none => exact Nat.zero_le _
    | some x =>
      have := List.mem_of_getElem? hc
      refine hsz x ?_
      rw [List.mem_append, List.mem_singleton] at this
      rw [List.mem_cons]
      tauto
  have hrsp : ((callSt args).reg .sp).toNat = 0x100000 := rfl
  have hp := ptr_toNat args
  have hso := size_out S
  constructor
  · rw [hrsp]
  · rw [hrsp]; omega
  · intros; rfl
  · intros; rfl
  · intro i _; rw [hp]; omega
  · intro i _; rw [hp]; have := hs i; omega
  · intros; rfl
  · intros; rfl
  · intro i _; rw [hp, hrsp]; have := hs i; omega
  · intro i hi
    right
    rw [hp, hp]
    have := hs i
    rcases h with h | ⟨h, h0⟩
    · left; omega
    · rw [h, h0]
      by_cases h2 : i = 2
      · right; subst h2; norm_num
      · left; omega
  · intros; rfl
  · intro i _ hi k hk hne
    rw [hp, hp]
    have h1 := hs i
    have h2 := hs k
    rcases h with h | ⟨h, h0⟩
    · omega
    · rw [h] at hi hk
      by_cases h3 : k = 3
      · have e : S.size k = 0 := by rw [h3, ← h, hso, h0]
        rw [e]
        by_cases h4 : i = 2
        · right; subst h4; subst h3; norm_num
        · omega
      · omega

/-- The result of a call -/
theorem call_eq {l : Level} {f : Func} {dom : St → Prop} {res : St → St → Prop} (h : Computes l f dom res)
    (args : List (List Digit)) (hsz : ∀ x ∈ f.sig.out :: f.sig.ins, x ≤ 1000) (hst : f.sig.stack ≤ 1000)
    (hin : f.sig.ins.length ≤ 2 ∨ f.sig.ins.length = 3 ∧ f.sig.out = 0) (hd : dom (callSt args)) :
    ∃ s', res (callSt args) s' ∧ ∀ i ≤ 2, ∀ n, f.call l args i n = some (wordsAt s'.mem (ptr (callSt args) i) n) := by
  obtain ⟨s', hdone, hres⟩ := h (callEnv l) (callSt args) rfl (pre_call l args hsz hst hin) hd
  refine ⟨s', hres, ?_⟩
  intro i hi n
  rw [Func.call, hdone.run, ptr_callSt, Nat.min_eq_left hi]
  rfl

/-! ## The functions of `fpx.c` -/

/-- `mp_addfast` (`fpx.c:228-239`) -/
def mpAddA (l : Level) (a b : List Digit) : List Digit := ((mpAddF l).call l [a, b] 2 (tables l).n).getD []

/-- `fpadd434` … (`P434/ARM64/fp_arm64.c:35-41`) -/
def fpaddA (l : Level) (a b : List Digit) : List Digit := ((fpaddF l).call l [a, b] 2 (tables l).n).getD []

/-- `fpsub434` … (`P434/ARM64/fp_arm64.c:44-50`) -/
def fpsubA (l : Level) (a b : List Digit) : List Digit := ((fpsubF l).call l [a, b] 2 (tables l).n).getD []

/-- `mp_sub434_p2` … (`P434/ARM64/fp_arm64.c:21-25`) -/
def subP2A (l : Level) (a b : List Digit) : List Digit := ((subP2F l).call l [a, b] 2 (tables l).n).getD []

/-- `mp_sub434_p4` … (`P434/ARM64/fp_arm64.c:28-32`) -/
def subP4A (l : Level) (a b : List Digit) : List Digit := ((subP4F l).call l [a, b] 2 (tables l).n).getD []

/-- `mp_mul` (`P434/ARM64/fp_arm64.c:97-103`) -/
def mpMulA (l : Level) (a b : List Digit) : Option (List Digit) := (mulF l).call l [a, b] 2 (2 * (tables l).n)

/-- `rdc_mont` (`P434/ARM64/fp_arm64.c:107-114`) -/
def rdcA (l : Level) (ma : List Digit) : Option (List Digit) := (rdcF l).call l [ma] 1 (tables l).n

/-- `mp_dblsubfast` (`fpx.c:319-331`) -/
def dblsubA (l : Level) (a b c : List Digit) : Option (List Digit) := (dblsubF l).call l [a, b, c] 2 (2 * (tables l).n)

/-- `mp_subaddfast` (`fpx.c:301-316`) -/
def subaddA (l : Level) (a b : List Digit) : Option (List Digit) := (subaddF l).call l [a, b] 2 (2 * (tables l).n)

/-- `fpmul_mont` (`fpx.c:141-151`); `fpsqr_mont` (`fpx.c:154-164`) is the same with both inputs equal -/
def fpmulA (l : Level) (a b : List Digit) : List Digit := ((mpMulA l a b).bind (rdcA l)).getD []

/-- `fp2sqr_mont` (`fpx.c:268-287`): the branch without `fp2sqr_c0_mont` and `fp2sqr_c1_mont` -/
def fp2sqrA (l : Level) (a : F2) : F2 :=
  let t1 := mpAddA l a.c0 a.c1
  let t2 := subP4A l a.c0 a.c1
  let t3 := mpAddA l a.c0 a.c0
  ⟨fpmulA l t1 t2, fpmulA l t3 a.c1⟩

/-- `fp2mul_mont` (`fpx.c:334-358`): the branch without `fp2mul_c0_mont` and `fp2mul_c1_mont` -/
def fp2mulA (l : Level) (a b : F2) : F2 :=
  (do
    let t1 := mpAddA l a.c0 a.c1
    let t2 := mpAddA l b.c0 b.c1
    let tt1 ← mpMulA l a.c0 b.c0
    let tt2 ← mpMulA l a.c1 b.c1
    let tt3 ← mpMulA l t1 t2
    let tt3 ← dblsubA l tt1 tt2 tt3
    let tt1 ← subaddA l tt1 tt2
    let c1 ← rdcA l tt3
    let c0 ← rdcA l tt1
    some (⟨c0, c1⟩ : F2)).getD ⟨[], []⟩

/-! ## What they compute -/

theorem mpAddA_eq (l : Level) {a b : List Digit} (ha : a.length = (tables l).n) (hb : b.length = (tables l).n) :
    mpAddA l a b = mpAddfastC a b := by
  have hn := n_le l
  obtain ⟨s', hr, hc⟩ := call_eq (mpAddF_ok l) [a, b] (by cases l <;> decide) (by cases l <;> decide) (by cases l <;> decide) trivial
  rw [wordsAt_callMem (by norm_num) rfl ha (by omega), wordsAt_callMem (by norm_num) rfl hb (by omega)] at hr
  rw [mpAddA, hc 2 (le_refl _), Option.getD_some, hr]

theorem fpaddA_eq (l : Level) {a b : List Digit} (ha : a.length = (tables l).n) (hb : b.length = (tables l).n) :
    fpaddA l a b = fpaddC (tables l) a b := by
  have hn := n_le l
  obtain ⟨s', hr, hc⟩ := call_eq (fpaddF_ok l) [a, b] (by cases l <;> decide) (by cases l <;> decide) (by cases l <;> decide) trivial
  rw [wordsAt_callMem (by norm_num) rfl ha (by omega), wordsAt_callMem (by norm_num) rfl hb (by omega)] at hr
  rw [fpaddA, hc 2 (le_refl _), Option.getD_some, hr]

theorem fpsubA_eq (l : Level) {a b : List Digit} (ha : a.length = (tables l).n) (hb : b.length = (tables l).n) :
    fpsubA l a b = fpsubC (tables l) a b := by
  have hn := n_le l
  obtain ⟨s', hr, hc⟩ := call_eq (fpsubF_ok l) [a, b] (by cases l <;> decide) (by cases l <;> decide) (by cases l <;> decide) trivial
  rw [wordsAt_callMem (by norm_num) rfl ha (by omega), wordsAt_callMem (by norm_num) rfl hb (by omega)] at hr
  rw [fpsubA, hc 2 (le_refl _), Option.getD_some, hr]

theorem subP2A_eq (l : Level) {a b : List Digit} (ha : a.length = (tables l).n) (hb : b.length = (tables l).n) :
    subP2A l a b = subP2C (tables l) a b := by
  have hn := n_le l
  obtain ⟨s', hr, hc⟩ := call_eq (subP2F_ok l) [a, b] (by cases l <;> decide) (by cases l <;> decide) (by cases l <;> decide) trivial
  rw [wordsAt_callMem (by norm_num) rfl ha (by omega), wordsAt_callMem (by norm_num) rfl hb (by omega)] at hr
  rw [subP2A, hc 2 (le_refl _), Option.getD_some, hr]

theorem subP4A_eq (l : Level) {a b : List Digit} (ha : a.length = (tables l).n) (hb : b.length = (tables l).n) :
    subP4A l a b = subP4 (tables l) a b := by
  have hn := n_le l
  obtain ⟨s', hr, hc⟩ := call_eq (subP4F_ok l) [a, b] (by cases l <;> decide) (by cases l <;> decide) (by cases l <;> decide) trivial
  rw [wordsAt_callMem (by norm_num) rfl ha (by omega), wordsAt_callMem (by norm_num) rfl hb (by omega)] at hr
  rw [subP4A, hc 2 (le_refl _), Option.getD_some, hr]

theorem mpMulA_val (l : Level) {a b : List Digit} (ha : a.length = (tables l).n) (hb : b.length = (tables l).n)
    (h0 : val a < 120 * l.p) (h1 : val b < 120 * l.p) :
    ∃ c, mpMulA l a b = some c ∧ c.length = 2 * (tables l).n ∧ val c = mulVal l (val a) (val b) := by
  have hn := n_le l
  obtain ⟨s', hr, hc⟩ := call_eq (mulF_ok l) [a, b] (by cases l <;> decide) (by cases l <;> decide) (by cases l <;> decide) (by
    rw [wordsAt_callMem (by norm_num) rfl ha (by omega), wordsAt_callMem (by norm_num) rfl hb (by omega)]
    exact ⟨h0, h1⟩)
  rw [wordsAt_callMem (by norm_num) rfl ha (by omega), wordsAt_callMem (by norm_num) rfl hb (by omega)] at hr
  exact ⟨_, hc 2 (le_refl _) _, wordsAt_length _ _ _, hr⟩

theorem mpMulA_eq (l : Level) {a b : List Digit} (ha : a.length = (tables l).n) (hb : b.length = (tables l).n)
    (h0 : val a < 120 * l.p) (h1 : val b < 120 * l.p) (hv : mulVal l (val a) (val b) = val a * val b) :
    mpMulA l a b = mpMul (tables l).n a b := by
  obtain ⟨c, e, lc, v⟩ := mpMulA_val l ha hb h0 h1
  obtain ⟨c', e', lc', v'⟩ := mpMul_spec (good l).n_pos (by have := (good l).n_lt; omega) ha hb
  rw [e, e', val_inj (lc.trans lc'.symm) (by rw [v, v', hv])]

theorem rdcA_eq (l : Level) {ma : List Digit} (hl : ma.length = 2 * (tables l).n)
    (h : val ma < 2 ^ (64 * (tables l).n) * l.p) : rdcA l ma = rdcMont (tables l) ma := by
  have hn := n_le l
  obtain ⟨s', hr, hc⟩ := call_eq (rdcF_ok l) [ma] (by cases l <;> decide) (by cases l <;> decide) (by cases l <;> decide) (by
    rw [wordsAt_callMem (by norm_num) rfl hl (by omega)]
    exact h)
  rw [wordsAt_callMem (by norm_num) rfl hl (by omega)] at hr
  rw [rdcA, hc 1 (by norm_num), hr]

theorem dblsubA_eq (l : Level) {a b c : List Digit} (ha : a.length = 2 * (tables l).n) (hb : b.length = 2 * (tables l).n)
    (hc : c.length = 2 * (tables l).n) : dblsubA l a b c = some (mpDblsubfast a b c) := by
  have hn := n_le l
  obtain ⟨s', hr, he⟩ := call_eq (dblsubF_ok l) [a, b, c] (by cases l <;> decide) (by cases l <;> decide) (by cases l <;> decide)
    trivial
  rw [wordsAt_callMem (by norm_num) rfl ha (by omega), wordsAt_callMem (by norm_num) rfl hb (by omega),
    wordsAt_callMem (by norm_num) rfl hc (by omega)] at hr
  rw [dblsubA, he 2 (le_refl _), hr]

theorem subaddA_eq (l : Level) {a b : List Digit} (ha : a.length = 2 * (tables l).n) (hb : b.length = 2 * (tables l).n) :
    subaddA l a b = some (mpSubaddfast (tables l) a b) := by
  have hn := n_le l
  obtain ⟨s', hr, he⟩ := call_eq (subaddF_ok l) [a, b] (by cases l <;> decide) (by cases l <;> decide) (by cases l <;> decide)
    trivial
  rw [wordsAt_callMem (by norm_num) rfl ha (by omega), wordsAt_callMem (by norm_num) rfl hb (by omega)] at hr
  rw [subaddA, he 2 (le_refl _), hr]

/-- The product is the one of the portable code if `mul434_asm` … store the product of their inputs. -/
theorem fpmulA_eq (l : Level) {a b : List Digit} (ha : a.length = (tables l).n) (hb : b.length = (tables l).n)
    (h0 : val a < 120 * l.p) (h1 : val b < 120 * l.p) (h2 : val a * val b < 2 ^ (64 * (tables l).n) * l.p)
    (hv : mulVal l (val a) (val b) = val a * val b) : fpmulA l a b = fpmulC (tables l) a b := by
  rw [fpmulA, mpMulA_eq l ha hb h0 h1 hv, fpmulC, fpmul?]
  obtain ⟨m, e1, l1, v1⟩ := mpMul_spec (good l).n_pos (by have := (good l).n_lt; omega) ha hb
  rw [e1]
  show (rdcA l m).getD [] = (rdcMont (tables l) m).getD []
  rw [rdcA_eq l l1 (by rw [v1]; exact h2)]

/-- The parameter sets for which `mul434_asm` … store the product of their inputs always -/
def Right (l : Level) : Prop := ∀ a b, mulVal l a b = a * b

theorem right434 : Right .l434 := fun _ _ => rfl

theorem right610 : Right .l610 := fun _ _ => rfl

theorem fp2sqrA_eq {l : Level} (hl : Right l) {a : F2} (h0 : a.c0.length = (tables l).n) (h1 : a.c1.length = (tables l).n)
    (hb : Below (4 * l.p) a) : fp2sqrA l a = fp2sqrC (tables l) a := by
  unfold fp2sqrA
  dsimp only
  have g := good l
  have hr := g.room
  obtain ⟨b0, b1⟩ := hb
  rw [subP4A_eq _ h0 h1, mpAddA_eq _ h0 h1, mpAddA_eq _ h0 h0]
  obtain ⟨r1, v1⟩ := add0_exact h0 h1 (by omega)
  obtain ⟨r2, v2⟩ := subP4_val g h0 h1 (by omega) (by omega)
  obtain ⟨r3, v3⟩ := add0_exact h0 h0 (by omega)
  show F2.mk (fpmulA l (addLoop 0 a.c0 a.c1).2 (subP4 (tables l) a.c0 a.c1)) (fpmulA l (addLoop 0 a.c0 a.c0).2 a.c1) = _
  rw [fpmulA_eq l r1 r2 (by rw [v1]; omega) (by rw [v2]; omega)
    (mul_bound g (B := 8) (C := 8) (by omega) (by omega) (by norm_num)) (hl _ _),
    fpmulA_eq l r3 h1 (by rw [v3]; omega) (by omega) (mul_bound g (B := 8) (C := 4) (by omega) b1 (by norm_num)) (hl _ _)]
  rfl

theorem fp2mulA_glue (l : Level) (a b : F2) : fp2mulA l a b =
    (glue (mpMulA l) (dblsubA l) (subaddA l) (rdcA l) a b (mpAddA l a.c0 a.c1) (mpAddA l b.c0 b.c1)).getD ⟨[], []⟩ := rfl

/-- The product in the quadratic extension is the one of the portable code. -/
theorem fp2mulA_eq {l : Level} (hl : Right l) {a b : F2} {B C : ℕ} (la0 : a.c0.length = (tables l).n)
    (la1 : a.c1.length = (tables l).n) (lb0 : b.c0.length = (tables l).n) (lb1 : b.c1.length = (tables l).n)
    (ha : Below (B * l.p) a) (hb : Below (C * l.p) b)
    (hB : B ≤ 60) (hC : C ≤ 60) (h : 2 * B * C ≤ 256) : fp2mulA l a b = fp2mulC (tables l) a b := by
  have g : Good (tables l) l.p := good l
  obtain ⟨ha0, ha1⟩ := ha
  obtain ⟨hb0, hb1⟩ := hb
  have hr : 256 * l.p < 2 ^ (64 * (tables l).n) := g.room
  have hBp : B * l.p ≤ 60 * l.p := Nat.mul_le_mul_right _ hB
  have hCp : C * l.p ≤ 60 * l.p := Nat.mul_le_mul_right _ hC
  obtain ⟨r1, v1⟩ := add0_exact la0 la1 (by omega)
  obtain ⟨r2, v2⟩ := add0_exact lb0 lb1 (by omega)
  have hn' : (tables l).n < 2 ^ 32 := by have := g.n_lt; omega
  obtain ⟨m1, e1, l1, w1⟩ := mpMul_spec g.n_pos hn' la0 lb0
  obtain ⟨m2, e2, l2, w2⟩ := mpMul_spec g.n_pos hn' la1 lb1
  obtain ⟨m3, e3, l3, w3⟩ := mpMul_spec g.n_pos hn' r1 r2
  rw [v1, v2] at w3
  have hprod : ∀ x y, x < B * l.p → y < C * l.p → 2 * (x * y) < 2 ^ (64 * (tables l).n) * l.p := by
    intro x y hx hy
    have h1 := mul_bound g (x := 2 * x) (y := y) (B := 2 * B) (C := C) (by rw [Nat.mul_assoc]; omega) hy h
    calc 2 * (x * y) = 2 * x * y := by ring
      _ < _ := h1
  have q00 := hprod _ _ ha0 hb0
  have q01 := hprod _ _ ha0 hb1
  have q10 := hprod _ _ ha1 hb0
  have q11 := hprod _ _ ha1 hb1
  have hexp : (val a.c0 + val a.c1) * (val b.c0 + val b.c1) =
      val a.c0 * val b.c0 + val a.c1 * val b.c1 + (val a.c0 * val b.c1 + val a.c1 * val b.c0) := by ring
  obtain ⟨l4, w4⟩ := mpDblsubfast_val l1 l2 l3 (by rw [w1, w2, w3, hexp]; exact Nat.le_add_right _ _)
  obtain ⟨l5, w5⟩ := mpSubaddfast_val g l1 l2 (by rw [w1, w2]; exact le_wrap q11)
  have d1 := dblsubA_eq l l1 l2 l3
  have d2 := subaddA_eq l l1 l2
  have x1 := rdcA_eq l l4 (by rw [w4, w3, w1, w2, hexp, Nat.sub_sub, Nat.add_sub_cancel_left]; exact half_lt q01 q10)
  have x0 := rdcA_eq l l5 (by
    rw [w5, w1, w2]
    exact wrap_lt q00 q11)
  have y1 := mpMulA_eq l la0 lb0 (by omega) (by omega) (hl _ _)
  have y2 := mpMulA_eq l la1 lb1 (by omega) (by omega) (hl _ _)
  have y3 := mpMulA_eq l r1 r2 (by omega) (by omega) (hl _ _)
  rw [e1] at y1
  rw [e2] at y2
  rw [e3] at y3
  have z : glue (mpMul (tables l).n) (fun x y z => some (mpDblsubfast x y z)) (fun x y => some (mpSubaddfast (tables l) x y))
      (rdcMont (tables l)) a b (mpAddfastC a.c0 a.c1) (mpAddfastC b.c0 b.c1) = _ := glue_eq e1 e2 (m3 := m3) e3 rfl rfl
  rw [fp2mulA_glue, fp2mul_glue, z, glue_eq y1 y2 (m3 := m3) (by rw [mpAddA_eq l la0 la1, mpAddA_eq l lb0 lb1]; exact y3) d1 d2,
    x1, x0]

theorem fp2mulA_spec {l : Level} [Fact l.p.Prime] (hl : Right l) {a b : F2} (ha : Rng2 (tables l) (16 * l.p) a)
    (hb : Rng2 (tables l) (8 * l.p) b) :
    Rng2 (tables l) (2 * l.p) (fp2mulA l a b) ∧
      f2Val (tables l) l.p (fp2mulA l a b) = f2Val (tables l) l.p a * f2Val (tables l) l.p b := by
  rw [fp2mulA_eq hl ha.c0.len ha.c1.len hb.c0.len hb.c1.len ⟨ha.c0.lt, ha.c1.lt⟩ ⟨hb.c0.lt, hb.c1.lt⟩ (by norm_num)
    (by norm_num) (by norm_num)]
  exact fp2mulC_spec (good l) ha hb (by norm_num) (by norm_num) (by norm_num)

/-! ## The build -/

/-- The routines of the ARM build (`c-impl/PQCrypto-SIDH/Makefile`: `ARCH=ARM64`) compiled for a level: what the calls of the
assembly routines leave in the output.  The tables are those of the level. -/
@[reducible] def arith (l : Level) : Arith where
  fpadd _ := fpaddA l
  fpsub _ := fpsubA l
  subP2 _ := subP2A l
  mpAddfast := mpAddA l
  fpmul _ := fpmulA l
  fp2sqr _ := fp2sqrA l
  fp2mul _ := fp2mulA l
  rand := fprand

/-- It has what the code above it needs if the products are right. -/
theorem arith_ok {l : Level} (hl : Right l) : @ArithOK (tables l) l.p (arith l) :=
  @ArithOK.mk (tables l) l.p (arith l) (fun ha hb => fpaddA_eq l ha hb) (fun ha hb => fpsubA_eq l ha hb)
    (fun ha hb => subP2A_eq l ha hb) (fun ha hb => mpAddA_eq l ha hb)
    (fun ha hb h => fpmulA_eq l ha.len hb.len ha.lt hb.lt h (hl _ _))
    (fun ha => fp2sqrA_eq hl ha.c0.len ha.c1.len ⟨ha.c0.lt, ha.c1.lt⟩)
    (fun ha hb => fp2mulA_spec hl ha hb)

theorem rand_ok (l : Level) : @RandOK (tables l) l.p (arith l) :=
  @RandOK.mk (tables l) l.p (arith l) fun b _ => fprand_rng (good l) b

end Secuer.Arm
