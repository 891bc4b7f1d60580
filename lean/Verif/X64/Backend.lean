import Verif.X64.Funcs

/-!
# The field arithmetic of the default build on x86-64

`Func.call` runs the code of an assembly function on given arrays: these are laid out in memory together with a stack, the
registers are set as by a caller.  By `Computes` the results are the same for every other layout.  From the calls the functions
of `fpx.c` are put together as in the branches for `_MULX_`, `_ADX_` and `OS_NIX`.
-/

set_option maxRecDepth 100000

namespace Secuer.X64

open Secuer.Word Secuer.Field

/-! ## Calling a function on arrays -/

/-- The address of argument `i` in the layout used -/
def argAddr (i : ℕ) : ℕ := 0x10000 * (i + 1)

/-- Memory with the arguments -/
def callMem (args : List (List Digit)) (a : Digit) : Digit :=
  (((args[a.toNat / 0x10000 - 1]?).getD [])[a.toNat % 0x10000 / 8]?).getD 0

/-- The state at the call -/
def callSt (args : List (List Digit)) : St where
  reg
    | .rdi => BitVec.ofNat 64 (argAddr 0)
    | .rsi => BitVec.ofNat 64 (argAddr 1)
    | .rdx => BitVec.ofNat 64 (argAddr 2)
    | .rsp => 0x100000
    | _ => 0
  cf := none
  of := none
  mem := callMem args

/-- All of memory is accessible. -/
def callEnv (l : Level) : Env := ⟨asmTabs l, fun _ => true, fun _ => true⟩

/-- Call a function with the given arguments; the first `n` words at the address of argument `i` after it returned -/
def Func.call (f : Func) (l : Level) (args : List (List Digit)) (i n : ℕ) : Option (List Digit) :=
  (run (callEnv l) f.code (callSt args)).map fun r => wordsAt r.1.mem (BitVec.ofNat 64 (argAddr i)) n

theorem ptr_callSt (args : List (List Digit)) (i : ℕ) :
    ptr (callSt args) i = BitVec.ofNat 64 (argAddr (min i 2)) := by
  rcases i with _ | _ | i
  · rfl
  · rfl
  · rw [show min (i + 1 + 1) 2 = 2 by omega]; rfl

theorem ptr_toNat (args : List (List Digit)) (i : ℕ) : (ptr (callSt args) i).toNat = 0x10000 * (min i 2 + 1) := by
  rw [ptr_callSt, BitVec.toNat_ofNat, argAddr]
  omega

theorem wordsAt_callMem {args : List (List Digit)} {i n : ℕ} {x : List Digit} (hi : i ≤ 2) (hx : args[i]? = some x)
    (hl : x.length = n) (hn : n ≤ 8192) : wordsAt (callSt args).mem (ptr (callSt args) i) n = x := by
  apply List.ext_getElem
  · rw [wordsAt_length, hl]
  · intro j h1 h2
    have hj : j < n := by rwa [wordsAt_length] at h1
    have e := wordsAt_get (m := (callSt args).mem) (a := ptr (callSt args) i) hj
    rw [List.getElem?_eq_getElem h1] at e
    have e := Option.some.inj e
    rw [e]
    have ht : (ptr (callSt args) i + BitVec.ofNat 64 (8 * j)).toNat = 0x10000 * (i + 1) + 8 * j := by
      rw [toNat_off (by rw [ptr_toNat]; omega), ptr_toNat, Nat.min_eq_left hi]
    show callMem args _ = _
    rw [callMem, ht, show (0x10000 * (i + 1) + 8 * j) / 0x10000 - 1 = i by omega,
      show (0x10000 * (i + 1) + 8 * j) % 0x10000 / 8 = j by omega, hx, Option.getD_some, List.getElem?_eq_getElem h2]
    rfl

/-- The layout meets the conventions. -/
theorem pre_call (l : Level) {S : Sig} (args : List (List Digit)) (hsz : ∀ x ∈ S.out :: S.ins, x ≤ 1000)
    (hst : S.stack ≤ 1000) (h : S.ins.length ≤ 2 ∨ S.ins.length = 3 ∧ S.out = 0) : Pre (callEnv l) S (callSt args) := by
  have hs : ∀ i, S.size i ≤ 1000 := by
    intro i
    unfold Sig.size
    cases hc : (S.ins ++ [S.out])[i]? with
    | none => exact Nat.zero_le _
    | some x =>
      have := List.mem_of_getElem? hc
      refine hsz x ?_
      rw [List.mem_append, List.mem_singleton] at this
      rw [List.mem_cons]
      tauto
  have hrsp : ((callSt args).reg .rsp).toNat = 0x100000 := rfl
  have hp := ptr_toNat args
  have hso := size_out S
  constructor
  · rw [hrsp]
  · rw [hrsp]; omega
  · rw [hrsp]; norm_num
  · intros; rfl
  · intros; rfl
  · intro i _; rw [hp]; omega
  · intro i _; rw [hp]; have := hs i; omega
  · intros; rfl
  · intros; rfl
  · intro i _; rw [hp, hrsp]; have := hs i; omega
  · intro i hi
    right
    rw [hp, hp]
    have := hs i
    rcases h with h | ⟨h, h0⟩
    · left; omega
    · rw [h, h0]
      by_cases h2 : i = 2
      · right; subst h2; norm_num
      · left; omega
  · intros; rfl
  · intro i _ hi k hk hne
    rw [hp, hp]
    have h1 := hs i
    have h2 := hs k
    rcases h with h | ⟨h, h0⟩
    · omega
    · rw [h] at hi hk
      by_cases h3 : k = 3
      · have e : S.size k = 0 := by rw [h3, ← h, hso, h0]
        rw [e]
        by_cases h4 : i = 2
        · right; subst h4; subst h3; norm_num
        · omega
      · omega

/-- The result of a call -/
theorem call_eq {l : Level} {f : Func} {dom : St → Prop} {res : St → St → Prop} (h : Computes l f dom res)
    (args : List (List Digit)) (hsz : ∀ x ∈ f.sig.out :: f.sig.ins, x ≤ 1000) (hst : f.sig.stack ≤ 1000)
    (hin : f.sig.ins.length ≤ 2 ∨ f.sig.ins.length = 3 ∧ f.sig.out = 0) (hd : dom (callSt args)) :
    ∃ s', res (callSt args) s' ∧ ∀ i ≤ 2, ∀ n, f.call l args i n = some (wordsAt s'.mem (ptr (callSt args) i) n) := by
  obtain ⟨s', hdone, hres⟩ := h (callEnv l) (callSt args) rfl (pre_call l args hsz hst hin) hd
  refine ⟨s', hres, ?_⟩
  intro i hi n
  rw [Func.call, hdone.run, ptr_callSt, Nat.min_eq_left hi]
  rfl

theorem f2At_callMem {args : List (List Digit)} {i n : ℕ} {x : F2} (hi : i ≤ 2) (hx : args[i]? = some (x.c0 ++ x.c1))
    (h0 : x.c0.length = n) (h1 : x.c1.length = n) (hn : n ≤ 4096) :
    f2At (callSt args).mem (ptr (callSt args) i) n = x := by
  have h := wordsAt_callMem (n := 2 * n) hi hx (by rw [List.length_append, h0, h1]; omega) (by omega)
  rw [wordsAt_two] at h
  have h2 := List.append_inj h (by rw [(f2At_length _ _ _).1, h0])
  cases x
  exact F2.ext h2.1 h2.2

/-! ## The functions of `fpx.c` -/

/-- The parameter set if it is not p751 -/
def small : Level → Option Small
  | .l434 => some .s434
  | .l503 => some .s503
  | .l610 => some .s610
  | .l751 => none

/-- `mp_addfast` (`fpx.c:228-239`) -/
def mpAddX (l : Level) (a b : List Digit) : List Digit := ((mpAddF l).call l [a, b] 2 (tables l).n).getD []

/-- `fpadd434` … (`P434/AMD64/fp_x64.c:61-89`) -/
def fpaddX (l : Level) (a b : List Digit) : List Digit := ((fpaddF l).call l [a, b] 2 (tables l).n).getD []

/-- `fpsub434` … (`P434/AMD64/fp_x64.c:92-116`) -/
def fpsubX (l : Level) (a b : List Digit) : List Digit := ((fpsubF l).call l [a, b] 2 (tables l).n).getD []

/-- `mp_sub434_p2` … (`P434/AMD64/fp_x64.c:22-41`) -/
def subP2X (l : Level) (a b : List Digit) : List Digit := ((subP2F l).call l [a, b] 2 (tables l).n).getD []

/-- `mp_mul` for p751 (`P751/AMD64/fp_x64.c:169-583`) -/
def mpMul751X (a b : List Digit) : Option (List Digit) := mul751F.call .l751 [a, b] 2 24

/-- `rdc_mont` for p751 (`P751/AMD64/fp_x64.c:586-911`) -/
def rdc751X (ma : List Digit) : Option (List Digit) := rdc751F.call .l751 [ma] 1 12

/-- `fpmul_mont` (`fpx.c:141-151`); `fpsqr_mont` (`fpx.c:154-164`) is the same with both inputs equal -/
def fpmulX (l : Level) (a b : List Digit) : List Digit :=
  (match small l with
  | some k => (fpmulF k).call l [a, b] 2 (tables l).n
  | none => (mpMul751X a b).bind rdc751X).getD []

/-- `fp2sqr_mont` (`fpx.c:268-287`): for p751 the branch without `fp2sqr_c0_mont` and `fp2sqr_c1_mont` -/
def fp2sqrX (l : Level) (a : F2) : F2 :=
  match small l with
  | some k => ⟨((sqr0F k).call l [a.c0 ++ a.c1] 1 (tables l).n).getD [], ((sqr1F k).call l [a.c0 ++ a.c1] 1 (tables l).n).getD []⟩
  | none =>
    let t1 := mpAddX l a.c0 a.c1
    let t2 := (subP4751F.call l [a.c0, a.c1] 2 12).getD []
    let t3 := mpAddX l a.c0 a.c0
    ⟨fpmulX l t1 t2, fpmulX l t3 a.c1⟩

/-- `fp2mul_mont` (`fpx.c:334-358`): for p751 the branch without `fp2mul_c0_mont` and `fp2mul_c1_mont` -/
def fp2mulX (l : Level) (a b : F2) : F2 :=
  match small l with
  | some k => ⟨((mul0F k).call l [a.c0 ++ a.c1, b.c0 ++ b.c1] 2 (tables l).n).getD [],
      ((mul1F k).call l [a.c0 ++ a.c1, b.c0 ++ b.c1] 2 (tables l).n).getD []⟩
  | none =>
    (do
      let t1 := mpAddX l a.c0 a.c1
      let t2 := mpAddX l b.c0 b.c1
      let tt1 ← mpMul751X a.c0 b.c0
      let tt2 ← mpMul751X a.c1 b.c1
      let tt3 ← mpMul751X t1 t2
      let tt3 ← dblsub751F.call l [tt1, tt2, tt3] 2 24
      let tt1 ← subadd751F.call l [tt1, tt2] 2 24
      let c1 ← rdc751X tt3
      let c0 ← rdc751X tt1
      some (⟨c0, c1⟩ : F2)).getD ⟨[], []⟩

/-! ## What they compute -/

theorem n_le (l : Level) : (tables l).n ≤ 12 := by cases l <;> decide

theorem small_level {l : Level} {k : Small} (h : small l = some k) : k.level = l := by
  cases l <;> simp only [small, Option.some.injEq, reduceCtorEq] at h <;> subst h <;> rfl

theorem small_none {l : Level} (h : small l = none) : l = .l751 := by
  cases l <;> simp [small] at h ⊢

theorem mpAddX_eq (l : Level) {a b : List Digit} (ha : a.length = (tables l).n) (hb : b.length = (tables l).n) :
    mpAddX l a b = mpAddfastC a b := by
  have hn := n_le l
  obtain ⟨s', hr, hc⟩ := call_eq (mpAddF_ok l) [a, b] (by cases l <;> decide) (by cases l <;> decide) (by cases l <;> decide) trivial
  rw [wordsAt_callMem (by norm_num) rfl ha (by omega), wordsAt_callMem (by norm_num) rfl hb (by omega)] at hr
  rw [mpAddX, hc 2 (le_refl _), Option.getD_some, hr]

theorem fpaddX_eq (l : Level) {a b : List Digit} (ha : a.length = (tables l).n) (hb : b.length = (tables l).n) :
    fpaddX l a b = fpaddC (tables l) a b := by
  have hn := n_le l
  obtain ⟨s', hr, hc⟩ := call_eq (fpaddF_ok l) [a, b] (by cases l <;> decide) (by cases l <;> decide) (by cases l <;> decide) trivial
  rw [wordsAt_callMem (by norm_num) rfl ha (by omega), wordsAt_callMem (by norm_num) rfl hb (by omega)] at hr
  rw [fpaddX, hc 2 (le_refl _), Option.getD_some, hr]

theorem fpsubX_eq (l : Level) {a b : List Digit} (ha : a.length = (tables l).n) (hb : b.length = (tables l).n) :
    fpsubX l a b = fpsubC (tables l) a b := by
  have hn := n_le l
  obtain ⟨s', hr, hc⟩ := call_eq (fpsubF_ok l) [a, b] (by cases l <;> decide) (by cases l <;> decide) (by cases l <;> decide) trivial
  rw [wordsAt_callMem (by norm_num) rfl ha (by omega), wordsAt_callMem (by norm_num) rfl hb (by omega)] at hr
  rw [fpsubX, hc 2 (le_refl _), Option.getD_some, hr]

theorem subP2X_eq (l : Level) {a b : List Digit} (ha : a.length = (tables l).n) (hb : b.length = (tables l).n) :
    subP2X l a b = subP2C (tables l) a b := by
  have hn := n_le l
  obtain ⟨s', hr, hc⟩ := call_eq (subP2F_ok l) [a, b] (by cases l <;> decide) (by cases l <;> decide) (by cases l <;> decide) trivial
  rw [wordsAt_callMem (by norm_num) rfl ha (by omega), wordsAt_callMem (by norm_num) rfl hb (by omega)] at hr
  rw [subP2X, hc 2 (le_refl _), Option.getD_some, hr]

theorem mpMul751X_eq {a b : List Digit} (ha : a.length = 12) (hb : b.length = 12) (h0 : val a < 2 ^ 15 * Level.l751.p)
    (h1 : val b < 2 ^ 15 * Level.l751.p) : mpMul751X a b = mpMul 12 a b := by
  obtain ⟨s', hr, hc⟩ := call_eq mul751F_ok [a, b] (by decide) (by decide) (by decide) (by
    rw [wordsAt_callMem (by norm_num) rfl ha (by omega), wordsAt_callMem (by norm_num) rfl hb (by omega)]
    exact ⟨h0, h1⟩)
  rw [wordsAt_callMem (by norm_num) rfl ha (by omega), wordsAt_callMem (by norm_num) rfl hb (by omega)] at hr
  rw [mpMul751X, hc 2 (le_refl _), hr]

theorem rdc751X_eq {ma : List Digit} (hl : ma.length = 24) (h : val ma < 2 ^ (64 * 12) * Level.l751.p) :
    rdc751X ma = rdcMont words751 ma := by
  obtain ⟨s', hr, hc⟩ := call_eq rdc751F_ok [ma] (by decide) (by decide) (by decide) (by
    rw [wordsAt_callMem (by norm_num) rfl hl (by omega)]
    exact h)
  rw [wordsAt_callMem (by norm_num) rfl hl (by omega)] at hr
  rw [rdc751X, hc 1 (by norm_num), hr]

theorem fpmulX_eq (l : Level) {a b : List Digit} (ha : a.length = (tables l).n) (hb : b.length = (tables l).n)
    (h0 : val a < 120 * l.p) (h1 : val b < 120 * l.p) (h2 : val a * val b < 2 ^ (64 * (tables l).n) * l.p) :
    fpmulX l a b = fpmulC (tables l) a b := by
  have hn := n_le l
  unfold fpmulX
  cases hs : small l with
  | some k =>
    have := small_level hs
    subst this
    obtain ⟨s', hr, hc⟩ := call_eq (fpmulF_ok k) [a, b] (by cases k <;> decide) (by cases k <;> decide) (by cases k <;> decide) (by
      rw [wordsAt_callMem (by norm_num) rfl ha (by omega), wordsAt_callMem (by norm_num) rfl hb (by omega)]
      exact ⟨h0, h1, h2⟩)
    rw [wordsAt_callMem (by norm_num) rfl ha (by omega), wordsAt_callMem (by norm_num) rfl hb (by omega)] at hr
    dsimp only
    rw [hc 2 (le_refl _), Option.getD_some, hr]
  | none =>
    have := small_none hs
    subst this
    have hle : 120 * Level.l751.p ≤ 2 ^ 15 * Level.l751.p := Nat.mul_le_mul_right _ (by norm_num)
    dsimp only
    rw [mpMul751X_eq ha hb (by omega) (by omega), fpmulC, fpmul?]
    obtain ⟨m, e1, l1, v1⟩ := mpMul_spec (n := 12) (by norm_num) (by norm_num) ha hb
    rw [show mpMul 12 a b = some m from e1, show mpMul (tables .l751).n a b = some m from e1]
    show (rdc751X m).getD [] = (rdcMont words751 m).getD []
    rw [rdc751X_eq l1 (by rw [v1]; exact h2)]

theorem fp2sqrX_eq (l : Level) {a : F2} (h0 : a.c0.length = (tables l).n) (h1 : a.c1.length = (tables l).n)
    (hb : Below (4 * l.p) a) : fp2sqrX l a = fp2sqrC (tables l) a := by
  have hn := n_le l
  unfold fp2sqrX
  cases hs : small l with
  | some k =>
    have := small_level hs
    subst this
    have e := f2At_callMem (args := [a.c0 ++ a.c1]) (i := 0) (by norm_num) rfl h0 h1 (by omega)
    obtain ⟨s', hr, hc⟩ := call_eq (sqr0F_ok k) [a.c0 ++ a.c1] (by cases k <;> decide) (by cases k <;> decide)
      (by cases k <;> decide) (by rw [e]; exact hb)
    obtain ⟨s'', hr', hc'⟩ := call_eq (sqr1F_ok k) [a.c0 ++ a.c1] (by cases k <;> decide) (by cases k <;> decide)
      (by cases k <;> decide) (by rw [e]; exact hb)
    rw [e] at hr hr'
    dsimp only
    rw [hc 1 (by norm_num), hc' 1 (by norm_num), Option.getD_some, Option.getD_some, hr, hr']
  | none =>
    have := small_none hs
    subst this
    dsimp only
    have g := good .l751
    have hr := g.room
    obtain ⟨b0, b1⟩ := hb
    obtain ⟨s', hs', hc⟩ := call_eq subP4751F_ok [a.c0, a.c1] (by decide) (by decide) (by decide) trivial
    have h0' : a.c0.length = 12 := h0
    have h1' : a.c1.length = 12 := h1
    rw [wordsAt_callMem (by norm_num) rfl h0' (by omega), wordsAt_callMem (by norm_num) rfl h1' (by omega)] at hs'
    rw [hc 2 (le_refl _), Option.getD_some, hs', mpAddX_eq _ h0 h1, mpAddX_eq _ h0 h0]
    obtain ⟨r1, v1⟩ := add0_exact h0 h1 (by omega)
    obtain ⟨r2, v2⟩ := subP4_val g h0 h1 (by omega) (by omega)
    obtain ⟨r3, v3⟩ := add0_exact h0 h0 (by omega)
    show F2.mk (fpmulX .l751 (addLoop 0 a.c0 a.c1).2 (subP4 (tables .l751) a.c0 a.c1)) (fpmulX .l751 (addLoop 0 a.c0 a.c0).2 a.c1) = _
    rw [fpmulX_eq .l751 r1 r2 (by rw [v1]; omega) (by rw [v2]; omega)
      (mul_bound g (B := 8) (C := 8) (by omega) (by omega) (by norm_num)),
      fpmulX_eq .l751 r3 h1 (by rw [v3]; omega) (by omega) (mul_bound g (B := 8) (C := 4) (by omega) b1 (by norm_num))]
    rfl

end Secuer.X64
