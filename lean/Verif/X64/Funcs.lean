import Verif.X64.Spec434
import Verif.X64.Spec503
import Verif.X64.Spec610
import Verif.X64.Spec751
import Verif.Word.Fp2

/-!
# The assembly functions by parameter set

`P*/AMD64/fp_x64.c` calls the assembly functions under names that do not depend on the prime.  Here are the functions behind
these names for every parameter set, and the C functions of `fpx.c` that are made of them in the default build (`_MULX_` and
`_ADX_` defined, `OS_TARGET == OS_NIX`).
-/

set_option maxRecDepth 100000

namespace Secuer.X64

open Secuer.Word Secuer.Field

/-- An assembly function: what its callers provide and its code -/
structure Func where
  sig : Sig
  code : List Instr

/-- `p434x8`, `p503x8`, `p610x8`; there is none for p751 -/
def x8Of : Level → List Digit
  | .l434 => P434.x8
  | .l503 => P503.x8
  | .l610 => P610.x8
  | .l751 => P751.x8

/-- The constant tables of a parameter set -/
def asmTabs (l : Level) : Tab → List Digit := tableOf (tables l) (x8Of l)

/-- `mp_add434_asm` … (`P434/AMD64/fp_x64_asm.S`, `P434/P434_internal.h`: `mp_add_asm`) -/
def mpAddF : Level → Func
  | .l434 => ⟨P434.mp_add434Sig, P434.mp_add434_asm⟩
  | .l503 => ⟨P503.mp_add503Sig, P503.mp_add503_asm⟩
  | .l610 => ⟨P610.mp_add610Sig, P610.mp_add610_asm⟩
  | .l751 => ⟨P751.mp_add751Sig, P751.mp_add751_asm⟩

/-- `fpadd434_asm` …, called by `fpadd434` (`P434/AMD64/fp_x64.c:61-89`) -/
def fpaddF : Level → Func
  | .l434 => ⟨P434.fpadd434Sig, P434.fpadd434_asm⟩
  | .l503 => ⟨P503.fpadd503Sig, P503.fpadd503_asm⟩
  | .l610 => ⟨P610.fpadd610Sig, P610.fpadd610_asm⟩
  | .l751 => ⟨P751.fpadd751Sig, P751.fpadd751_asm⟩

/-- `fpsub434_asm` …, called by `fpsub434` (`P434/AMD64/fp_x64.c:92-116`) -/
def fpsubF : Level → Func
  | .l434 => ⟨P434.fpsub434Sig, P434.fpsub434_asm⟩
  | .l503 => ⟨P503.fpsub503Sig, P503.fpsub503_asm⟩
  | .l610 => ⟨P610.fpsub610Sig, P610.fpsub610_asm⟩
  | .l751 => ⟨P751.fpsub751Sig, P751.fpsub751_asm⟩

/-- `mp_sub434_p2_asm` …, called by `mp_sub434_p2` (`P434/AMD64/fp_x64.c:22-41`) -/
def subP2F : Level → Func
  | .l434 => ⟨P434.mp_sub434_p2Sig, P434.mp_sub434_p2_asm⟩
  | .l503 => ⟨P503.mp_sub503_p2Sig, P503.mp_sub503_p2_asm⟩
  | .l610 => ⟨P610.mp_sub610_p2Sig, P610.mp_sub610_p2_asm⟩
  | .l751 => ⟨P751.mp_sub751_p2Sig, P751.mp_sub751_p2_asm⟩

/-- The parameter sets whose products are computed by one assembly function each (`NBITS_FIELD != 751`) -/
inductive Small
  | s434 | s503 | s610
deriving DecidableEq

def Small.level : Small → Level
  | .s434 => .l434
  | .s503 => .l503
  | .s610 => .l610

/-- `fpmul434_asm` …, called by `fpmul434` (`P434/AMD64/fp_x64.c:187-190`) -/
def fpmulF : Small → Func
  | .s434 => ⟨P434.fpmul434Sig, P434.fpmul434_asm⟩
  | .s503 => ⟨P503.fpmul503Sig, P503.fpmul503_asm⟩
  | .s610 => ⟨P610.fpmul610Sig, P610.fpmul610_asm⟩

/-- `fp2sqr434_c0_asm` …, called by `fp2sqr434_c0_mont` (`P434/AMD64/fp_x64.c:175-178`) -/
def sqr0F : Small → Func
  | .s434 => ⟨P434.fp2sqr434_c0Sig, P434.fp2sqr434_c0_asm⟩
  | .s503 => ⟨P503.fp2sqr503_c0Sig, P503.fp2sqr503_c0_asm⟩
  | .s610 => ⟨P610.fp2sqr610_c0Sig, P610.fp2sqr610_c0_asm⟩

/-- `fp2sqr434_c1_asm` …, called by `fp2sqr434_c1_mont` (`P434/AMD64/fp_x64.c:181-184`) -/
def sqr1F : Small → Func
  | .s434 => ⟨P434.fp2sqr434_c1Sig, P434.fp2sqr434_c1_asm⟩
  | .s503 => ⟨P503.fp2sqr503_c1Sig, P503.fp2sqr503_c1_asm⟩
  | .s610 => ⟨P610.fp2sqr610_c1Sig, P610.fp2sqr610_c1_asm⟩

/-- `fp2mul434_c0_asm` …, called by `fp2mul434_c0_mont` (`P434/AMD64/fp_x64.c:163-166`) -/
def mul0F : Small → Func
  | .s434 => ⟨P434.fp2mul434_c0Sig, P434.fp2mul434_c0_asm⟩
  | .s503 => ⟨P503.fp2mul503_c0Sig, P503.fp2mul503_c0_asm⟩
  | .s610 => ⟨P610.fp2mul610_c0Sig, P610.fp2mul610_c0_asm⟩

/-- `fp2mul434_c1_asm` …, called by `fp2mul434_c1_mont` (`P434/AMD64/fp_x64.c:169-172`) -/
def mul1F : Small → Func
  | .s434 => ⟨P434.fp2mul434_c1Sig, P434.fp2mul434_c1_asm⟩
  | .s503 => ⟨P503.fp2mul503_c1Sig, P503.fp2mul503_c1_asm⟩
  | .s610 => ⟨P610.fp2mul610_c1Sig, P610.fp2mul610_c1_asm⟩

/-- `mul751_asm`, called by `mp_mul` (`P751/AMD64/fp_x64.c:169-583`) -/
def mul751F : Func := ⟨P751.mul751Sig, P751.mul751_asm⟩

/-- `rdc751_asm`, called by `rdc_mont` (`P751/AMD64/fp_x64.c:586-911`) -/
def rdc751F : Func := ⟨P751.rdc751Sig, P751.rdc751_asm⟩

/-- `mp_sub751_p4_asm`, called by `mp_sub751_p4` (`P751/AMD64/fp_x64.c:44-63`) -/
def subP4751F : Func := ⟨P751.mp_sub751_p4Sig, P751.mp_sub751_p4_asm⟩

/-- `mp_subadd751x2_asm`, called by `mp_subaddfast` (`fpx.c:301-316`) -/
def subadd751F : Func := ⟨P751.mp_subadd751x2Sig, P751.mp_subadd751x2_asm⟩

/-- `mp_dblsub751x2_asm`, called by `mp_dblsubfast` (`fpx.c:319-331`) -/
def dblsub751F : Func := ⟨P751.mp_dblsub751x2Sig, P751.mp_dblsub751x2_asm⟩

/-- Every call that meets the conventions and has its inputs in the given domain returns, keeps to the conventions and has
the given result. -/
def Computes (l : Level) (f : Func) (dom : St → Prop) (res : St → St → Prop) : Prop :=
  ∀ (E : Env) (s : St), E.tab = asmTabs l → Pre E f.sig s → dom s →
    ∃ s', Done E f.sig f.code s s' ∧ res s s'

/-! ## The functions are what the checks say -/

variable (l : Level) (k : Small)

theorem mpAddF_ok : Computes l (mpAddF l) (fun _ => True) fun s s' =>
    wordsAt s'.mem (ptr s 2) (tables l).n =
      mpAddfastC (wordsAt s.mem (ptr s 0) (tables l).n) (wordsAt s.mem (ptr s 1) (tables l).n) := by
  intro E s hE hp _
  cases l
  · exact mpAdd_of_check P434.mp_add434_check (by decide) (by decide) hE hp
  · exact mpAdd_of_check P503.mp_add503_check (by decide) (by decide) hE hp
  · exact mpAdd_of_check P610.mp_add610_check (by decide) (by decide) hE hp
  · exact mpAdd_of_check P751.mp_add751_check (by decide) (by decide) hE hp

theorem fpaddF_ok : Computes l (fpaddF l) (fun _ => True) fun s s' =>
    wordsAt s'.mem (ptr s 2) (tables l).n =
      fpaddC (tables l) (wordsAt s.mem (ptr s 0) (tables l).n) (wordsAt s.mem (ptr s 1) (tables l).n) := by
  intro E s hE hp _
  have hx := (good l).len_x2
  cases l
  · exact fpadd_of_check (T := words434) hx P434.fpadd434_check (by decide) (by decide) hE hp
  · exact fpadd_of_check (T := words503) hx P503.fpadd503_check (by decide) (by decide) hE hp
  · exact fpadd_of_check (T := words610) hx P610.fpadd610_check (by decide) (by decide) hE hp
  · exact fpadd_of_check (T := words751) hx P751.fpadd751_check (by decide) (by decide) hE hp

theorem fpsubF_ok : Computes l (fpsubF l) (fun _ => True) fun s s' =>
    wordsAt s'.mem (ptr s 2) (tables l).n =
      fpsubC (tables l) (wordsAt s.mem (ptr s 0) (tables l).n) (wordsAt s.mem (ptr s 1) (tables l).n) := by
  intro E s hE hp _
  have hx := (good l).len_x2
  cases l
  · exact fpsub_of_check (T := words434) hx P434.fpsub434_check (by decide) (by decide) hE hp
  · exact fpsub_of_check (T := words503) hx P503.fpsub503_check (by decide) (by decide) hE hp
  · exact fpsub_of_check (T := words610) hx P610.fpsub610_check (by decide) (by decide) hE hp
  · exact fpsub_of_check (T := words751) hx P751.fpsub751_check (by decide) (by decide) hE hp

theorem subP2F_ok : Computes l (subP2F l) (fun _ => True) fun s s' =>
    wordsAt s'.mem (ptr s 2) (tables l).n =
      subP2C (tables l) (wordsAt s.mem (ptr s 0) (tables l).n) (wordsAt s.mem (ptr s 1) (tables l).n) := by
  intro E s hE hp _
  have hx := (good l).len_x2
  cases l
  · exact subk_of_check hx P434.mp_sub434_p2_check (by decide) (by decide) hE hp
  · exact subk_of_check hx P503.mp_sub503_p2_check (by decide) (by decide) hE hp
  · exact subk_of_check hx P610.mp_sub610_p2_check (by decide) (by decide) hE hp
  · exact subk_of_check hx P751.mp_sub751_p2_check (by decide) (by decide) hE hp

/-! ## Products -/

theorem val_x8 : val (x8Of k.level) = 8 * k.level.p := by cases k <;> decide +kernel

theorem prime434 : P434.prime = Small.s434.level.p := (good .l434).val_p
theorem prime503 : P503.prime = Small.s503.level.p := (good .l503).val_p
theorem prime610 : P610.prime = Small.s610.level.p := (good .l610).val_p
theorem prime751 : P751.prime = Level.l751.p := (good .l751).val_p

theorem val_x4 : val (tables l).x4 = 4 * l.p := (good l).val_x4

/-- A Montgomery reduction, as an array -/
theorem eq_of_isMont {n p m : ℕ} {c c' : List Digit} (ho : p % 2 = 1) (hl : c.length = n) (hl' : c'.length = n)
    (h : IsMont n p (val c) m) (h' : IsMont n p (val c') m) : c = c' :=
  val_inj (hl.trans hl'.symm) (h.unique ho h')

/-- The bound on the highest words in the check of `fpmul` -/
def mulTop : Small → ℕ
  | .s434 => 2 ^ 60
  | .s503 => 2 ^ 61
  | .s610 => 2 ^ 60

theorem mulTop_le : 120 * k.level.p ≤ (mulTop k + 1) * 2 ^ (64 * ((tables k.level).n - 1)) := by cases k <;> decide +kernel

theorem fpmulF_ok : Computes k.level (fpmulF k)
    (fun s => val (wordsAt s.mem (ptr s 0) (tables k.level).n) < 120 * k.level.p ∧
      val (wordsAt s.mem (ptr s 1) (tables k.level).n) < 120 * k.level.p ∧
      val (wordsAt s.mem (ptr s 0) (tables k.level).n) * val (wordsAt s.mem (ptr s 1) (tables k.level).n) <
        2 ^ (64 * (tables k.level).n) * k.level.p) fun s s' =>
    wordsAt s'.mem (ptr s 2) (tables k.level).n =
      fpmulC (tables k.level) (wordsAt s.mem (ptr s 0) (tables k.level).n) (wordsAt s.mem (ptr s 1) (tables k.level).n) := by
  intro E s hE hp ⟨h0, h1, h2⟩
  have main : ∃ s', Done E (fpmulF k).sig (fpmulF k).code s s' ∧
      IsMont (tables k.level).n k.level.p (val (wordsAt s'.mem (ptr s 2) (tables k.level).n))
        (val (wordsAt s.mem (ptr s 0) (tables k.level).n) * val (wordsAt s.mem (ptr s 1) (tables k.level).n)) := by
    have g := good k.level
    have hb : ∀ x, x < 120 * k.level.p → x < (mulTop k + 1) * 2 ^ (64 * ((tables k.level).n - 1)) :=
      fun x hx => lt_of_lt_of_le hx (mulTop_le k)
    have b0 := hb _ h0
    have b1 := hb _ h1
    cases k
    · have c := P434.fpmul434_check
      rw [prime434] at c
      exact fpmul_of_check (T := words434) g c (by decide) (by decide) hE hp b0 b1
    · have c := P503.fpmul503_check
      rw [prime503] at c
      exact fpmul_of_check (T := words503) g c (by decide) (by decide) hE hp b0 b1
    · have c := P610.fpmul610_check
      rw [prime610] at c
      exact fpmul_of_check (T := words610) g c (by decide) (by decide) hE hp b0 b1
  obtain ⟨s', hd, hm⟩ := main
  refine ⟨s', hd, ?_⟩
  obtain ⟨hl, hm'⟩ := fpmul_isMont (good k.level) (wordsAt_length _ _ _) (wordsAt_length _ _ _) h2
  exact eq_of_isMont (good k.level).odd (wordsAt_length _ _ _) hl hm hm'

/-- The bound on the highest words in the checks of `fp2sqr_c0` and `fp2sqr_c1` -/
def sqrTop : Small → ℕ
  | .s434 => 2 ^ 55
  | .s503 => 2 ^ 58
  | .s610 => 2 ^ 55

theorem sqrTop_le : 4 * k.level.p ≤ (sqrTop k + 1) * 2 ^ (64 * ((tables k.level).n - 1)) := by cases k <;> decide +kernel

/-- The bound on the highest words in the checks of `fp2mul_c0` and `fp2mul_c1` -/
def dotTop : Small → ℕ
  | .s434 => 2 ^ 57
  | .s503 => 2 ^ 59
  | .s610 => 2 ^ 57

theorem dotTop_le : 16 * k.level.p ≤ (dotTop k + 1) * 2 ^ (64 * ((tables k.level).n - 1)) := by cases k <;> decide +kernel

/-- Both components below a bound -/
def Below (b : ℕ) (x : F2) : Prop := val x.c0 < b ∧ val x.c1 < b

theorem sqr0F_ok : Computes k.level (sqr0F k)
    (fun s => Below (4 * k.level.p) (f2At s.mem (ptr s 0) (tables k.level).n)) fun s s' =>
    wordsAt s'.mem (ptr s 1) (tables k.level).n =
      (fp2sqrC (tables k.level) (f2At s.mem (ptr s 0) (tables k.level).n)).c0 := by
  intro E s hE hp ⟨h0, h1⟩
  have g := good k.level
  have main : ∃ s', Done E (sqr0F k).sig (sqr0F k).code s s' ∧
      IsMont (tables k.level).n k.level.p (val (wordsAt s'.mem (ptr s 1) (tables k.level).n))
        ((val (f2At s.mem (ptr s 0) (tables k.level).n).c0 + val (f2At s.mem (ptr s 0) (tables k.level).n).c1) *
          (val (f2At s.mem (ptr s 0) (tables k.level).n).c0 + val (tables k.level).x4 -
            val (f2At s.mem (ptr s 0) (tables k.level).n).c1)) := by
    have b0 := lt_of_lt_of_le h0 (sqrTop_le k)
    have b1 := lt_of_lt_of_le h1 (sqrTop_le k)
    have hk : val (f2At s.mem (ptr s 0) (tables k.level).n).c1 ≤ val (tables k.level).x4 := by rw [g.val_x4]; exact h1.le
    cases k
    · have c := P434.fp2sqr434_c0_check
      rw [prime434] at c
      exact fp2sqr0_of_check (T := words434) g c (by decide) (by decide) hE hp b0 b1 hk
    · have c := P503.fp2sqr503_c0_check
      rw [prime503] at c
      exact fp2sqr0_of_check (T := words503) g c (by decide) (by decide) hE hp b0 b1 hk
    · have c := P610.fp2sqr610_c0_check
      rw [prime610] at c
      exact fp2sqr0_of_check (T := words610) g c (by decide) (by decide) hE hp b0 b1 hk
  obtain ⟨s', hd, hm⟩ := main
  refine ⟨s', hd, ?_⟩
  obtain ⟨l0, l1⟩ := f2At_length s.mem (ptr s 0) (tables k.level).n
  generalize f2At s.mem (ptr s 0) (tables k.level).n = a at *
  have hr := g.room
  obtain ⟨r1, v1⟩ := add0_exact l0 l1 (by omega)
  obtain ⟨r2, v2⟩ := subP4_val g l0 l1 (by omega) (by omega)
  have hlt : val (addLoop 0 a.c0 a.c1).2 * val (subP4 (tables k.level) a.c0 a.c1) <
      2 ^ (64 * (tables k.level).n) * k.level.p :=
    mul_bound g (B := 8) (C := 8) (by omega) (by omega) (by norm_num)
  obtain ⟨hl, hm'⟩ := fpmul_isMont g r1 r2 hlt
  rw [v1, v2] at hm'
  rw [g.val_x4] at hm
  exact eq_of_isMont g.odd (wordsAt_length _ _ _) hl hm hm'

theorem sqr1F_ok : Computes k.level (sqr1F k)
    (fun s => Below (4 * k.level.p) (f2At s.mem (ptr s 0) (tables k.level).n)) fun s s' =>
    wordsAt s'.mem (ptr s 1) (tables k.level).n =
      (fp2sqrC (tables k.level) (f2At s.mem (ptr s 0) (tables k.level).n)).c1 := by
  intro E s hE hp ⟨h0, h1⟩
  have g := good k.level
  have main : ∃ s', Done E (sqr1F k).sig (sqr1F k).code s s' ∧
      IsMont (tables k.level).n k.level.p (val (wordsAt s'.mem (ptr s 1) (tables k.level).n))
        ((val (f2At s.mem (ptr s 0) (tables k.level).n).c0 + val (f2At s.mem (ptr s 0) (tables k.level).n).c0) *
          val (f2At s.mem (ptr s 0) (tables k.level).n).c1) := by
    have b0 := lt_of_lt_of_le h0 (sqrTop_le k)
    have b1 := lt_of_lt_of_le h1 (sqrTop_le k)
    cases k
    · have c := P434.fp2sqr434_c1_check
      rw [prime434] at c
      exact fp2sqr1_of_check (T := words434) g c (by decide) (by decide) hE hp b0 b1
    · have c := P503.fp2sqr503_c1_check
      rw [prime503] at c
      exact fp2sqr1_of_check (T := words503) g c (by decide) (by decide) hE hp b0 b1
    · have c := P610.fp2sqr610_c1_check
      rw [prime610] at c
      exact fp2sqr1_of_check (T := words610) g c (by decide) (by decide) hE hp b0 b1
  obtain ⟨s', hd, hm⟩ := main
  refine ⟨s', hd, ?_⟩
  obtain ⟨l0, l1⟩ := f2At_length s.mem (ptr s 0) (tables k.level).n
  generalize f2At s.mem (ptr s 0) (tables k.level).n = a at *
  have hr := g.room
  obtain ⟨r1, v1⟩ := add0_exact l0 l0 (by omega)
  have hlt : val (addLoop 0 a.c0 a.c0).2 * val a.c1 < 2 ^ (64 * (tables k.level).n) * k.level.p :=
    mul_bound g (B := 8) (C := 4) (by omega) h1 (by norm_num)
  obtain ⟨hl, hm'⟩ := fpmul_isMont g r1 l1 hlt
  rw [v1] at hm'
  exact eq_of_isMont g.odd (wordsAt_length _ _ _) hl hm hm'

/-- The imaginary part of `fp2mul_mont` of the portable code is the Montgomery reduction of `a₀ b₁ + a₁ b₀`, its real part the
one of `a₀ b₀ - a₁ b₁` plus nothing or `2^(64 n) p`. -/
theorem fp2mul_isMont {T : Tables} {p : ℕ} (g : Good T p) {a b : F2} {B C : ℕ} (la0 : a.c0.length = T.n) (la1 : a.c1.length = T.n)
    (lb0 : b.c0.length = T.n) (lb1 : b.c1.length = T.n) (ha : Below (B * p) a) (hb : Below (C * p) b)
    (hB : B ≤ 64) (hC : C ≤ 64) (h : 2 * B * C ≤ 256) :
    (fp2mulC T a b).c1.length = T.n ∧ (fp2mulC T a b).c0.length = T.n ∧
      IsMont T.n p (val (fp2mulC T a b).c1) (val a.c0 * val b.c1 + val a.c1 * val b.c0) ∧
      IsMont T.n p (val (fp2mulC T a b).c0)
        (if val a.c1 * val b.c1 ≤ val a.c0 * val b.c0 then val a.c0 * val b.c0 - val a.c1 * val b.c1
          else val a.c0 * val b.c0 + 2 ^ (64 * T.n) * p - val a.c1 * val b.c1) := by
  have hn := g.n_pos
  have hn' : T.n < 2 ^ 32 := by have := g.n_lt; omega
  obtain ⟨ha0, ha1⟩ := ha
  obtain ⟨hb0, hb1⟩ := hb
  have hr := g.room
  have hBp : B * p + B * p ≤ 256 * p := by
    rw [← Nat.add_mul]; exact Nat.mul_le_mul_right _ (by omega)
  have hCp : C * p + C * p ≤ 256 * p := by
    rw [← Nat.add_mul]; exact Nat.mul_le_mul_right _ (by omega)
  obtain ⟨r1, v1⟩ := add0_exact la0 la1 (by omega)
  obtain ⟨r2, v2⟩ := add0_exact lb0 lb1 (by omega)
  obtain ⟨m1, e1, l1, w1⟩ := mpMul_spec hn hn' la0 lb0
  obtain ⟨m2, e2, l2, w2⟩ := mpMul_spec hn hn' la1 lb1
  obtain ⟨m3, e3, l3, w3⟩ := mpMul_spec hn hn' r1 r2
  rw [v1, v2] at w3
  generalize hx0 : val a.c0 = a0 at *
  generalize hx1 : val a.c1 = a1 at *
  generalize hy0 : val b.c0 = b0 at *
  generalize hy1 : val b.c1 = b1 at *
  have hexp : (a0 + a1) * (b0 + b1) = a0 * b0 + a1 * b1 + (a0 * b1 + a1 * b0) := by ring
  obtain ⟨l4, w4⟩ := mpDblsubfast_val l1 l2 l3 (by omega)
  have hprod : ∀ x y, x < B * p → y < C * p → 2 * (x * y) < 2 ^ (64 * T.n) * p := by
    intro x y hx hy
    have h1 := mul_bound g (x := 2 * x) (y := y) (B := 2 * B) (C := C) (by rw [Nat.mul_assoc]; omega) hy h
    calc 2 * (x * y) = 2 * x * y := by ring
      _ < _ := h1
  have q00 := hprod a0 b0 ha0 hb0
  have q01 := hprod a0 b1 ha0 hb1
  have q10 := hprod a1 b0 ha1 hb0
  have q11 := hprod a1 b1 ha1 hb1
  obtain ⟨l5, w5⟩ := mpSubaddfast_val g l1 l2 (by omega)
  obtain ⟨c1, k1, f1, s1, u1, x1⟩ := rdcMont_exact g l4 (by rw [w4, w3, w1, w2]; omega)
  obtain ⟨c0, k0, f0, s0, u0, x0⟩ := rdcMont_exact g l5 (by
    rw [w5, w1, w2]
    split <;> omega)
  have e : fp2mulC T a b = ⟨c0, c1⟩ := by
    rw [fp2mulC, fp2mul?, e1]
    show ((mpMul T.n a.c1 b.c1).bind _).getD _ = _
    rw [e2]
    show ((mpMul T.n (mpAddfastC a.c0 a.c1) (mpAddfastC b.c0 b.c1)).bind _).getD _ = _
    unfold mpAddfastC mpAdd
    rw [e3]
    show ((rdcMont T (mpDblsubfast m1 m2 m3)).bind _).getD _ = _
    rw [f1]
    show ((rdcMont T (mpSubaddfast T m1 m2)).bind _).getD _ = _
    rw [f0]
    rfl
  rw [e]
  refine ⟨s1, s0, ⟨k1, u1, ?_⟩, ⟨k0, u0, ?_⟩⟩
  · show val c1 * _ = _
    rw [x1, w4, w3, w1, w2, show (a0 + a1) * (b0 + b1) - a0 * b0 - a1 * b1 = a0 * b1 + a1 * b0 by omega]
  · show val c0 * _ = _
    rw [x0, w5, w1, w2]

/-- `fp2mul_c0`: the Montgomery reduction of `a₀ b₀ + a₁ (8 p - b₁)`, below `2p` -/
theorem mul0F_ok : Computes k.level (mul0F k)
    (fun s => Below (16 * k.level.p) (f2At s.mem (ptr s 0) (tables k.level).n) ∧
      Below (8 * k.level.p) (f2At s.mem (ptr s 1) (tables k.level).n)) fun s s' =>
    IsMont (tables k.level).n k.level.p (val (wordsAt s'.mem (ptr s 2) (tables k.level).n))
        (val (f2At s.mem (ptr s 0) (tables k.level).n).c0 * val (f2At s.mem (ptr s 1) (tables k.level).n).c0 +
          val (f2At s.mem (ptr s 0) (tables k.level).n).c1 *
            (8 * k.level.p - val (f2At s.mem (ptr s 1) (tables k.level).n).c1)) := by
  intro E s hE hp ⟨⟨h0, h1⟩, h2, h3⟩
  have g := good k.level
  have b0 := lt_of_lt_of_le h0 (dotTop_le k)
  have b1 := lt_of_lt_of_le h1 (dotTop_le k)
  have b2 := lt_of_lt_of_le h2 ((Nat.mul_le_mul_right _ (by norm_num : 8 ≤ 16)).trans (dotTop_le k))
  have b3 := lt_of_lt_of_le h3 ((Nat.mul_le_mul_right _ (by norm_num : 8 ≤ 16)).trans (dotTop_le k))
  have hk : val (f2At s.mem (ptr s 1) (tables k.level).n).c1 ≤ val (x8Of k.level) := by rw [val_x8]; exact h3.le
  rw [← val_x8]
  cases k
  · have c := P434.fp2mul434_c0_check
    rw [prime434] at c
    exact fp2mul0_of_check (T := words434) g c (by decide) (by decide) hE hp b0 b1 b2 b3 hk
  · have c := P503.fp2mul503_c0_check
    rw [prime503] at c
    exact fp2mul0_of_check (T := words503) g c (by decide) (by decide) hE hp b0 b1 b2 b3 hk
  · have c := P610.fp2mul610_c0_check
    rw [prime610] at c
    exact fp2mul0_of_check (T := words610) g c (by decide) (by decide) hE hp b0 b1 b2 b3 hk

theorem mul1F_ok : Computes k.level (mul1F k)
    (fun s => Below (16 * k.level.p) (f2At s.mem (ptr s 0) (tables k.level).n) ∧
      Below (8 * k.level.p) (f2At s.mem (ptr s 1) (tables k.level).n)) fun s s' =>
    wordsAt s'.mem (ptr s 2) (tables k.level).n =
      (fp2mulC (tables k.level) (f2At s.mem (ptr s 0) (tables k.level).n) (f2At s.mem (ptr s 1) (tables k.level).n)).c1 := by
  intro E s hE hp ⟨⟨h0, h1⟩, h2, h3⟩
  have g := good k.level
  have main : ∃ s', Done E (mul1F k).sig (mul1F k).code s s' ∧
      IsMont (tables k.level).n k.level.p (val (wordsAt s'.mem (ptr s 2) (tables k.level).n))
        (val (f2At s.mem (ptr s 0) (tables k.level).n).c0 * val (f2At s.mem (ptr s 1) (tables k.level).n).c1 +
          val (f2At s.mem (ptr s 0) (tables k.level).n).c1 * val (f2At s.mem (ptr s 1) (tables k.level).n).c0) := by
    have b0 := lt_of_lt_of_le h0 (dotTop_le k)
    have b1 := lt_of_lt_of_le h1 (dotTop_le k)
    have b2 := lt_of_lt_of_le h2 ((Nat.mul_le_mul_right _ (by norm_num : 8 ≤ 16)).trans (dotTop_le k))
    have b3 := lt_of_lt_of_le h3 ((Nat.mul_le_mul_right _ (by norm_num : 8 ≤ 16)).trans (dotTop_le k))
    cases k
    · have c := P434.fp2mul434_c1_check
      rw [prime434] at c
      exact fp2mul1_of_check (T := words434) g c (by decide) (by decide) hE hp b0 b1 b2 b3
    · have c := P503.fp2mul503_c1_check
      rw [prime503] at c
      exact fp2mul1_of_check (T := words503) g c (by decide) (by decide) hE hp b0 b1 b2 b3
    · have c := P610.fp2mul610_c1_check
      rw [prime610] at c
      exact fp2mul1_of_check (T := words610) g c (by decide) (by decide) hE hp b0 b1 b2 b3
  obtain ⟨s', hd, hm⟩ := main
  refine ⟨s', hd, ?_⟩
  obtain ⟨l0, l1⟩ := f2At_length s.mem (ptr s 0) (tables k.level).n
  obtain ⟨l2, l3⟩ := f2At_length s.mem (ptr s 1) (tables k.level).n
  obtain ⟨hl, -, hm', -⟩ := fp2mul_isMont g l0 l1 l2 l3 ⟨h0, h1⟩ ⟨h2, h3⟩ (by norm_num) (by norm_num) (by norm_num)
  exact eq_of_isMont g.odd (wordsAt_length _ _ _) hl hm hm'

/-! ## The functions for p751 -/

theorem mul751F_ok : Computes .l751 mul751F
    (fun s => val (wordsAt s.mem (ptr s 0) 12) < 2 ^ 15 * Level.l751.p ∧
      val (wordsAt s.mem (ptr s 1) 12) < 2 ^ 15 * Level.l751.p) fun s s' =>
    mpMul 12 (wordsAt s.mem (ptr s 0) 12) (wordsAt s.mem (ptr s 1) 12) = some (wordsAt s'.mem (ptr s 2) 24) := by
  intro E s hE hp ⟨h0, h1⟩
  have hb : 2 ^ 15 * Level.l751.p ≤ (2 ^ 62 + 1) * 2 ^ (64 * (12 - 1)) := by decide +kernel
  exact mul_of_check P751.mul751_check (by decide) (by decide) (by decide) hE hp (lt_of_lt_of_le h0 hb) (lt_of_lt_of_le h1 hb)

theorem rdc751F_ok : Computes .l751 rdc751F
    (fun s => val (wordsAt s.mem (ptr s 0) 24) < 2 ^ (64 * 12) * Level.l751.p) fun s s' =>
    rdcMont words751 (wordsAt s.mem (ptr s 0) 24) = some (wordsAt s'.mem (ptr s 1) 12) := by
  intro E s hE hp h0
  have hb : 2 ^ (64 * 12) * Level.l751.p ≤ (2 ^ 48 + 1) * 2 ^ (64 * (2 * 12 - 1)) := by decide +kernel
  have c := P751.rdc751_check
  rw [prime751] at c
  exact rdc_of_check (T := words751) (good .l751) c (by decide) (by decide) hE hp (lt_of_lt_of_le h0 hb) h0

theorem subP4751F_ok : Computes .l751 subP4751F (fun _ => True) fun s s' =>
    wordsAt s'.mem (ptr s 2) 12 = subP4 words751 (wordsAt s.mem (ptr s 0) 12) (wordsAt s.mem (ptr s 1) 12) := by
  intro E s hE hp _
  exact subk_of_check (good .l751).len_x4 P751.mp_sub751_p4_check (by decide) (by decide) hE hp

theorem subadd751F_ok : Computes .l751 subadd751F (fun _ => True) fun s s' =>
    wordsAt s'.mem (ptr s 2) 24 = mpSubaddfast words751 (wordsAt s.mem (ptr s 0) 24) (wordsAt s.mem (ptr s 1) 24) := by
  intro E s hE hp _
  have c := P751.mp_subadd751x2_check
  rw [prime751] at c
  exact subadd_of_check (T := words751) (good .l751) c (by decide) (by decide) hE hp

theorem dblsub751F_ok : Computes .l751 dblsub751F (fun _ => True) fun s s' =>
    wordsAt s'.mem (ptr s 2) 24 =
      mpDblsubfast (wordsAt s.mem (ptr s 0) 24) (wordsAt s.mem (ptr s 1) 24) (wordsAt s.mem (ptr s 2) 24) := by
  intro E s hE hp _
  exact dblsub_of_check P751.mp_dblsub751x2_check (by decide) (by decide) hE hp

end Secuer.X64
