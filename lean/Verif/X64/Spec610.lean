import Verif.X64.Routine
import Verif.X64.Code610

/-!
# The checks of the assembly routines for p610

Generated: where the checker names words, and the equations that combine to the claims.  The theorems say all that is used of
it.
-/

set_option maxRecDepth 100000

namespace Secuer.X64.P610

open Secuer.Word

/-- `p610x8` (P610/P610.c:34-35) -/
def x8 : List Digit :=
  [0xFFFFFFFFFFFFFFF8, 0xFFFFFFFFFFFFFFFF, 0xFFFFFFFFFFFFFFFF, 0xFFFFFFFFFFFFFFFF,
   0x700FFFFFFFFFFFFF, 0x8BC26F4552D58173, 0xD73DFA28247FCD5D, 0x92AD97D086212954,
   0x0C8086128F3EC465, 0x00000013DFB53B44]

/-- The prime -/
def prime : ℕ := val words610.p

/-- The signature of `mp_add610_asm`: input and output words, stack bytes, where the output may lie in the inputs -/
def mp_add610Sig : Sig := ⟨[10, 10], 10, 80, [(0, 0), (1, 0)], []⟩

def mp_add610Hints : List (ℕ × Hint) :=
  []

theorem mp_add610_check :
    check (tabsOf words610 x8) mp_add610Sig mp_add610_asm mp_add610Hints (full (2 * 10)) []
    (addClaim mp_add610Sig 10) = true := by
  decide +kernel

/-- The signature of `fpadd610_asm`: input and output words, stack bytes, where the output may lie in the inputs -/
def fpadd610Sig : Sig := ⟨[10, 10], 10, 80, [(0, 0), (1, 0)], []⟩

def fpadd610Hints : List (ℕ × Hint) :=
  [(24, .name false [.reg .r8, .reg .r9, .reg .r10, .reg .r11, .reg .r12, .reg .r13, .reg .r14, .reg .r15, .reg .rcx, .reg .rdi] []),
   (42, .name false [.reg .r8, .reg .r9, .reg .r10, .reg .r11, .reg .r12, .reg .r13, .reg .r14, .reg .r15, .reg .rcx, .reg .rdi] [])]

theorem fpadd610_check :
    check (tabsOf words610 x8) fpadd610Sig fpadd610_asm fpadd610Hints (full (2 * 10)) []
    (fpaddClaim fpadd610Sig 10 (val words610.x2) 38 58 57) = true := by
  decide +kernel

/-- The signature of `fpsub610_asm`: input and output words, stack bytes, where the output may lie in the inputs -/
def fpsub610Sig : Sig := ⟨[10, 10], 10, 80, [(0, 0), (1, 0)], []⟩

def fpsub610Hints : List (ℕ × Hint) :=
  [(24, .name false [.reg .r8, .reg .r9, .reg .r10, .reg .r11, .reg .r12, .reg .r13, .reg .r14, .reg .r15, .reg .rcx, .reg .rdi] [])]

theorem fpsub610_check :
    check (tabsOf words610 x8) fpsub610Sig fpsub610_asm fpsub610Hints (full (2 * 10)) []
    (fpsubClaim fpsub610Sig 10 (val words610.x2) 38 37) = true := by
  decide +kernel

/-- The signature of `mp_sub610_p2_asm`: input and output words, stack bytes, where the output may lie in the inputs -/
def mp_sub610_p2Sig : Sig := ⟨[10, 10], 10, 80, [(0, 0), (1, 0)], []⟩

def mp_sub610_p2Hints : List (ℕ × Hint) :=
  []

theorem mp_sub610_p2_check :
    check (tabsOf words610 x8) mp_sub610_p2Sig mp_sub610_p2_asm mp_sub610_p2Hints (full (2 * 10)) []
    (subkClaim mp_sub610_p2Sig 10 (val words610.x2)) = true := by
  decide +kernel

/-- The signature of `fpmul610_asm`: input and output words, stack bytes, where the output may lie in the inputs -/
def fpmul610Sig : Sig := ⟨[10, 10], 10, 80, [(0, 0), (1, 0)], []⟩

def fpmul610Hints : List (ℕ × Hint) :=
  [(34, .name true [.mem .rsp 24, .mem .rsp 0, .mem .rsp 8, .mem .rsp 16, .reg .r12, .reg .r13, .reg .r14, .reg .r15, .reg .r8, .reg .r9, .reg .r10] []),
   (55, .name true [.reg .r12, .reg .r13, .reg .r14, .reg .r15, .reg .r8, .reg .r9, .reg .r10] []),
   (92, .name true [.mem .rsp 24, .mem .rsp 0, .mem .rsp 8, .mem .rsp 16, .reg .r13, .reg .r14, .reg .r15, .reg .r8, .reg .r9, .reg .r10, .reg .r11] []),
   (113, .name true [.reg .r13, .reg .r14, .reg .r15, .reg .r8, .reg .r9, .reg .r10, .reg .r11] []),
   (150, .name true [.mem .rsp 24, .mem .rsp 0, .mem .rsp 8, .mem .rsp 16, .reg .r14, .reg .r15, .reg .r8, .reg .r9, .reg .r10, .reg .r11, .reg .r12] []),
   (171, .name true [.reg .r14, .reg .r15, .reg .r8, .reg .r9, .reg .r10, .reg .r11, .reg .r12] []),
   (208, .name true [.mem .rsp 24, .mem .rsp 0, .mem .rsp 8, .mem .rsp 16, .reg .r15, .reg .r8, .reg .r9, .reg .r10, .reg .r11, .reg .r12, .reg .r13] []),
   (229, .name true [.reg .r15, .reg .r8, .reg .r9, .reg .r10, .reg .r11, .reg .r12, .reg .r13] []),
   (266, .name true [.mem .rsp 24, .mem .rsp 0, .mem .rsp 8, .mem .rsp 16, .reg .r8, .reg .r9, .reg .r10, .reg .r11, .reg .r12, .reg .r13, .reg .r14] []),
   (287, .name true [.reg .r8, .reg .r9, .reg .r10, .reg .r11, .reg .r12, .reg .r13, .reg .r14] []),
   (324, .name true [.mem .rsp 24, .mem .rsp 0, .mem .rsp 8, .mem .rsp 16, .reg .r9, .reg .r10, .reg .r11, .reg .r12, .reg .r13, .reg .r14, .reg .r15] []),
   (345, .name true [.reg .r9, .reg .r10, .reg .r11, .reg .r12, .reg .r13, .reg .r14, .reg .r15] []),
   (382, .name true [.mem .rsp 24, .mem .rsp 0, .mem .rsp 8, .mem .rsp 16, .reg .r10, .reg .r11, .reg .r12, .reg .r13, .reg .r14, .reg .r15, .reg .r8] []),
   (403, .name true [.reg .r10, .reg .r11, .reg .r12, .reg .r13, .reg .r14, .reg .r15, .reg .r8] []),
   (440, .name true [.mem .rsp 24, .mem .rsp 0, .mem .rsp 8, .mem .rsp 16, .reg .r11, .reg .r12, .reg .r13, .reg .r14, .reg .r15, .reg .r8, .reg .r9] []),
   (461, .name true [.reg .r11, .reg .r12, .reg .r13, .reg .r14, .reg .r15, .reg .r8, .reg .r9] []),
   (498, .name true [.mem .rsp 24, .mem .rsp 0, .mem .rsp 8, .mem .rsp 16, .reg .r12, .reg .r13, .reg .r14, .reg .r15, .reg .r8, .reg .r9, .reg .r10] []),
   (519, .name true [.reg .r12, .reg .r13, .reg .r14, .reg .r15, .reg .r8, .reg .r9, .reg .r10] []),
   (556, .name true [.mem .rsp 24, .mem .rcx 0, .mem .rcx 8, .mem .rcx 16, .reg .r13, .reg .r14, .reg .r15, .reg .r8, .reg .r9, .reg .r10, .reg .r11] []),
   (577, .name true [.reg .r13, .reg .r14, .reg .r15, .reg .r8, .reg .r9, .reg .r10, .reg .r11] []),
   (584, .name true [.mem .rcx 0, .mem .rcx 8, .mem .rcx 16, .mem .rcx 24, .mem .rcx 32, .mem .rcx 40, .mem .rcx 48, .mem .rcx 56, .mem .rcx 64, .mem .rcx 72] [])]

def fpmul610Ms : List ℕ := [48, 116, 184, 252, 320, 388, 456, 524, 592, 660]

def fpmul610Ws : List (ℕ × ℕ) :=
  [(0, 0), (1, 256), (2, 64), (3, 320), (4, 128), (5, 384), (6, 192), (7, 448), (8, 256), (9, 512), (10, 320), (11, 576), (12, 384), (13, 640), (14, 448), (15, 704), (16, 512), (17, 768), (18, 576), (19, 832), (20, 640)]

theorem fpmul610_check :
    check (tabsOf words610 x8) fpmul610Sig fpmul610_asm fpmul610Hints (bd 10 (2 ^ 60) ++ bd 10 (2 ^ 60)) []
    (fpmulClaim fpmul610Sig 10 prime fpmul610Ms fpmul610Ws) = true := by
  decide +kernel

/-- The signature of `fp2sqr610_c1_asm`: input and output words, stack bytes, where the output may lie in the inputs -/
def fp2sqr610_c1Sig : Sig := ⟨[2 * 10], 10, 160, [(0, 80)], []⟩

def fp2sqr610_c1Hints : List (ℕ × Hint) :=
  [(26, .name true [.reg .r8, .reg .r9, .reg .r10, .reg .r11, .reg .r12, .reg .r13, .reg .r14, .reg .r15, .reg .rbx, .reg .rbp] []),
   (62, .name true [.mem .rsp 104, .mem .rsp 80, .mem .rsp 88, .mem .rsp 96, .reg .r12, .reg .r13, .reg .r14, .reg .r15, .reg .r8, .reg .r9, .reg .r10] []),
   (83, .name true [.reg .r12, .reg .r13, .reg .r14, .reg .r15, .reg .r8, .reg .r9, .reg .r10] []),
   (120, .name true [.mem .rsp 104, .mem .rsp 80, .mem .rsp 88, .mem .rsp 96, .reg .r13, .reg .r14, .reg .r15, .reg .r8, .reg .r9, .reg .r10, .reg .r11] []),
   (141, .name true [.reg .r13, .reg .r14, .reg .r15, .reg .r8, .reg .r9, .reg .r10, .reg .r11] []),
   (178, .name true [.mem .rsp 104, .mem .rsp 80, .mem .rsp 88, .mem .rsp 96, .reg .r14, .reg .r15, .reg .r8, .reg .r9, .reg .r10, .reg .r11, .reg .r12] []),
   (199, .name true [.reg .r14, .reg .r15, .reg .r8, .reg .r9, .reg .r10, .reg .r11, .reg .r12] []),
   (236, .name true [.mem .rsp 104, .mem .rsp 80, .mem .rsp 88, .mem .rsp 96, .reg .r15, .reg .r8, .reg .r9, .reg .r10, .reg .r11, .reg .r12, .reg .r13] []),
   (257, .name true [.reg .r15, .reg .r8, .reg .r9, .reg .r10, .reg .r11, .reg .r12, .reg .r13] []),
   (294, .name true [.mem .rsp 104, .mem .rsp 80, .mem .rsp 88, .mem .rsp 96, .reg .r8, .reg .r9, .reg .r10, .reg .r11, .reg .r12, .reg .r13, .reg .r14] []),
   (315, .name true [.reg .r8, .reg .r9, .reg .r10, .reg .r11, .reg .r12, .reg .r13, .reg .r14] []),
   (352, .name true [.mem .rsp 104, .mem .rsp 80, .mem .rsp 88, .mem .rsp 96, .reg .r9, .reg .r10, .reg .r11, .reg .r12, .reg .r13, .reg .r14, .reg .r15] []),
   (373, .name true [.reg .r9, .reg .r10, .reg .r11, .reg .r12, .reg .r13, .reg .r14, .reg .r15] []),
   (410, .name true [.mem .rsp 104, .mem .rsp 80, .mem .rsp 88, .mem .rsp 96, .reg .r10, .reg .r11, .reg .r12, .reg .r13, .reg .r14, .reg .r15, .reg .r8] []),
   (431, .name true [.reg .r10, .reg .r11, .reg .r12, .reg .r13, .reg .r14, .reg .r15, .reg .r8] []),
   (468, .name true [.mem .rsp 104, .mem .rsp 80, .mem .rsp 88, .mem .rsp 96, .reg .r11, .reg .r12, .reg .r13, .reg .r14, .reg .r15, .reg .r8, .reg .r9] []),
   (489, .name true [.reg .r11, .reg .r12, .reg .r13, .reg .r14, .reg .r15, .reg .r8, .reg .r9] []),
   (526, .name true [.mem .rsp 104, .mem .rsp 80, .mem .rsp 88, .mem .rsp 96, .reg .r12, .reg .r13, .reg .r14, .reg .r15, .reg .r8, .reg .r9, .reg .r10] []),
   (547, .name true [.reg .r12, .reg .r13, .reg .r14, .reg .r15, .reg .r8, .reg .r9, .reg .r10] []),
   (584, .name true [.mem .rsp 104, .mem .rsi 0, .mem .rsi 8, .mem .rsi 16, .reg .r13, .reg .r14, .reg .r15, .reg .r8, .reg .r9, .reg .r10, .reg .r11] []),
   (605, .name true [.reg .r13, .reg .r14, .reg .r15, .reg .r8, .reg .r9, .reg .r10, .reg .r11] []),
   (612, .name true [.mem .rsi 0, .mem .rsi 8, .mem .rsi 16, .mem .rsi 24, .mem .rsi 32, .mem .rsi 40, .mem .rsi 48, .mem .rsi 56, .mem .rsi 64, .mem .rsi 72] [])]

def fp2sqr610_c1Ms : List ℕ := [68, 136, 204, 272, 340, 408, 476, 544, 612, 680]

def fp2sqr610_c1Ws : List (ℕ × ℕ) :=
  [(1, 0), (2, 256), (3, 64), (4, 320), (5, 128), (6, 384), (7, 192), (8, 448), (9, 256), (10, 512), (11, 320), (12, 576), (13, 384), (14, 640), (15, 448), (16, 704), (17, 512), (18, 768), (19, 576), (20, 832), (21, 640)]

theorem fp2sqr610_c1_check :
    check (tabsOf words610 x8) fp2sqr610_c1Sig fp2sqr610_c1_asm fp2sqr610_c1Hints (bd 10 (2 ^ 55) ++ bd 10 (2 ^ 55)) []
    (fp2sqr1Claim fp2sqr610_c1Sig 10 prime 38 [(0, 0)] fp2sqr610_c1Ms fp2sqr610_c1Ws) = true := by
  decide +kernel

/-- The signature of `fp2sqr610_c0_asm`: input and output words, stack bytes, where the output may lie in the inputs -/
def fp2sqr610_c0Sig : Sig := ⟨[2 * 10], 20, 80, [], []⟩

def fp2sqr610_c0Hints : List (ℕ × Hint) :=
  [(30, .name true [.mem .rsi 0, .mem .rsi 8, .mem .rsi 16, .reg .r11, .reg .r12, .reg .r13, .reg .r14, .reg .r15, .reg .r9, .reg .r10] []),
   (68, .name true [.reg .rcx, .reg .r10, .reg .r12, .reg .r13, .reg .r14, .reg .r15, .reg .rbx, .reg .rbp, .reg .r8, .reg .rax] [(0, 0)]),
   (104, .name true [.mem .rsp 24, .mem .rsp 0, .mem .rsp 8, .mem .rsp 16, .reg .r12, .reg .r13, .reg .r14, .reg .r15, .reg .r8, .reg .r9, .reg .r10] []),
   (125, .name true [.reg .r12, .reg .r13, .reg .r14, .reg .r15, .reg .r8, .reg .r9, .reg .r10] []),
   (162, .name true [.mem .rsp 24, .mem .rsp 0, .mem .rsp 8, .mem .rsp 16, .reg .r13, .reg .r14, .reg .r15, .reg .r8, .reg .r9, .reg .r10, .reg .r11] []),
   (183, .name true [.reg .r13, .reg .r14, .reg .r15, .reg .r8, .reg .r9, .reg .r10, .reg .r11] []),
   (220, .name true [.mem .rsp 24, .mem .rsp 0, .mem .rsp 8, .mem .rsp 16, .reg .r14, .reg .r15, .reg .r8, .reg .r9, .reg .r10, .reg .r11, .reg .r12] []),
   (241, .name true [.reg .r14, .reg .r15, .reg .r8, .reg .r9, .reg .r10, .reg .r11, .reg .r12] []),
   (278, .name true [.mem .rsp 24, .mem .rsp 0, .mem .rsp 8, .mem .rsp 16, .reg .r15, .reg .r8, .reg .r9, .reg .r10, .reg .r11, .reg .r12, .reg .r13] []),
   (299, .name true [.reg .r15, .reg .r8, .reg .r9, .reg .r10, .reg .r11, .reg .r12, .reg .r13] []),
   (336, .name true [.mem .rsp 24, .mem .rsp 0, .mem .rsp 8, .mem .rsp 16, .reg .r8, .reg .r9, .reg .r10, .reg .r11, .reg .r12, .reg .r13, .reg .r14] []),
   (357, .name true [.reg .r8, .reg .r9, .reg .r10, .reg .r11, .reg .r12, .reg .r13, .reg .r14] []),
   (394, .name true [.mem .rsp 24, .mem .rsp 0, .mem .rsp 8, .mem .rsp 16, .reg .r9, .reg .r10, .reg .r11, .reg .r12, .reg .r13, .reg .r14, .reg .r15] []),
   (415, .name true [.reg .r9, .reg .r10, .reg .r11, .reg .r12, .reg .r13, .reg .r14, .reg .r15] []),
   (452, .name true [.mem .rsp 24, .mem .rsp 0, .mem .rsp 8, .mem .rsp 16, .reg .r10, .reg .r11, .reg .r12, .reg .r13, .reg .r14, .reg .r15, .reg .r8] []),
   (473, .name true [.reg .r10, .reg .r11, .reg .r12, .reg .r13, .reg .r14, .reg .r15, .reg .r8] []),
   (510, .name true [.mem .rsp 24, .mem .rsp 0, .mem .rsp 8, .mem .rsp 16, .reg .r11, .reg .r12, .reg .r13, .reg .r14, .reg .r15, .reg .r8, .reg .r9] []),
   (531, .name true [.reg .r11, .reg .r12, .reg .r13, .reg .r14, .reg .r15, .reg .r8, .reg .r9] []),
   (568, .name true [.mem .rsp 24, .mem .rsp 0, .mem .rsp 8, .mem .rsp 16, .reg .r12, .reg .r13, .reg .r14, .reg .r15, .reg .r8, .reg .r9, .reg .r10] []),
   (589, .name true [.reg .r12, .reg .r13, .reg .r14, .reg .r15, .reg .r8, .reg .r9, .reg .r10] []),
   (626, .name true [.mem .rsp 24, .mem .rsi 0, .mem .rsi 8, .mem .rsi 16, .reg .r13, .reg .r14, .reg .r15, .reg .r8, .reg .r9, .reg .r10, .reg .r11] []),
   (647, .name true [.reg .r13, .reg .r14, .reg .r15, .reg .r8, .reg .r9, .reg .r10, .reg .r11] []),
   (654, .name true [.mem .rsi 0, .mem .rsi 8, .mem .rsi 16, .mem .rsi 24, .mem .rsi 32, .mem .rsi 40, .mem .rsi 48, .mem .rsi 56, .mem .rsi 64, .mem .rsi 72] [])]

def fp2sqr610_c0Ms : List ℕ := [99, 167, 235, 303, 371, 439, 507, 575, 643, 711]

def fp2sqr610_c0Ws : List (ℕ × ℕ) :=
  [(3, 0), (4, 256), (5, 64), (6, 320), (7, 128), (8, 384), (9, 192), (10, 448), (11, 256), (12, 512), (13, 320), (14, 576), (15, 384), (16, 640), (17, 448), (18, 704), (19, 512), (20, 768), (21, 576), (22, 832), (23, 640)]

theorem fp2sqr610_c0_check :
    check (tabsOf words610 x8) fp2sqr610_c0Sig fp2sqr610_c0_asm fp2sqr610_c0Hints (bd 10 (2 ^ 55) ++ bd 10 (2 ^ 55)) [(8 + 10, 10, val words610.x4)]
    (fp2sqr0Claim ⟨[2 * 10], 10, 80, [], []⟩ 10 prime (val words610.x4) 39 69 [(1, 0)] [(2, 0), (0, 0)] fp2sqr610_c0Ms fp2sqr610_c0Ws) = true := by
  decide +kernel

/-- The signature of `fp2mul610_c0_asm`: input and output words, stack bytes, where the output may lie in the inputs -/
def fp2mul610_c0Sig : Sig := ⟨[2 * 10, 2 * 10], 10, 128, [], []⟩

def fp2mul610_c0Hints : List (ℕ × Hint) :=
  [(44, .name true [.mem .rsp 0, .mem .rsp 8, .mem .rsp 16, .mem .rsp 24, .mem .rsp 32, .mem .rsp 40, .reg .r8, .reg .r9, .reg .r10, .reg .r11] [(0, 0)]),
   (73, .name true [.mem .rcx 0, .mem .rcx 8, .mem .rcx 16, .reg .r11, .reg .r12, .reg .r13, .reg .r14, .reg .r15, .reg .r8, .reg .r9, .reg .r10] []),
   (110, .name true [.mem .rcx 24, .mem .rcx 0, .mem .rcx 8, .mem .rcx 16, .reg .r12, .reg .r13, .reg .r14, .reg .r15, .reg .r8, .reg .r9, .reg .r10] []),
   (131, .name true [.reg .r12, .reg .r13, .reg .r14, .reg .r15, .reg .r8, .reg .r9, .reg .r10] []),
   (167, .name true [.mem .rcx 0, .mem .rcx 8, .mem .rcx 16, .reg .r12, .reg .r13, .reg .r14, .reg .r15, .reg .r8, .reg .r9, .reg .r10, .reg .r11] []),
   (204, .name true [.mem .rcx 24, .mem .rcx 0, .mem .rcx 8, .mem .rcx 16, .reg .r13, .reg .r14, .reg .r15, .reg .r8, .reg .r9, .reg .r10, .reg .r11] []),
   (225, .name true [.reg .r13, .reg .r14, .reg .r15, .reg .r8, .reg .r9, .reg .r10, .reg .r11] []),
   (261, .name true [.mem .rcx 0, .mem .rcx 8, .mem .rcx 16, .reg .r13, .reg .r14, .reg .r15, .reg .r8, .reg .r9, .reg .r10, .reg .r11, .reg .r12] []),
   (298, .name true [.mem .rcx 24, .mem .rcx 0, .mem .rcx 8, .mem .rcx 16, .reg .r14, .reg .r15, .reg .r8, .reg .r9, .reg .r10, .reg .r11, .reg .r12] []),
   (319, .name true [.reg .r14, .reg .r15, .reg .r8, .reg .r9, .reg .r10, .reg .r11, .reg .r12] []),
   (355, .name true [.mem .rcx 0, .mem .rcx 8, .mem .rcx 16, .reg .r14, .reg .r15, .reg .r8, .reg .r9, .reg .r10, .reg .r11, .reg .r12, .reg .r13] []),
   (392, .name true [.mem .rcx 24, .mem .rcx 0, .mem .rcx 8, .mem .rcx 16, .reg .r15, .reg .r8, .reg .r9, .reg .r10, .reg .r11, .reg .r12, .reg .r13] []),
   (413, .name true [.reg .r15, .reg .r8, .reg .r9, .reg .r10, .reg .r11, .reg .r12, .reg .r13] []),
   (449, .name true [.mem .rcx 0, .mem .rcx 8, .mem .rcx 16, .reg .r15, .reg .r8, .reg .r9, .reg .r10, .reg .r11, .reg .r12, .reg .r13, .reg .r14] []),
   (486, .name true [.mem .rcx 24, .mem .rcx 0, .mem .rcx 8, .mem .rcx 16, .reg .r8, .reg .r9, .reg .r10, .reg .r11, .reg .r12, .reg .r13, .reg .r14] []),
   (507, .name true [.reg .r8, .reg .r9, .reg .r10, .reg .r11, .reg .r12, .reg .r13, .reg .r14] []),
   (543, .name true [.mem .rcx 0, .mem .rcx 8, .mem .rcx 16, .reg .r8, .reg .r9, .reg .r10, .reg .r11, .reg .r12, .reg .r13, .reg .r14, .reg .r15] []),
   (580, .name true [.mem .rcx 24, .mem .rcx 0, .mem .rcx 8, .mem .rcx 16, .reg .r9, .reg .r10, .reg .r11, .reg .r12, .reg .r13, .reg .r14, .reg .r15] []),
   (601, .name true [.reg .r9, .reg .r10, .reg .r11, .reg .r12, .reg .r13, .reg .r14, .reg .r15] []),
   (637, .name true [.mem .rcx 0, .mem .rcx 8, .mem .rcx 16, .reg .r9, .reg .r10, .reg .r11, .reg .r12, .reg .r13, .reg .r14, .reg .r15, .reg .r8] []),
   (674, .name true [.mem .rcx 24, .mem .rcx 0, .mem .rcx 8, .mem .rcx 16, .reg .r10, .reg .r11, .reg .r12, .reg .r13, .reg .r14, .reg .r15, .reg .r8] []),
   (695, .name true [.reg .r10, .reg .r11, .reg .r12, .reg .r13, .reg .r14, .reg .r15, .reg .r8] []),
   (731, .name true [.mem .rcx 0, .mem .rcx 8, .mem .rcx 16, .reg .r10, .reg .r11, .reg .r12, .reg .r13, .reg .r14, .reg .r15, .reg .r8, .reg .r9] []),
   (768, .name true [.mem .rcx 24, .mem .rcx 0, .mem .rcx 8, .mem .rcx 16, .reg .r11, .reg .r12, .reg .r13, .reg .r14, .reg .r15, .reg .r8, .reg .r9] []),
   (789, .name true [.reg .r11, .reg .r12, .reg .r13, .reg .r14, .reg .r15, .reg .r8, .reg .r9] []),
   (825, .name true [.mem .rcx 0, .mem .rcx 8, .mem .rcx 16, .reg .r11, .reg .r12, .reg .r13, .reg .r14, .reg .r15, .reg .r8, .reg .r9, .reg .r10] []),
   (862, .name true [.mem .rcx 24, .mem .rcx 0, .mem .rcx 8, .mem .rcx 16, .reg .r12, .reg .r13, .reg .r14, .reg .r15, .reg .r8, .reg .r9, .reg .r10] []),
   (883, .name true [.reg .r12, .reg .r13, .reg .r14, .reg .r15, .reg .r8, .reg .r9, .reg .r10] []),
   (919, .name true [.mem .rcx 0, .mem .rcx 8, .mem .rcx 16, .reg .r12, .reg .r13, .reg .r14, .reg .r15, .reg .r8, .reg .r9, .reg .r10, .reg .r11] []),
   (956, .name true [.mem .rcx 24, .mem .rcx 0, .mem .rcx 8, .mem .rcx 16, .reg .r13, .reg .r14, .reg .r15, .reg .r8, .reg .r9, .reg .r10, .reg .r11] []),
   (977, .name true [.reg .r13, .reg .r14, .reg .r15, .reg .r8, .reg .r9, .reg .r10, .reg .r11] []),
   (984, .name true [.mem .rcx 0, .mem .rcx 8, .mem .rcx 16, .mem .rcx 24, .mem .rcx 32, .mem .rcx 40, .mem .rcx 48, .mem .rcx 56, .mem .rcx 64, .mem .rcx 72] [])]

def fp2mul610_c0Ms : List ℕ := [131, 241, 351, 461, 571, 681, 791, 901, 1011, 1121]

def fp2mul610_c0Ws : List (ℕ × ℕ) :=
  [(2, 0), (3, 0), (4, 256), (5, 64), (6, 64), (7, 320), (8, 128), (9, 128), (10, 384), (11, 192), (12, 192), (13, 448), (14, 256), (15, 256), (16, 512), (17, 320), (18, 320), (19, 576), (20, 384), (21, 384), (22, 640), (23, 448), (24, 448), (25, 704), (26, 512), (27, 512), (28, 768), (29, 576), (30, 576), (31, 832), (32, 640)]

theorem fp2mul610_c0_check :
    check (tabsOf words610 x8) fp2mul610_c0Sig fp2mul610_c0_asm fp2mul610_c0Hints ((bd 10 (2 ^ 57) ++ bd 10 (2 ^ 57)) ++ (bd 10 (2 ^ 57) ++ bd 10 (2 ^ 57))) [(8 + 3 * 10, 10, val x8)]
    (fp2mul0Claim fp2mul610_c0Sig 10 prime (val x8) 59 [(1, 0), (0, 0)] fp2mul610_c0Ms fp2mul610_c0Ws) = true := by
  decide +kernel

/-- The signature of `fp2mul610_c1_asm`: input and output words, stack bytes, where the output may lie in the inputs -/
def fp2mul610_c1Sig : Sig := ⟨[2 * 10, 2 * 10], 10, 80, [(0, 80), (1, 80)], []⟩

def fp2mul610_c1Hints : List (ℕ × Hint) :=
  [(33, .name true [.mem .rsp 0, .mem .rsp 8, .mem .rsp 16, .reg .r11, .reg .r12, .reg .r13, .reg .r14, .reg .r15, .reg .r8, .reg .r9, .reg .r10] []),
   (70, .name true [.mem .rsp 24, .mem .rsp 0, .mem .rsp 8, .mem .rsp 16, .reg .r12, .reg .r13, .reg .r14, .reg .r15, .reg .r8, .reg .r9, .reg .r10] []),
   (91, .name true [.reg .r12, .reg .r13, .reg .r14, .reg .r15, .reg .r8, .reg .r9, .reg .r10] []),
   (127, .name true [.mem .rsp 0, .mem .rsp 8, .mem .rsp 16, .reg .r12, .reg .r13, .reg .r14, .reg .r15, .reg .r8, .reg .r9, .reg .r10, .reg .r11] []),
   (164, .name true [.mem .rsp 24, .mem .rsp 0, .mem .rsp 8, .mem .rsp 16, .reg .r13, .reg .r14, .reg .r15, .reg .r8, .reg .r9, .reg .r10, .reg .r11] []),
   (185, .name true [.reg .r13, .reg .r14, .reg .r15, .reg .r8, .reg .r9, .reg .r10, .reg .r11] []),
   (221, .name true [.mem .rsp 0, .mem .rsp 8, .mem .rsp 16, .reg .r13, .reg .r14, .reg .r15, .reg .r8, .reg .r9, .reg .r10, .reg .r11, .reg .r12] []),
   (258, .name true [.mem .rsp 24, .mem .rsp 0, .mem .rsp 8, .mem .rsp 16, .reg .r14, .reg .r15, .reg .r8, .reg .r9, .reg .r10, .reg .r11, .reg .r12] []),
   (279, .name true [.reg .r14, .reg .r15, .reg .r8, .reg .r9, .reg .r10, .reg .r11, .reg .r12] []),
   (315, .name true [.mem .rsp 0, .mem .rsp 8, .mem .rsp 16, .reg .r14, .reg .r15, .reg .r8, .reg .r9, .reg .r10, .reg .r11, .reg .r12, .reg .r13] []),
   (352, .name true [.mem .rsp 24, .mem .rsp 0, .mem .rsp 8, .mem .rsp 16, .reg .r15, .reg .r8, .reg .r9, .reg .r10, .reg .r11, .reg .r12, .reg .r13] []),
   (373, .name true [.reg .r15, .reg .r8, .reg .r9, .reg .r10, .reg .r11, .reg .r12, .reg .r13] []),
   (409, .name true [.mem .rsp 0, .mem .rsp 8, .mem .rsp 16, .reg .r15, .reg .r8, .reg .r9, .reg .r10, .reg .r11, .reg .r12, .reg .r13, .reg .r14] []),
   (446, .name true [.mem .rsp 24, .mem .rsp 0, .mem .rsp 8, .mem .rsp 16, .reg .r8, .reg .r9, .reg .r10, .reg .r11, .reg .r12, .reg .r13, .reg .r14] []),
   (467, .name true [.reg .r8, .reg .r9, .reg .r10, .reg .r11, .reg .r12, .reg .r13, .reg .r14] []),
   (503, .name true [.mem .rsp 0, .mem .rsp 8, .mem .rsp 16, .reg .r8, .reg .r9, .reg .r10, .reg .r11, .reg .r12, .reg .r13, .reg .r14, .reg .r15] []),
   (540, .name true [.mem .rsp 24, .mem .rsp 0, .mem .rsp 8, .mem .rsp 16, .reg .r9, .reg .r10, .reg .r11, .reg .r12, .reg .r13, .reg .r14, .reg .r15] []),
   (561, .name true [.reg .r9, .reg .r10, .reg .r11, .reg .r12, .reg .r13, .reg .r14, .reg .r15] []),
   (597, .name true [.mem .rsp 0, .mem .rsp 8, .mem .rsp 16, .reg .r9, .reg .r10, .reg .r11, .reg .r12, .reg .r13, .reg .r14, .reg .r15, .reg .r8] []),
   (634, .name true [.mem .rsp 24, .mem .rsp 0, .mem .rsp 8, .mem .rsp 16, .reg .r10, .reg .r11, .reg .r12, .reg .r13, .reg .r14, .reg .r15, .reg .r8] []),
   (655, .name true [.reg .r10, .reg .r11, .reg .r12, .reg .r13, .reg .r14, .reg .r15, .reg .r8] []),
   (691, .name true [.mem .rsp 0, .mem .rsp 8, .mem .rsp 16, .reg .r10, .reg .r11, .reg .r12, .reg .r13, .reg .r14, .reg .r15, .reg .r8, .reg .r9] []),
   (728, .name true [.mem .rsp 24, .mem .rsp 0, .mem .rsp 8, .mem .rsp 16, .reg .r11, .reg .r12, .reg .r13, .reg .r14, .reg .r15, .reg .r8, .reg .r9] []),
   (749, .name true [.reg .r11, .reg .r12, .reg .r13, .reg .r14, .reg .r15, .reg .r8, .reg .r9] []),
   (785, .name true [.mem .rsp 0, .mem .rsp 8, .mem .rsp 16, .reg .r11, .reg .r12, .reg .r13, .reg .r14, .reg .r15, .reg .r8, .reg .r9, .reg .r10] []),
   (822, .name true [.mem .rsp 24, .mem .rsp 0, .mem .rsp 8, .mem .rsp 16, .reg .r12, .reg .r13, .reg .r14, .reg .r15, .reg .r8, .reg .r9, .reg .r10] []),
   (843, .name true [.reg .r12, .reg .r13, .reg .r14, .reg .r15, .reg .r8, .reg .r9, .reg .r10] []),
   (879, .name true [.mem .rsp 0, .mem .rsp 8, .mem .rsp 16, .reg .r12, .reg .r13, .reg .r14, .reg .r15, .reg .r8, .reg .r9, .reg .r10, .reg .r11] []),
   (916, .name true [.mem .rsp 24, .mem .rcx 0, .mem .rcx 8, .mem .rcx 16, .reg .r13, .reg .r14, .reg .r15, .reg .r8, .reg .r9, .reg .r10, .reg .r11] []),
   (937, .name true [.reg .r13, .reg .r14, .reg .r15, .reg .r8, .reg .r9, .reg .r10, .reg .r11] []),
   (944, .name true [.mem .rcx 0, .mem .rcx 8, .mem .rcx 16, .mem .rcx 24, .mem .rcx 32, .mem .rcx 40, .mem .rcx 48, .mem .rcx 56, .mem .rcx 64, .mem .rcx 72] [])]

def fp2mul610_c1Ms : List ℕ := [110, 220, 330, 440, 550, 660, 770, 880, 990, 1100]

def fp2mul610_c1Ws : List (ℕ × ℕ) :=
  [(0, 0), (1, 0), (2, 256), (3, 64), (4, 64), (5, 320), (6, 128), (7, 128), (8, 384), (9, 192), (10, 192), (11, 448), (12, 256), (13, 256), (14, 512), (15, 320), (16, 320), (17, 576), (18, 384), (19, 384), (20, 640), (21, 448), (22, 448), (23, 704), (24, 512), (25, 512), (26, 768), (27, 576), (28, 576), (29, 832), (30, 640)]

theorem fp2mul610_c1_check :
    check (tabsOf words610 x8) fp2mul610_c1Sig fp2mul610_c1_asm fp2mul610_c1Hints ((bd 10 (2 ^ 57) ++ bd 10 (2 ^ 57)) ++ (bd 10 (2 ^ 57) ++ bd 10 (2 ^ 57))) []
    (fp2mul1Claim fp2mul610_c1Sig 10 prime fp2mul610_c1Ms fp2mul610_c1Ws) = true := by
  decide +kernel

end Secuer.X64.P610
