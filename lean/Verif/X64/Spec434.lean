import Verif.X64.Routine
import Verif.X64.Code434

/-!
# The checks of the assembly routines for p434

Generated: where the checker names words, and the equations that combine to the claims.  The theorems say all that is used of
it.
-/

set_option maxRecDepth 100000

namespace Secuer.X64.P434

open Secuer.Word

/-- `p434x8` (P434/P434.c:34-35) -/
def x8 : List Digit :=
  [0xFFFFFFFFFFFFFFF8, 0xFFFFFFFFFFFFFFFF, 0xFFFFFFFFFFFFFFFF, 0xEE0BB3D717FFFFFF,
   0xDE32E3C18AC5751F, 0x67E2FEB40E2902B3, 0x0011A0F938BB9A23]

/-- The prime -/
def prime : ℕ := val words434.p

/-- The signature of `mp_add434_asm`: input and output words, stack bytes, where the output may lie in the inputs -/
def mp_add434Sig : Sig := ⟨[7, 7], 7, 56, [(0, 0), (1, 0)], []⟩

def mp_add434Hints : List (ℕ × Hint) :=
  []

theorem mp_add434_check :
    check (tabsOf words434 x8) mp_add434Sig mp_add434_asm mp_add434Hints (full (2 * 7)) []
    (addClaim mp_add434Sig 7) = true := by
  decide +kernel

/-- The signature of `fpadd434_asm`: input and output words, stack bytes, where the output may lie in the inputs -/
def fpadd434Sig : Sig := ⟨[7, 7], 7, 56, [(0, 0), (1, 0)], []⟩

def fpadd434Hints : List (ℕ × Hint) :=
  [(21, .name false [.reg .r8, .reg .r9, .reg .r10, .reg .r11, .reg .r12, .reg .r13, .reg .r14] []),
   (34, .name false [.reg .r8, .reg .r9, .reg .r10, .reg .r11, .reg .r12, .reg .r13, .reg .r14] [])]

theorem fpadd434_check :
    check (tabsOf words434 x8) fpadd434Sig fpadd434_asm fpadd434Hints (full (2 * 7)) []
    (fpaddClaim fpadd434Sig 7 (val words434.x2) 29 43 42) = true := by
  decide +kernel

/-- The signature of `fpsub434_asm`: input and output words, stack bytes, where the output may lie in the inputs -/
def fpsub434Sig : Sig := ⟨[7, 7], 7, 56, [(0, 0), (1, 0)], []⟩

def fpsub434Hints : List (ℕ × Hint) :=
  [(18, .name false [.reg .r8, .reg .r9, .reg .r10, .reg .r11, .reg .r12, .reg .r13, .reg .r14] [])]

theorem fpsub434_check :
    check (tabsOf words434 x8) fpsub434Sig fpsub434_asm fpsub434Hints (full (2 * 7)) []
    (fpsubClaim fpsub434Sig 7 (val words434.x2) 29 28) = true := by
  decide +kernel

/-- The signature of `mp_sub434_p2_asm`: input and output words, stack bytes, where the output may lie in the inputs -/
def mp_sub434_p2Sig : Sig := ⟨[7, 7], 7, 56, [(0, 0), (1, 0)], []⟩

def mp_sub434_p2Hints : List (ℕ × Hint) :=
  []

theorem mp_sub434_p2_check :
    check (tabsOf words434 x8) mp_sub434_p2Sig mp_sub434_p2_asm mp_sub434_p2Hints (full (2 * 7)) []
    (subkClaim mp_sub434_p2Sig 7 (val words434.x2)) = true := by
  decide +kernel

/-- The signature of `fpmul434_asm`: input and output words, stack bytes, where the output may lie in the inputs -/
def fpmul434Sig : Sig := ⟨[7, 7], 7, 56, [(0, 0), (1, 0)], []⟩

def fpmul434Hints : List (ℕ × Hint) :=
  [(23, .name true [.reg .r8, .reg .r9, .reg .r10, .reg .r11, .reg .r12, .reg .r13, .reg .r14, .reg .r15] []),
   (38, .name true [.reg .r11, .reg .r12, .reg .r13, .reg .r14, .reg .r15] []),
   (62, .name true [.reg .r9, .reg .r10, .reg .r11, .reg .r12, .reg .r13, .reg .r14, .reg .r15, .reg .r8] []),
   (77, .name true [.reg .r12, .reg .r13, .reg .r14, .reg .r15, .reg .r8] []),
   (101, .name true [.reg .r10, .reg .r11, .reg .r12, .reg .r13, .reg .r14, .reg .r15, .reg .r8, .reg .r9] []),
   (116, .name true [.reg .r13, .reg .r14, .reg .r15, .reg .r8, .reg .r9] []),
   (140, .name true [.reg .r11, .reg .r12, .reg .r13, .reg .r14, .reg .r15, .reg .r8, .reg .r9, .reg .r10] []),
   (155, .name true [.reg .r14, .reg .r15, .reg .r8, .reg .r9, .reg .r10] []),
   (179, .name true [.reg .r12, .reg .r13, .reg .r14, .reg .r15, .reg .r8, .reg .r9, .reg .r10, .reg .r11] []),
   (194, .name true [.reg .r15, .reg .r8, .reg .r9, .reg .r10, .reg .r11] []),
   (218, .name true [.reg .r13, .reg .r14, .reg .r15, .reg .r8, .reg .r9, .reg .r10, .reg .r11, .reg .r12] []),
   (233, .name true [.reg .r8, .reg .r9, .reg .r10, .reg .r11, .reg .r12] []),
   (257, .name true [.reg .r14, .reg .r15, .reg .r8, .reg .r9, .reg .r10, .reg .r11, .reg .r12, .reg .r13] []),
   (272, .name true [.reg .r9, .reg .r10, .reg .r11, .reg .r12, .reg .r13] []),
   (279, .name true [.mem .rcx 0, .mem .rcx 8, .mem .rcx 16, .mem .rcx 24, .mem .rcx 32, .mem .rcx 40, .mem .rcx 48] [])]

def fpmul434Ms : List ℕ := [36, 84, 132, 180, 228, 276, 324]

def fpmul434Ws : List (ℕ × ℕ) :=
  [(0, 0), (1, 192), (2, 64), (3, 256), (4, 128), (5, 320), (6, 192), (7, 384), (8, 256), (9, 448), (10, 320), (11, 512), (12, 384), (13, 576), (14, 448)]

theorem fpmul434_check :
    check (tabsOf words434 x8) fpmul434Sig fpmul434_asm fpmul434Hints (bd 7 (2 ^ 60) ++ bd 7 (2 ^ 60)) []
    (fpmulClaim fpmul434Sig 7 prime fpmul434Ms fpmul434Ws) = true := by
  decide +kernel

/-- The signature of `fp2sqr434_c1_asm`: input and output words, stack bytes, where the output may lie in the inputs -/
def fp2sqr434_c1Sig : Sig := ⟨[2 * 7], 7, 104, [(0, 56)], []⟩

def fp2sqr434_c1Hints : List (ℕ × Hint) :=
  [(19, .name true [.reg .r8, .reg .r9, .reg .r10, .reg .r11, .reg .r12, .reg .r13, .reg .r14] []),
   (42, .name true [.reg .r8, .reg .r9, .reg .r10, .reg .r11, .reg .r12, .reg .r13, .reg .r14, .reg .r15] []),
   (57, .name true [.reg .r11, .reg .r12, .reg .r13, .reg .r14, .reg .r15] []),
   (81, .name true [.reg .r9, .reg .r10, .reg .r11, .reg .r12, .reg .r13, .reg .r14, .reg .r15, .reg .r8] []),
   (96, .name true [.reg .r12, .reg .r13, .reg .r14, .reg .r15, .reg .r8] []),
   (120, .name true [.reg .r10, .reg .r11, .reg .r12, .reg .r13, .reg .r14, .reg .r15, .reg .r8, .reg .r9] []),
   (135, .name true [.reg .r13, .reg .r14, .reg .r15, .reg .r8, .reg .r9] []),
   (159, .name true [.reg .r11, .reg .r12, .reg .r13, .reg .r14, .reg .r15, .reg .r8, .reg .r9, .reg .r10] []),
   (174, .name true [.reg .r14, .reg .r15, .reg .r8, .reg .r9, .reg .r10] []),
   (198, .name true [.reg .r12, .reg .r13, .reg .r14, .reg .r15, .reg .r8, .reg .r9, .reg .r10, .reg .r11] []),
   (213, .name true [.reg .r15, .reg .r8, .reg .r9, .reg .r10, .reg .r11] []),
   (237, .name true [.reg .r13, .reg .r14, .reg .r15, .reg .r8, .reg .r9, .reg .r10, .reg .r11, .reg .r12] []),
   (252, .name true [.reg .r8, .reg .r9, .reg .r10, .reg .r11, .reg .r12] []),
   (276, .name true [.reg .r14, .reg .r15, .reg .r8, .reg .r9, .reg .r10, .reg .r11, .reg .r12, .reg .r13] []),
   (291, .name true [.reg .r9, .reg .r10, .reg .r11, .reg .r12, .reg .r13] []),
   (299, .name true [.mem .rsi 0, .mem .rsi 8, .mem .rsi 16, .mem .rsi 24, .mem .rsi 32, .mem .rsi 40, .mem .rsi 48] [])]

def fp2sqr434_c1Ms : List ℕ := [50, 98, 146, 194, 242, 290, 338]

def fp2sqr434_c1Ws : List (ℕ × ℕ) :=
  [(1, 0), (2, 192), (3, 64), (4, 256), (5, 128), (6, 320), (7, 192), (8, 384), (9, 256), (10, 448), (11, 320), (12, 512), (13, 384), (14, 576), (15, 448)]

theorem fp2sqr434_c1_check :
    check (tabsOf words434 x8) fp2sqr434_c1Sig fp2sqr434_c1_asm fp2sqr434_c1Hints (bd 7 (2 ^ 55) ++ bd 7 (2 ^ 55)) []
    (fp2sqr1Claim fp2sqr434_c1Sig 7 prime 29 [(0, 0)] fp2sqr434_c1Ms fp2sqr434_c1Ws) = true := by
  decide +kernel

/-- The signature of `fp2sqr434_c0_asm`: input and output words, stack bytes, where the output may lie in the inputs -/
def fp2sqr434_c0Sig : Sig := ⟨[2 * 7], 14, 48, [], []⟩

def fp2sqr434_c0Hints : List (ℕ × Hint) :=
  [(17, .name true [.reg .r8, .reg .r9, .reg .r10, .reg .r11, .reg .r12, .reg .r13, .reg .r14] []),
   (47, .name true [.reg .rax, .reg .r10, .reg .r12, .reg .r13, .reg .r14, .reg .r15, .reg .rcx] [(0, 0)]),
   (71, .name true [.reg .r8, .reg .r9, .reg .r10, .reg .r11, .reg .r12, .reg .r13, .reg .r14, .reg .r15] []),
   (86, .name true [.reg .r11, .reg .r12, .reg .r13, .reg .r14, .reg .r15] []),
   (110, .name true [.reg .r9, .reg .r10, .reg .r11, .reg .r12, .reg .r13, .reg .r14, .reg .r15, .reg .r8] []),
   (125, .name true [.reg .r12, .reg .r13, .reg .r14, .reg .r15, .reg .r8] []),
   (149, .name true [.reg .r10, .reg .r11, .reg .r12, .reg .r13, .reg .r14, .reg .r15, .reg .r8, .reg .r9] []),
   (164, .name true [.reg .r13, .reg .r14, .reg .r15, .reg .r8, .reg .r9] []),
   (188, .name true [.reg .r11, .reg .r12, .reg .r13, .reg .r14, .reg .r15, .reg .r8, .reg .r9, .reg .r10] []),
   (203, .name true [.reg .r14, .reg .r15, .reg .r8, .reg .r9, .reg .r10] []),
   (227, .name true [.reg .r12, .reg .r13, .reg .r14, .reg .r15, .reg .r8, .reg .r9, .reg .r10, .reg .r11] []),
   (242, .name true [.reg .r15, .reg .r8, .reg .r9, .reg .r10, .reg .r11] []),
   (266, .name true [.reg .r13, .reg .r14, .reg .r15, .reg .r8, .reg .r9, .reg .r10, .reg .r11, .reg .r12] []),
   (281, .name true [.reg .r8, .reg .r9, .reg .r10, .reg .r11, .reg .r12] []),
   (305, .name true [.reg .r14, .reg .r15, .reg .r8, .reg .r9, .reg .r10, .reg .r11, .reg .r12, .reg .r13] []),
   (320, .name true [.reg .r9, .reg .r10, .reg .r11, .reg .r12, .reg .r13] []),
   (327, .name true [.mem .rsi 0, .mem .rsi 8, .mem .rsi 16, .mem .rsi 24, .mem .rsi 32, .mem .rsi 40, .mem .rsi 48] [])]

def fp2sqr434_c0Ms : List ℕ := [72, 120, 168, 216, 264, 312, 360]

def fp2sqr434_c0Ws : List (ℕ × ℕ) :=
  [(3, 0), (4, 192), (5, 64), (6, 256), (7, 128), (8, 320), (9, 192), (10, 384), (11, 256), (12, 448), (13, 320), (14, 512), (15, 384), (16, 576), (17, 448)]

theorem fp2sqr434_c0_check :
    check (tabsOf words434 x8) fp2sqr434_c0Sig fp2sqr434_c0_asm fp2sqr434_c0Hints (bd 7 (2 ^ 55) ++ bd 7 (2 ^ 55)) [(8 + 7, 7, val words434.x4)]
    (fp2sqr0Claim ⟨[2 * 7], 7, 48, [], []⟩ 7 prime (val words434.x4) 30 51 [(1, 0)] [(2, 0), (0, 0)] fp2sqr434_c0Ms fp2sqr434_c0Ws) = true := by
  decide +kernel

/-- The signature of `fp2mul434_c0_asm`: input and output words, stack bytes, where the output may lie in the inputs -/
def fp2mul434_c0Sig : Sig := ⟨[2 * 7, 2 * 7], 7, 56, [], []⟩

def fp2mul434_c0Hints : List (ℕ × Hint) :=
  [(28, .name true [.mem .rcx 0, .mem .rcx 8, .reg .r10, .reg .r11, .reg .r12, .reg .r13, .reg .r14] [(0, 0)]),
   (51, .name true [.reg .r8, .reg .r9, .reg .r10, .reg .r11, .reg .r12, .reg .r13, .reg .r14, .reg .r15] []),
   (75, .name true [.reg .r8, .reg .r9, .reg .r10, .reg .r11, .reg .r12, .reg .r13, .reg .r14, .reg .r15] []),
   (90, .name true [.reg .r11, .reg .r12, .reg .r13, .reg .r14, .reg .r15] []),
   (114, .name true [.reg .r9, .reg .r10, .reg .r11, .reg .r12, .reg .r13, .reg .r14, .reg .r15, .reg .r8] []),
   (138, .name true [.reg .r9, .reg .r10, .reg .r11, .reg .r12, .reg .r13, .reg .r14, .reg .r15, .reg .r8] []),
   (153, .name true [.reg .r12, .reg .r13, .reg .r14, .reg .r15, .reg .r8] []),
   (177, .name true [.reg .r10, .reg .r11, .reg .r12, .reg .r13, .reg .r14, .reg .r15, .reg .r8, .reg .r9] []),
   (201, .name true [.reg .r10, .reg .r11, .reg .r12, .reg .r13, .reg .r14, .reg .r15, .reg .r8, .reg .r9] []),
   (216, .name true [.reg .r13, .reg .r14, .reg .r15, .reg .r8, .reg .r9] []),
   (240, .name true [.reg .r11, .reg .r12, .reg .r13, .reg .r14, .reg .r15, .reg .r8, .reg .r9, .reg .r10] []),
   (264, .name true [.reg .r11, .reg .r12, .reg .r13, .reg .r14, .reg .r15, .reg .r8, .reg .r9, .reg .r10] []),
   (279, .name true [.reg .r14, .reg .r15, .reg .r8, .reg .r9, .reg .r10] []),
   (303, .name true [.reg .r12, .reg .r13, .reg .r14, .reg .r15, .reg .r8, .reg .r9, .reg .r10, .reg .r11] []),
   (327, .name true [.reg .r12, .reg .r13, .reg .r14, .reg .r15, .reg .r8, .reg .r9, .reg .r10, .reg .r11] []),
   (342, .name true [.reg .r15, .reg .r8, .reg .r9, .reg .r10, .reg .r11] []),
   (366, .name true [.reg .r13, .reg .r14, .reg .r15, .reg .r8, .reg .r9, .reg .r10, .reg .r11, .reg .r12] []),
   (390, .name true [.reg .r13, .reg .r14, .reg .r15, .reg .r8, .reg .r9, .reg .r10, .reg .r11, .reg .r12] []),
   (405, .name true [.reg .r8, .reg .r9, .reg .r10, .reg .r11, .reg .r12] []),
   (429, .name true [.reg .r14, .reg .r15, .reg .r8, .reg .r9, .reg .r10, .reg .r11, .reg .r12, .reg .r13] []),
   (452, .top [.reg .r14, .reg .r15, .reg .r8, .reg .r9, .reg .r10, .reg .r11, .reg .r12]),
   (453, .name true [.reg .r14, .reg .r15, .reg .r8, .reg .r9, .reg .r10, .reg .r11, .reg .r12, .reg .r13] []),
   (478, .name true [.mem .rcx 0, .mem .rcx 8, .mem .rcx 16, .mem .rcx 24, .mem .rcx 32, .mem .rcx 40, .mem .rcx 48] [])]

def fp2mul434_c0Ms : List ℕ := [95, 173, 251, 329, 407, 485, 562]

def fp2mul434_c0Ws : List (ℕ × ℕ) :=
  [(2, 0), (3, 0), (4, 192), (5, 64), (6, 64), (7, 256), (8, 128), (9, 128), (10, 320), (11, 192), (12, 192), (13, 384), (14, 256), (15, 256), (16, 448), (17, 320), (18, 320), (19, 512), (20, 384), (21, 384), (22, 448)]

theorem fp2mul434_c0_check :
    check (tabsOf words434 x8) fp2mul434_c0Sig fp2mul434_c0_asm fp2mul434_c0Hints ((bd 7 (2 ^ 57) ++ bd 7 (2 ^ 57)) ++ (bd 7 (2 ^ 57) ++ bd 7 (2 ^ 57))) [(8 + 3 * 7, 7, val x8)]
    (fp2mul0Claim fp2mul434_c0Sig 7 prime (val x8) 44 [(1, 0), (0, 0)] fp2mul434_c0Ms fp2mul434_c0Ws) = true := by
  decide +kernel

/-- The signature of `fp2mul434_c1_asm`: input and output words, stack bytes, where the output may lie in the inputs -/
def fp2mul434_c1Sig : Sig := ⟨[2 * 7, 2 * 7], 7, 56, [(0, 56), (1, 56)], []⟩

def fp2mul434_c1Hints : List (ℕ × Hint) :=
  [(23, .name true [.reg .r8, .reg .r9, .reg .r10, .reg .r11, .reg .r12, .reg .r13, .reg .r14, .reg .r15] []),
   (47, .name true [.reg .r8, .reg .r9, .reg .r10, .reg .r11, .reg .r12, .reg .r13, .reg .r14, .reg .r15] []),
   (62, .name true [.reg .r11, .reg .r12, .reg .r13, .reg .r14, .reg .r15] []),
   (86, .name true [.reg .r9, .reg .r10, .reg .r11, .reg .r12, .reg .r13, .reg .r14, .reg .r15, .reg .r8] []),
   (110, .name true [.reg .r9, .reg .r10, .reg .r11, .reg .r12, .reg .r13, .reg .r14, .reg .r15, .reg .r8] []),
   (125, .name true [.reg .r12, .reg .r13, .reg .r14, .reg .r15, .reg .r8] []),
   (149, .name true [.reg .r10, .reg .r11, .reg .r12, .reg .r13, .reg .r14, .reg .r15, .reg .r8, .reg .r9] []),
   (173, .name true [.reg .r10, .reg .r11, .reg .r12, .reg .r13, .reg .r14, .reg .r15, .reg .r8, .reg .r9] []),
   (188, .name true [.reg .r13, .reg .r14, .reg .r15, .reg .r8, .reg .r9] []),
   (212, .name true [.reg .r11, .reg .r12, .reg .r13, .reg .r14, .reg .r15, .reg .r8, .reg .r9, .reg .r10] []),
   (236, .name true [.reg .r11, .reg .r12, .reg .r13, .reg .r14, .reg .r15, .reg .r8, .reg .r9, .reg .r10] []),
   (251, .name true [.reg .r14, .reg .r15, .reg .r8, .reg .r9, .reg .r10] []),
   (275, .name true [.reg .r12, .reg .r13, .reg .r14, .reg .r15, .reg .r8, .reg .r9, .reg .r10, .reg .r11] []),
   (299, .name true [.reg .r12, .reg .r13, .reg .r14, .reg .r15, .reg .r8, .reg .r9, .reg .r10, .reg .r11] []),
   (314, .name true [.reg .r15, .reg .r8, .reg .r9, .reg .r10, .reg .r11] []),
   (338, .name true [.reg .r13, .reg .r14, .reg .r15, .reg .r8, .reg .r9, .reg .r10, .reg .r11, .reg .r12] []),
   (362, .name true [.reg .r13, .reg .r14, .reg .r15, .reg .r8, .reg .r9, .reg .r10, .reg .r11, .reg .r12] []),
   (377, .name true [.reg .r8, .reg .r9, .reg .r10, .reg .r11, .reg .r12] []),
   (401, .name true [.reg .r14, .reg .r15, .reg .r8, .reg .r9, .reg .r10, .reg .r11, .reg .r12, .reg .r13] []),
   (424, .top [.reg .r14, .reg .r15, .reg .r8, .reg .r9, .reg .r10, .reg .r11, .reg .r12]),
   (425, .name true [.reg .r14, .reg .r15, .reg .r8, .reg .r9, .reg .r10, .reg .r11, .reg .r12, .reg .r13] []),
   (450, .name true [.mem .rcx 0, .mem .rcx 8, .mem .rcx 16, .mem .rcx 24, .mem .rcx 32, .mem .rcx 40, .mem .rcx 48] [])]

def fp2mul434_c1Ms : List ℕ := [80, 158, 236, 314, 392, 470, 547]

def fp2mul434_c1Ws : List (ℕ × ℕ) :=
  [(0, 0), (1, 0), (2, 192), (3, 64), (4, 64), (5, 256), (6, 128), (7, 128), (8, 320), (9, 192), (10, 192), (11, 384), (12, 256), (13, 256), (14, 448), (15, 320), (16, 320), (17, 512), (18, 384), (19, 384), (20, 448)]

theorem fp2mul434_c1_check :
    check (tabsOf words434 x8) fp2mul434_c1Sig fp2mul434_c1_asm fp2mul434_c1Hints ((bd 7 (2 ^ 57) ++ bd 7 (2 ^ 57)) ++ (bd 7 (2 ^ 57) ++ bd 7 (2 ^ 57))) []
    (fp2mul1Claim fp2mul434_c1Sig 7 prime fp2mul434_c1Ms fp2mul434_c1Ws) = true := by
  decide +kernel

end Secuer.X64.P434
