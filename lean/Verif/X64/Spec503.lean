import Verif.X64.Routine
import Verif.X64.Code503

/-!
# The checks of the assembly routines for p503

Generated: where the checker names words, and the equations that combine to the claims.  The theorems say all that is used of
it.
-/

set_option maxRecDepth 100000

namespace Secuer.X64.P503

open Secuer.Word

/-- `p503x8` (P503/P503.c:34-35) -/
def x8 : List Digit :=
  [0xFFFFFFFFFFFFFFF8, 0xFFFFFFFFFFFFFFFF, 0xFFFFFFFFFFFFFFFF, 0x5FFFFFFFFFFFFFFF,
   0x9842DED1108F3D05, 0xDCDFB643DBF3ED78, 0x022E35EED3BD2680, 0x020337AA0C08F0F3]

/-- The prime -/
def prime : ℕ := val words503.p

/-- The signature of `mp_add503_asm`: input and output words, stack bytes, where the output may lie in the inputs -/
def mp_add503Sig : Sig := ⟨[8, 8], 8, 48, [(0, 0), (1, 0)], []⟩

def mp_add503Hints : List (ℕ × Hint) :=
  []

theorem mp_add503_check :
    check (tabsOf words503 x8) mp_add503Sig mp_add503_asm mp_add503Hints (full (2 * 8)) []
    (addClaim mp_add503Sig 8) = true := by
  decide +kernel

/-- The signature of `fpadd503_asm`: input and output words, stack bytes, where the output may lie in the inputs -/
def fpadd503Sig : Sig := ⟨[8, 8], 8, 48, [(0, 0), (1, 0)], []⟩

def fpadd503Hints : List (ℕ × Hint) :=
  [(21, .name false [.reg .r8, .reg .r9, .reg .r10, .reg .r11, .reg .r12, .reg .r13, .reg .r14, .reg .r15] []),
   (36, .name false [.reg .r8, .reg .r9, .reg .r10, .reg .r11, .reg .r12, .reg .r13, .reg .r14, .reg .r15] [])]

theorem fpadd503_check :
    check (tabsOf words503 x8) fpadd503Sig fpadd503_asm fpadd503Hints (full (2 * 8)) []
    (fpaddClaim fpadd503Sig 8 (val words503.x2) 32 48 47) = true := by
  decide +kernel

/-- The signature of `fpsub503_asm`: input and output words, stack bytes, where the output may lie in the inputs -/
def fpsub503Sig : Sig := ⟨[8, 8], 8, 48, [(0, 0), (1, 0)], []⟩

def fpsub503Hints : List (ℕ × Hint) :=
  [(21, .name false [.reg .r8, .reg .r9, .reg .r10, .reg .r11, .reg .r12, .reg .r13, .reg .r14, .reg .r15] [])]

theorem fpsub503_check :
    check (tabsOf words503 x8) fpsub503Sig fpsub503_asm fpsub503Hints (full (2 * 8)) []
    (fpsubClaim fpsub503Sig 8 (val words503.x2) 32 31) = true := by
  decide +kernel

/-- The signature of `mp_sub503_p2_asm`: input and output words, stack bytes, where the output may lie in the inputs -/
def mp_sub503_p2Sig : Sig := ⟨[8, 8], 8, 48, [(0, 0), (1, 0)], []⟩

def mp_sub503_p2Hints : List (ℕ × Hint) :=
  []

theorem mp_sub503_p2_check :
    check (tabsOf words503 x8) mp_sub503_p2Sig mp_sub503_p2_asm mp_sub503_p2Hints (full (2 * 8)) []
    (subkClaim mp_sub503_p2Sig 8 (val words503.x2)) = true := by
  decide +kernel

/-- The signature of `fpmul503_asm`: input and output words, stack bytes, where the output may lie in the inputs -/
def fpmul503Sig : Sig := ⟨[8, 8], 8, 48, [(0, 0), (1, 0)], []⟩

def fpmul503Hints : List (ℕ × Hint) :=
  [(25, .name true [.reg .r8, .reg .r9, .reg .r10, .reg .r11, .reg .r12, .reg .r13, .reg .r14, .reg .r15, .reg .rax] []),
   (43, .name true [.reg .r11, .reg .r12, .reg .r13, .reg .r14, .reg .r15, .reg .rax] []),
   (70, .name true [.reg .r9, .reg .r10, .reg .r11, .reg .r12, .reg .r13, .reg .r14, .reg .r15, .reg .rax, .reg .r8] []),
   (88, .name true [.reg .r12, .reg .r13, .reg .r14, .reg .r15, .reg .rax, .reg .r8] []),
   (115, .name true [.reg .r10, .reg .r11, .reg .r12, .reg .r13, .reg .r14, .reg .r15, .reg .rax, .reg .r8, .reg .r9] []),
   (133, .name true [.reg .r13, .reg .r14, .reg .r15, .reg .rax, .reg .r8, .reg .r9] []),
   (160, .name true [.reg .r11, .reg .r12, .reg .r13, .reg .r14, .reg .r15, .reg .rax, .reg .r8, .reg .r9, .reg .r10] []),
   (178, .name true [.reg .r14, .reg .r15, .reg .rax, .reg .r8, .reg .r9, .reg .r10] []),
   (205, .name true [.reg .r12, .reg .r13, .reg .r14, .reg .r15, .reg .rax, .reg .r8, .reg .r9, .reg .r10, .reg .r11] []),
   (223, .name true [.reg .r15, .reg .rax, .reg .r8, .reg .r9, .reg .r10, .reg .r11] []),
   (250, .name true [.reg .r13, .reg .r14, .reg .r15, .reg .rax, .reg .r8, .reg .r9, .reg .r10, .reg .r11, .reg .r12] []),
   (268, .name true [.reg .rax, .reg .r8, .reg .r9, .reg .r10, .reg .r11, .reg .r12] []),
   (295, .name true [.reg .r14, .reg .r15, .reg .rax, .reg .r8, .reg .r9, .reg .r10, .reg .r11, .reg .r12, .reg .r13] []),
   (313, .name true [.reg .r8, .reg .r9, .reg .r10, .reg .r11, .reg .r12, .reg .r13] []),
   (340, .name true [.reg .r15, .reg .rax, .reg .r8, .reg .r9, .reg .r10, .reg .r11, .reg .r12, .reg .r13, .reg .r14] []),
   (358, .name true [.reg .r9, .reg .r10, .reg .r11, .reg .r12, .reg .r13, .reg .r14] []),
   (366, .name true [.mem .rcx 0, .mem .rcx 8, .mem .rcx 16, .mem .rcx 24, .mem .rcx 32, .mem .rcx 40, .mem .rcx 48, .mem .rcx 56] [])]

def fpmul503Ms : List ℕ := [40, 96, 152, 208, 264, 320, 376, 432]

def fpmul503Ws : List (ℕ × ℕ) :=
  [(0, 0), (1, 192), (2, 64), (3, 256), (4, 128), (5, 320), (6, 192), (7, 384), (8, 256), (9, 448), (10, 320), (11, 512), (12, 384), (13, 576), (14, 448), (15, 640), (16, 512)]

theorem fpmul503_check :
    check (tabsOf words503 x8) fpmul503Sig fpmul503_asm fpmul503Hints (bd 8 (2 ^ 61) ++ bd 8 (2 ^ 61)) []
    (fpmulClaim fpmul503Sig 8 prime fpmul503Ms fpmul503Ws) = true := by
  decide +kernel

/-- The signature of `fp2sqr503_c1_asm`: input and output words, stack bytes, where the output may lie in the inputs -/
def fp2sqr503_c1Sig : Sig := ⟨[2 * 8], 8, 112, [(0, 64)], []⟩

def fp2sqr503_c1Hints : List (ℕ × Hint) :=
  [(22, .name true [.reg .r8, .reg .r9, .reg .r10, .reg .r11, .reg .r12, .reg .r13, .reg .r14, .reg .r15] []),
   (48, .name true [.reg .r8, .reg .r9, .reg .r10, .reg .r11, .reg .r12, .reg .r13, .reg .r14, .reg .r15, .reg .rbp] []),
   (66, .name true [.reg .r11, .reg .r12, .reg .r13, .reg .r14, .reg .r15, .reg .rbp] []),
   (93, .name true [.reg .r9, .reg .r10, .reg .r11, .reg .r12, .reg .r13, .reg .r14, .reg .r15, .reg .rbp, .reg .r8] []),
   (111, .name true [.reg .r12, .reg .r13, .reg .r14, .reg .r15, .reg .rbp, .reg .r8] []),
   (138, .name true [.reg .r10, .reg .r11, .reg .r12, .reg .r13, .reg .r14, .reg .r15, .reg .rbp, .reg .r8, .reg .r9] []),
   (156, .name true [.reg .r13, .reg .r14, .reg .r15, .reg .rbp, .reg .r8, .reg .r9] []),
   (183, .name true [.reg .r11, .reg .r12, .reg .r13, .reg .r14, .reg .r15, .reg .rbp, .reg .r8, .reg .r9, .reg .r10] []),
   (201, .name true [.reg .r14, .reg .r15, .reg .rbp, .reg .r8, .reg .r9, .reg .r10] []),
   (228, .name true [.reg .r12, .reg .r13, .reg .r14, .reg .r15, .reg .rbp, .reg .r8, .reg .r9, .reg .r10, .reg .r11] []),
   (246, .name true [.reg .r15, .reg .rbp, .reg .r8, .reg .r9, .reg .r10, .reg .r11] []),
   (273, .name true [.reg .r13, .reg .r14, .reg .r15, .reg .rbp, .reg .r8, .reg .r9, .reg .r10, .reg .r11, .reg .r12] []),
   (291, .name true [.reg .rbp, .reg .r8, .reg .r9, .reg .r10, .reg .r11, .reg .r12] []),
   (318, .name true [.reg .r14, .reg .r15, .reg .rbp, .reg .r8, .reg .r9, .reg .r10, .reg .r11, .reg .r12, .reg .r13] []),
   (336, .name true [.reg .r8, .reg .r9, .reg .r10, .reg .r11, .reg .r12, .reg .r13] []),
   (363, .name true [.reg .r15, .reg .rbp, .reg .r8, .reg .r9, .reg .r10, .reg .r11, .reg .r12, .reg .r13, .reg .r14] []),
   (381, .name true [.reg .r9, .reg .r10, .reg .r11, .reg .r12, .reg .r13, .reg .r14] []),
   (389, .name true [.mem .rsi 0, .mem .rsi 8, .mem .rsi 16, .mem .rsi 24, .mem .rsi 32, .mem .rsi 40, .mem .rsi 48, .mem .rsi 56] [])]

def fp2sqr503_c1Ms : List ℕ := [56, 112, 168, 224, 280, 336, 392, 448]

def fp2sqr503_c1Ws : List (ℕ × ℕ) :=
  [(1, 0), (2, 192), (3, 64), (4, 256), (5, 128), (6, 320), (7, 192), (8, 384), (9, 256), (10, 448), (11, 320), (12, 512), (13, 384), (14, 576), (15, 448), (16, 640), (17, 512)]

theorem fp2sqr503_c1_check :
    check (tabsOf words503 x8) fp2sqr503_c1Sig fp2sqr503_c1_asm fp2sqr503_c1Hints (bd 8 (2 ^ 58) ++ bd 8 (2 ^ 58)) []
    (fp2sqr1Claim fp2sqr503_c1Sig 8 prime 32 [(0, 0)] fp2sqr503_c1Ms fp2sqr503_c1Ws) = true := by
  decide +kernel

/-- The signature of `fp2sqr503_c0_asm`: input and output words, stack bytes, where the output may lie in the inputs -/
def fp2sqr503_c0Sig : Sig := ⟨[2 * 8], 16, 48, [], []⟩

def fp2sqr503_c0Hints : List (ℕ × Hint) :=
  [(20, .name true [.reg .r8, .reg .r9, .reg .r10, .reg .r11, .reg .r12, .reg .r13, .reg .r14, .reg .r15] []),
   (54, .name true [.reg .rcx, .reg .r10, .reg .r12, .reg .r13, .reg .r14, .reg .r15, .reg .rbx, .reg .rbp] [(0, 0)]),
   (80, .name true [.reg .r8, .reg .r9, .reg .r10, .reg .r11, .reg .r12, .reg .r13, .reg .r14, .reg .r15, .reg .rbp] []),
   (98, .name true [.reg .r11, .reg .r12, .reg .r13, .reg .r14, .reg .r15, .reg .rbp] []),
   (125, .name true [.reg .r9, .reg .r10, .reg .r11, .reg .r12, .reg .r13, .reg .r14, .reg .r15, .reg .rbp, .reg .r8] []),
   (143, .name true [.reg .r12, .reg .r13, .reg .r14, .reg .r15, .reg .rbp, .reg .r8] []),
   (170, .name true [.reg .r10, .reg .r11, .reg .r12, .reg .r13, .reg .r14, .reg .r15, .reg .rbp, .reg .r8, .reg .r9] []),
   (188, .name true [.reg .r13, .reg .r14, .reg .r15, .reg .rbp, .reg .r8, .reg .r9] []),
   (215, .name true [.reg .r11, .reg .r12, .reg .r13, .reg .r14, .reg .r15, .reg .rbp, .reg .r8, .reg .r9, .reg .r10] []),
   (233, .name true [.reg .r14, .reg .r15, .reg .rbp, .reg .r8, .reg .r9, .reg .r10] []),
   (260, .name true [.reg .r12, .reg .r13, .reg .r14, .reg .r15, .reg .rbp, .reg .r8, .reg .r9, .reg .r10, .reg .r11] []),
   (278, .name true [.reg .r15, .reg .rbp, .reg .r8, .reg .r9, .reg .r10, .reg .r11] []),
   (305, .name true [.reg .r13, .reg .r14, .reg .r15, .reg .rbp, .reg .r8, .reg .r9, .reg .r10, .reg .r11, .reg .r12] []),
   (323, .name true [.reg .rbp, .reg .r8, .reg .r9, .reg .r10, .reg .r11, .reg .r12] []),
   (350, .name true [.reg .r14, .reg .r15, .reg .rbp, .reg .r8, .reg .r9, .reg .r10, .reg .r11, .reg .r12, .reg .r13] []),
   (368, .name true [.reg .r8, .reg .r9, .reg .r10, .reg .r11, .reg .r12, .reg .r13] []),
   (395, .name true [.reg .r15, .reg .rbp, .reg .r8, .reg .r9, .reg .r10, .reg .r11, .reg .r12, .reg .r13, .reg .r14] []),
   (413, .name true [.reg .r9, .reg .r10, .reg .r11, .reg .r12, .reg .r13, .reg .r14] []),
   (421, .name true [.mem .rsi 0, .mem .rsi 8, .mem .rsi 16, .mem .rsi 24, .mem .rsi 32, .mem .rsi 40, .mem .rsi 48, .mem .rsi 56] [])]

def fp2sqr503_c0Ms : List ℕ := [81, 137, 193, 249, 305, 361, 417, 473]

def fp2sqr503_c0Ws : List (ℕ × ℕ) :=
  [(3, 0), (4, 192), (5, 64), (6, 256), (7, 128), (8, 320), (9, 192), (10, 384), (11, 256), (12, 448), (13, 320), (14, 512), (15, 384), (16, 576), (17, 448), (18, 640), (19, 512)]

theorem fp2sqr503_c0_check :
    check (tabsOf words503 x8) fp2sqr503_c0Sig fp2sqr503_c0_asm fp2sqr503_c0Hints (bd 8 (2 ^ 58) ++ bd 8 (2 ^ 58)) [(8 + 8, 8, val words503.x4)]
    (fp2sqr0Claim ⟨[2 * 8], 8, 48, [], []⟩ 8 prime (val words503.x4) 33 57 [(1, 0)] [(2, 0), (0, 0)] fp2sqr503_c0Ms fp2sqr503_c0Ws) = true := by
  decide +kernel

/-- The signature of `fp2mul503_c0_asm`: input and output words, stack bytes, where the output may lie in the inputs -/
def fp2mul503_c0Sig : Sig := ⟨[2 * 8, 2 * 8], 8, 48, [], []⟩

def fp2mul503_c0Hints : List (ℕ × Hint) :=
  [(31, .name true [.mem .rcx 0, .mem .rcx 8, .reg .r10, .reg .r11, .reg .r12, .reg .r13, .reg .r14, .reg .r15] [(0, 0)]),
   (58, .name true [.reg .r8, .reg .r9, .reg .r10, .reg .r11, .reg .r12, .reg .r13, .reg .r14, .reg .r15, .reg .rax] []),
   (85, .name true [.reg .r8, .reg .r9, .reg .r10, .reg .r11, .reg .r12, .reg .r13, .reg .r14, .reg .r15, .reg .rax] []),
   (103, .name true [.reg .r11, .reg .r12, .reg .r13, .reg .r14, .reg .r15, .reg .rax] []),
   (130, .name true [.reg .r9, .reg .r10, .reg .r11, .reg .r12, .reg .r13, .reg .r14, .reg .r15, .reg .rax, .reg .r8] []),
   (157, .name true [.reg .r9, .reg .r10, .reg .r11, .reg .r12, .reg .r13, .reg .r14, .reg .r15, .reg .rax, .reg .r8] []),
   (175, .name true [.reg .r12, .reg .r13, .reg .r14, .reg .r15, .reg .rax, .reg .r8] []),
   (202, .name true [.reg .r10, .reg .r11, .reg .r12, .reg .r13, .reg .r14, .reg .r15, .reg .rax, .reg .r8, .reg .r9] []),
   (229, .name true [.reg .r10, .reg .r11, .reg .r12, .reg .r13, .reg .r14, .reg .r15, .reg .rax, .reg .r8, .reg .r9] []),
   (247, .name true [.reg .r13, .reg .r14, .reg .r15, .reg .rax, .reg .r8, .reg .r9] []),
   (274, .name true [.reg .r11, .reg .r12, .reg .r13, .reg .r14, .reg .r15, .reg .rax, .reg .r8, .reg .r9, .reg .r10] []),
   (301, .name true [.reg .r11, .reg .r12, .reg .r13, .reg .r14, .reg .r15, .reg .rax, .reg .r8, .reg .r9, .reg .r10] []),
   (319, .name true [.reg .r14, .reg .r15, .reg .rax, .reg .r8, .reg .r9, .reg .r10] []),
   (346, .name true [.reg .r12, .reg .r13, .reg .r14, .reg .r15, .reg .rax, .reg .r8, .reg .r9, .reg .r10, .reg .r11] []),
   (373, .name true [.reg .r12, .reg .r13, .reg .r14, .reg .r15, .reg .rax, .reg .r8, .reg .r9, .reg .r10, .reg .r11] []),
   (391, .name true [.reg .r15, .reg .rax, .reg .r8, .reg .r9, .reg .r10, .reg .r11] []),
   (418, .name true [.reg .r13, .reg .r14, .reg .r15, .reg .rax, .reg .r8, .reg .r9, .reg .r10, .reg .r11, .reg .r12] []),
   (445, .name true [.reg .r13, .reg .r14, .reg .r15, .reg .rax, .reg .r8, .reg .r9, .reg .r10, .reg .r11, .reg .r12] []),
   (463, .name true [.reg .rax, .reg .r8, .reg .r9, .reg .r10, .reg .r11, .reg .r12] []),
   (490, .name true [.reg .r14, .reg .r15, .reg .rax, .reg .r8, .reg .r9, .reg .r10, .reg .r11, .reg .r12, .reg .r13] []),
   (517, .name true [.reg .r14, .reg .r15, .reg .rax, .reg .r8, .reg .r9, .reg .r10, .reg .r11, .reg .r12, .reg .r13] []),
   (535, .name true [.reg .r8, .reg .r9, .reg .r10, .reg .r11, .reg .r12, .reg .r13] []),
   (562, .name true [.reg .r15, .reg .rax, .reg .r8, .reg .r9, .reg .r10, .reg .r11, .reg .r12, .reg .r13, .reg .r14] []),
   (589, .name true [.reg .r15, .reg .rax, .reg .r8, .reg .r9, .reg .r10, .reg .r11, .reg .r12, .reg .r13, .reg .r14] []),
   (609, .name true [.reg .r9, .reg .r10, .reg .r11, .reg .r12, .reg .r13, .reg .r14] []),
   (615, .name true [.mem .rcx 0, .mem .rcx 8, .mem .rcx 16, .mem .rcx 24, .mem .rcx 32, .mem .rcx 40, .mem .rcx 48, .mem .rcx 56] [])]

def fp2mul503_c0Ms : List ℕ := [107, 197, 287, 377, 467, 557, 647, 737]

def fp2mul503_c0Ws : List (ℕ × ℕ) :=
  [(2, 0), (3, 0), (4, 192), (5, 64), (6, 64), (7, 256), (8, 128), (9, 128), (10, 320), (11, 192), (12, 192), (13, 384), (14, 256), (15, 256), (16, 448), (17, 320), (18, 320), (19, 512), (20, 384), (21, 384), (22, 576), (23, 448), (24, 448), (25, 640), (26, 512)]

theorem fp2mul503_c0_check :
    check (tabsOf words503 x8) fp2mul503_c0Sig fp2mul503_c0_asm fp2mul503_c0Hints ((bd 8 (2 ^ 59) ++ bd 8 (2 ^ 59)) ++ (bd 8 (2 ^ 59) ++ bd 8 (2 ^ 59))) [(8 + 3 * 8, 8, val x8)]
    (fp2mul0Claim fp2mul503_c0Sig 8 prime (val x8) 49 [(1, 0), (0, 0)] fp2mul503_c0Ms fp2mul503_c0Ws) = true := by
  decide +kernel

/-- The signature of `fp2mul503_c1_asm`: input and output words, stack bytes, where the output may lie in the inputs -/
def fp2mul503_c1Sig : Sig := ⟨[2 * 8, 2 * 8], 8, 48, [(0, 64), (1, 64)], []⟩

def fp2mul503_c1Hints : List (ℕ × Hint) :=
  [(25, .name true [.reg .r8, .reg .r9, .reg .r10, .reg .r11, .reg .r12, .reg .r13, .reg .r14, .reg .r15, .reg .rax] []),
   (52, .name true [.reg .r8, .reg .r9, .reg .r10, .reg .r11, .reg .r12, .reg .r13, .reg .r14, .reg .r15, .reg .rax] []),
   (70, .name true [.reg .r11, .reg .r12, .reg .r13, .reg .r14, .reg .r15, .reg .rax] []),
   (97, .name true [.reg .r9, .reg .r10, .reg .r11, .reg .r12, .reg .r13, .reg .r14, .reg .r15, .reg .rax, .reg .r8] []),
   (124, .name true [.reg .r9, .reg .r10, .reg .r11, .reg .r12, .reg .r13, .reg .r14, .reg .r15, .reg .rax, .reg .r8] []),
   (142, .name true [.reg .r12, .reg .r13, .reg .r14, .reg .r15, .reg .rax, .reg .r8] []),
   (169, .name true [.reg .r10, .reg .r11, .reg .r12, .reg .r13, .reg .r14, .reg .r15, .reg .rax, .reg .r8, .reg .r9] []),
   (196, .name true [.reg .r10, .reg .r11, .reg .r12, .reg .r13, .reg .r14, .reg .r15, .reg .rax, .reg .r8, .reg .r9] []),
   (214, .name true [.reg .r13, .reg .r14, .reg .r15, .reg .rax, .reg .r8, .reg .r9] []),
   (241, .name true [.reg .r11, .reg .r12, .reg .r13, .reg .r14, .reg .r15, .reg .rax, .reg .r8, .reg .r9, .reg .r10] []),
   (268, .name true [.reg .r11, .reg .r12, .reg .r13, .reg .r14, .reg .r15, .reg .rax, .reg .r8, .reg .r9, .reg .r10] []),
   (286, .name true [.reg .r14, .reg .r15, .reg .rax, .reg .r8, .reg .r9, .reg .r10] []),
   (313, .name true [.reg .r12, .reg .r13, .reg .r14, .reg .r15, .reg .rax, .reg .r8, .reg .r9, .reg .r10, .reg .r11] []),
   (340, .name true [.reg .r12, .reg .r13, .reg .r14, .reg .r15, .reg .rax, .reg .r8, .reg .r9, .reg .r10, .reg .r11] []),
   (358, .name true [.reg .r15, .reg .rax, .reg .r8, .reg .r9, .reg .r10, .reg .r11] []),
   (385, .name true [.reg .r13, .reg .r14, .reg .r15, .reg .rax, .reg .r8, .reg .r9, .reg .r10, .reg .r11, .reg .r12] []),
   (412, .name true [.reg .r13, .reg .r14, .reg .r15, .reg .rax, .reg .r8, .reg .r9, .reg .r10, .reg .r11, .reg .r12] []),
   (430, .name true [.reg .rax, .reg .r8, .reg .r9, .reg .r10, .reg .r11, .reg .r12] []),
   (457, .name true [.reg .r14, .reg .r15, .reg .rax, .reg .r8, .reg .r9, .reg .r10, .reg .r11, .reg .r12, .reg .r13] []),
   (484, .name true [.reg .r14, .reg .r15, .reg .rax, .reg .r8, .reg .r9, .reg .r10, .reg .r11, .reg .r12, .reg .r13] []),
   (502, .name true [.reg .r8, .reg .r9, .reg .r10, .reg .r11, .reg .r12, .reg .r13] []),
   (529, .name true [.reg .r15, .reg .rax, .reg .r8, .reg .r9, .reg .r10, .reg .r11, .reg .r12, .reg .r13, .reg .r14] []),
   (556, .name true [.reg .r15, .reg .rax, .reg .r8, .reg .r9, .reg .r10, .reg .r11, .reg .r12, .reg .r13, .reg .r14] []),
   (576, .name true [.reg .r9, .reg .r10, .reg .r11, .reg .r12, .reg .r13, .reg .r14] []),
   (582, .name true [.mem .rcx 0, .mem .rcx 8, .mem .rcx 16, .mem .rcx 24, .mem .rcx 32, .mem .rcx 40, .mem .rcx 48, .mem .rcx 56] [])]

def fp2mul503_c1Ms : List ℕ := [90, 180, 270, 360, 450, 540, 630, 720]

def fp2mul503_c1Ws : List (ℕ × ℕ) :=
  [(0, 0), (1, 0), (2, 192), (3, 64), (4, 64), (5, 256), (6, 128), (7, 128), (8, 320), (9, 192), (10, 192), (11, 384), (12, 256), (13, 256), (14, 448), (15, 320), (16, 320), (17, 512), (18, 384), (19, 384), (20, 576), (21, 448), (22, 448), (23, 640), (24, 512)]

theorem fp2mul503_c1_check :
    check (tabsOf words503 x8) fp2mul503_c1Sig fp2mul503_c1_asm fp2mul503_c1Hints ((bd 8 (2 ^ 59) ++ bd 8 (2 ^ 59)) ++ (bd 8 (2 ^ 59) ++ bd 8 (2 ^ 59))) []
    (fp2mul1Claim fp2mul503_c1Sig 8 prime fp2mul503_c1Ms fp2mul503_c1Ws) = true := by
  decide +kernel

end Secuer.X64.P503
