import Verif.X64.RoutineWide
import Verif.X64.Code751

/-!
# The checks of the assembly routines for p751

Generated: where the checker names words, and the equations that combine to the claims.  The theorems say all that is used of
it.
-/

set_option maxRecDepth 100000

namespace Secuer.X64.P751

open Secuer.Word

/-- There is no table of `8 p` for this prime -/
def x8 : List Digit := []

/-- The prime -/
def prime : ℕ := val words751.p

/-- The signature of `mp_add751_asm`: input and output words, stack bytes, where the output may lie in the inputs -/
def mp_add751Sig : Sig := ⟨[12, 12], 12, 0, [(0, 0), (1, 0)], []⟩

def mp_add751Hints : List (ℕ × Hint) :=
  []

theorem mp_add751_check :
    check (tabsOf words751 x8) mp_add751Sig mp_add751_asm mp_add751Hints (full (2 * 12)) []
    (addClaim mp_add751Sig 12) = true := by
  decide +kernel

/-- The signature of `fpadd751_asm`: input and output words, stack bytes, where the output may lie in the inputs -/
def fpadd751Sig : Sig := ⟨[12, 12], 12, 32, [(0, 0), (1, 0)], []⟩

def fpadd751Hints : List (ℕ × Hint) :=
  [(31, .name false [.reg .r8, .reg .r9, .reg .r10, .reg .r11, .reg .r12, .reg .r13, .reg .r14, .reg .r15, .reg .rcx, .mem .rdx 72, .mem .rdx 80, .mem .rdx 88] []),
   (67, .name false [.mem .rdx 0, .mem .rdx 8, .mem .rdx 16, .mem .rdx 24, .mem .rdx 32, .mem .rdx 40, .mem .rdx 48, .mem .rdx 56, .mem .rdx 64, .mem .rdx 72, .mem .rdx 80, .mem .rdx 88] [])]

theorem fpadd751_check :
    check (tabsOf words751 x8) fpadd751Sig fpadd751_asm fpadd751Hints (full (2 * 12)) []
    (fpaddClaim fpadd751Sig 12 (val words751.x2) 44 68 67) = true := by
  decide +kernel

/-- The signature of `fpsub751_asm`: input and output words, stack bytes, where the output may lie in the inputs -/
def fpsub751Sig : Sig := ⟨[12, 12], 12, 32, [(0, 0), (1, 0)], []⟩

def fpsub751Hints : List (ℕ × Hint) :=
  [(40, .name false [.mem .rdx 0, .mem .rdx 8, .mem .rdx 16, .mem .rdx 24, .mem .rdx 32, .mem .rdx 40, .mem .rdx 48, .mem .rdx 56, .mem .rdx 64, .mem .rdx 72, .mem .rdx 80, .mem .rdx 88] [])]

theorem fpsub751_check :
    check (tabsOf words751 x8) fpsub751Sig fpsub751_asm fpsub751Hints (full (2 * 12)) []
    (fpsubClaim fpsub751Sig 12 (val words751.x2) 44 43) = true := by
  decide +kernel

/-- The signature of `mp_sub751_p2_asm`: input and output words, stack bytes, where the output may lie in the inputs -/
def mp_sub751_p2Sig : Sig := ⟨[12, 12], 12, 32, [(0, 0), (1, 0)], []⟩

def mp_sub751_p2Hints : List (ℕ × Hint) :=
  []

theorem mp_sub751_p2_check :
    check (tabsOf words751 x8) mp_sub751_p2Sig mp_sub751_p2_asm mp_sub751_p2Hints (full (2 * 12)) []
    (subkClaim mp_sub751_p2Sig 12 (val words751.x2)) = true := by
  decide +kernel

/-- The signature of `mp_sub751_p4_asm`: input and output words, stack bytes, where the output may lie in the inputs -/
def mp_sub751_p4Sig : Sig := ⟨[12, 12], 12, 32, [(0, 0), (1, 0)], []⟩

def mp_sub751_p4Hints : List (ℕ × Hint) :=
  []

theorem mp_sub751_p4_check :
    check (tabsOf words751 x8) mp_sub751_p4Sig mp_sub751_p4_asm mp_sub751_p4Hints (full (2 * 12)) []
    (subkClaim mp_sub751_p4Sig 12 (val words751.x4)) = true := by
  decide +kernel

/-- The signature of `mul751_asm`: input and output words, stack bytes, where the output may lie in the inputs -/
def mul751Sig : Sig := ⟨[12, 12], 2 * 12, 200, [], []⟩

def mul751Hints : List (ℕ × Hint) :=
  [(21, .name false [.reg .r8, .reg .r9, .reg .r10, .reg .r11, .reg .r12, .reg .r13] []),
   (41, .name false [.reg .r8, .reg .r9, .reg .rbx, .reg .rbp, .reg .r14, .reg .r15] []),
   (42, .times 0 [50, 51, 52, 53, 54, 55, 49]),
   (43, .times 1 [8, 9, 10, 11, 12, 13]),
   (44, .times 1 [14, 15, 16, 17, 18, 19]),
   (91, .name true [.mem .rcx 0, .reg .r8, .reg .r10, .reg .rbx, .reg .r9, .reg .rbp, .reg .r11] []),
   (113, .name true [.mem .rcx 8, .reg .r10, .reg .rbx, .reg .r8, .reg .r9, .reg .r11, .reg .rbp] []),
   (135, .name true [.mem .rcx 16, .reg .rbx, .reg .r8, .reg .r9, .reg .r11, .reg .rbp, .reg .r10] []),
   (157, .name true [.mem .rcx 24, .reg .r8, .reg .r9, .reg .r11, .reg .rbp, .reg .r10, .reg .rbx] []),
   (179, .name true [.mem .rcx 32, .reg .r9, .reg .r11, .reg .rbp, .reg .r10, .reg .rbx, .reg .r8] []),
   (201, .name true [.mem .rcx 40, .reg .r11, .reg .rbp, .reg .r10, .reg .rbx, .reg .r8, .reg .r9] []),
   (222, .name true [.mem .rcx 96, .reg .r8, .reg .r10, .reg .rbx, .reg .r9, .reg .rbp, .reg .r11] []),
   (244, .name true [.mem .rcx 104, .reg .r10, .reg .rbx, .reg .r8, .reg .r9, .reg .r11, .reg .rbp] []),
   (266, .name true [.mem .rcx 112, .reg .rbx, .reg .r8, .reg .r9, .reg .r11, .reg .rbp, .reg .r10] []),
   (288, .name true [.mem .rcx 120, .reg .r8, .reg .r9, .reg .r11, .reg .rbp, .reg .r10, .reg .rbx] []),
   (310, .name true [.mem .rcx 128, .reg .r9, .reg .r11, .reg .rbp, .reg .r10, .reg .rbx, .reg .r8] []),
   (332, .name true [.mem .rcx 136, .reg .r11, .reg .rbp, .reg .r10, .reg .rbx, .reg .r8, .reg .r9] []),
   (353, .name true [.mem .rsp 0, .reg .r8, .reg .r10, .reg .rbx, .reg .r9, .reg .rbp, .reg .r11] []),
   (375, .name true [.mem .rsp 8, .reg .r10, .reg .rbx, .reg .r8, .reg .r9, .reg .r11, .reg .rbp] []),
   (397, .name true [.mem .rsp 16, .reg .rbx, .reg .r8, .reg .r9, .reg .r11, .reg .rbp, .reg .r10] []),
   (419, .name true [.mem .rsp 24, .reg .r8, .reg .r9, .reg .r11, .reg .rbp, .reg .r10, .reg .rbx] []),
   (441, .name true [.mem .rsp 32, .reg .r9, .reg .r11, .reg .rbp, .reg .r10, .reg .rbx, .reg .r8] []),
   (463, .name true [.mem .rsp 40, .reg .r11, .reg .rbp, .reg .r10, .reg .rbx, .reg .r8, .reg .r9] []),
   (515, .name true [.reg .rdi, .reg .rdx, .reg .rbx, .reg .rbp, .reg .r14, .reg .r15, .reg .r8, .reg .r9, .reg .r10, .reg .r11, .reg .r12, .reg .r13] [(1011, 0), (1012, 64), (1013, 128), (1014, 192), (1015, 256), (1016, 320), (5, 0), (6, 64), (7, 128), (8, 192), (9, 256), (10, 320), (17, 0), (18, 64), (19, 128), (20, 192), (21, 256), (22, 320), (1002, 0), (1003, 0), (1004, 0)]),
   (570, .name true [.mem .rcx 0, .mem .rcx 8, .mem .rcx 16, .mem .rcx 24, .mem .rcx 32, .mem .rcx 40, .mem .rcx 48, .mem .rcx 56, .mem .rcx 64, .mem .rcx 72, .mem .rcx 80, .mem .rcx 88, .mem .rcx 96, .mem .rcx 104, .mem .rcx 112, .mem .rcx 120, .mem .rcx 128, .mem .rcx 136, .mem .rcx 144, .mem .rcx 152, .mem .rcx 160, .mem .rcx 168, .mem .rcx 176, .mem .rcx 184] [])]

def mul751Ws : List (ℕ × ℕ) :=
  [(24, 0), (5, 0), (6, 64), (7, 128), (8, 192), (9, 256), (10, 320), (23, 384), (17, 768), (18, 832), (19, 896), (20, 960), (21, 1024), (22, 1088)]

theorem mul751_check :
    check (tabsOf words751 x8) mul751Sig mul751_asm mul751Hints (bd 12 (2 ^ 62) ++ bd 12 (2 ^ 62)) []
    (mulClaim mul751Sig 12 mul751Ws) = true := by
  decide +kernel

/-- The signature of `rdc751_asm`: input and output words, stack bytes, where the output may lie in the inputs -/
def rdc751Sig : Sig := ⟨[2 * 12], 12, 48, [], [0]⟩

def rdc751Hints : List (ℕ × Hint) :=
  [(23, .name true [.mem .rsi 48, .reg .r8, .reg .r13, .reg .r14, .reg .r9, .reg .r12, .reg .r10, .reg .r11] []),
   (48, .name true [.mem .rsi 56, .reg .r13, .reg .r14, .reg .r8, .reg .r9, .reg .r10, .reg .r11, .reg .r12] []),
   (73, .name true [.mem .rsi 64, .reg .r14, .reg .r8, .reg .r9, .reg .r10, .reg .r11, .reg .r12, .reg .r13] []),
   (97, .name true [.reg .rbp, .reg .r8, .reg .r9, .reg .r10, .reg .r11, .reg .r12, .reg .r13, .reg .r14] []),
   (146, .name true [.mem .rdi 40, .mem .rdi 48, .mem .rdi 56, .mem .rdi 64, .mem .rdi 72, .mem .rdi 80, .mem .rdi 88, .mem .rdi 96, .mem .rdi 104, .mem .rdi 112, .mem .rdi 120, .mem .rdi 128, .mem .rdi 136, .mem .rdi 144, .mem .rdi 152, .mem .rdi 160, .mem .rdi 168, .mem .rdi 176, .mem .rdi 184] []),
   (163, .name true [.mem .rsi 48, .reg .r8, .reg .r13, .reg .r14, .reg .r9, .reg .r12, .reg .r10, .reg .r11] []),
   (188, .name true [.mem .rsi 56, .reg .r13, .reg .r14, .reg .r8, .reg .r9, .reg .r10, .reg .r11, .reg .r12] []),
   (213, .name true [.mem .rsi 64, .reg .r14, .reg .r8, .reg .r9, .reg .r10, .reg .r11, .reg .r12, .reg .r13] []),
   (237, .name true [.reg .rbp, .reg .r8, .reg .r9, .reg .r10, .reg .r11, .reg .r12, .reg .r13, .reg .r14] []),
   (274, .name true [.mem .rdi 72, .mem .rdi 80, .mem .rdi 88, .mem .rsi 0, .mem .rdi 104, .mem .rdi 112, .mem .rdi 120, .mem .rdi 128, .mem .rdi 136, .mem .rdi 144, .mem .rdi 152, .mem .rdi 160, .mem .rdi 168, .mem .rdi 176, .mem .rdi 184] []),
   (291, .name true [.mem .rsi 48, .reg .r8, .reg .r13, .reg .r14, .reg .r9, .reg .r12, .reg .r10, .reg .r11] []),
   (316, .name true [.mem .rsi 56, .reg .r13, .reg .r14, .reg .r8, .reg .r9, .reg .r10, .reg .r11, .reg .r12] []),
   (341, .name true [.mem .rsi 64, .reg .r14, .reg .r8, .reg .r9, .reg .r10, .reg .r11, .reg .r12, .reg .r13] []),
   (365, .name true [.reg .rbp, .reg .r8, .reg .r9, .reg .r10, .reg .r11, .reg .r12, .reg .r13, .reg .r14] []),
   (390, .name true [.mem .rsi 8, .mem .rsi 16, .mem .rsi 24, .mem .rsi 32, .mem .rsi 40, .mem .rsi 48, .mem .rsi 56, .mem .rsi 64, .mem .rsi 72, .mem .rsi 80, .mem .rsi 88] [])]

def rdc751Ms : List ℕ := [8, 9, 10, 11, 12, 163, 164, 165, 166, 309, 310, 311]

def rdc751Ws : List (ℕ × ℕ) :=
  [(0, 320), (1, 384), (2, 448), (3, 512), (5, 576), (6, 640), (7, 704), (8, 768), (10, 832), (11, 896), (12, 960), (13, 1024), (4, 320), (9, 576), (14, 832)]

theorem rdc751_check :
    check (tabsOf words751 x8) rdc751Sig rdc751_asm rdc751Hints (bd (2 * 12) (2 ^ 48)) []
    (rdcClaim rdc751Sig 12 prime rdc751Ms rdc751Ws) = true := by
  decide +kernel

/-- The signature of `mp_subadd751x2_asm`: input and output words, stack bytes, where the output may lie in the inputs -/
def mp_subadd751x2Sig : Sig := ⟨[2 * 12, 2 * 12], 2 * 12, 40, [(0, 0)], []⟩

def mp_subadd751x2Hints : List (ℕ × Hint) :=
  [(74, .name false [.mem .rdx 0, .mem .rdx 8, .mem .rdx 16, .mem .rdx 24, .mem .rdx 32, .mem .rdx 40, .mem .rdx 48, .mem .rdx 56, .mem .rdx 64, .mem .rdx 72, .mem .rdx 80, .mem .rdx 88, .mem .rdx 96, .mem .rdx 104, .mem .rdx 112, .mem .rdx 120, .mem .rdx 128, .mem .rdx 136, .mem .rdx 144, .mem .rdx 152, .reg .r8, .reg .r9, .reg .r10, .reg .r11] [])]

theorem mp_subadd751x2_check :
    check (tabsOf words751 x8) mp_subadd751x2Sig mp_subadd751x2_asm mp_subadd751x2Hints (full (2 * (2 * 12))) []
    (fpsubClaim mp_subadd751x2Sig (2 * 12) (prime * 2 ^ (64 * 12)) 80 79) = true := by
  decide +kernel

/-- The signature of `mp_dblsub751x2_asm`: input and output words, stack bytes, where the output may lie in the inputs -/
def mp_dblsub751x2Sig : Sig := ⟨[2 * 12, 2 * 12, 2 * 12], 0, 32, [], [2]⟩

def mp_dblsub751x2Hints : List (ℕ × Hint) :=
  []

theorem mp_dblsub751x2_check :
    check (tabsOf words751 x8) mp_dblsub751x2Sig mp_dblsub751x2_asm mp_dblsub751x2Hints (full (3 * (2 * 12))) []
    (dblsubClaim (2 * 12)) = true := by
  decide +kernel

end Secuer.X64.P751
