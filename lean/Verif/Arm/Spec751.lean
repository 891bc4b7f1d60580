import Verif.Arm.MulExact
import Verif.Arm.Code751

/-!
# The checks of the ARM functions for p751

Generated: where the checker names words, and the equations that combine to the claims.  The theorems say all that is used of
it.
-/

set_option maxRecDepth 100000

namespace Secuer.Arm.P751

open Secuer.Word
open Secuer.X64 (Sig full bd addClaim subkClaim fpaddClaim fpsubClaim dblsubClaim mulClaim rdcClaim)

/-- The tables as numbers -/
def tabs (t : X64.Tab) : List ℕ := (tab t).map (·.toNat)

/-- The prime -/
def prime : ℕ := val words751.p

/-- The signature of `mp_add751_asm`: input and output words, stack bytes, where the output may lie in the inputs, inputs that are
overwritten -/
def mp_add751Sig : Sig := ⟨[12, 12], 12, 0, [(0, 0), (1, 0)], []⟩

def mp_add751Hints : List (ℕ × List Hint) :=
  []

theorem mp_add751_check :
    check tabs mp_add751Sig mp_add751_asm mp_add751Hints (full (2 * 12)) []
    (addClaim mp_add751Sig 12) = true := by
  decide +kernel

/-- The signature of `mp_sub751_p2_asm`: input and output words, stack bytes, where the output may lie in the inputs, inputs that are
overwritten -/
def mp_sub751_p2Sig : Sig := ⟨[12, 12], 12, 16, [(0, 0), (1, 0)], []⟩

def mp_sub751_p2Hints : List (ℕ × List Hint) :=
  []

theorem mp_sub751_p2_check :
    check tabs mp_sub751_p2Sig mp_sub751_p2_asm mp_sub751_p2Hints (full (2 * 12)) []
    (subkClaim mp_sub751_p2Sig 12 (val words751.x2)) = true := by
  decide +kernel

/-- The signature of `mp_sub751_p4_asm`: input and output words, stack bytes, where the output may lie in the inputs, inputs that are
overwritten -/
def mp_sub751_p4Sig : Sig := ⟨[12, 12], 12, 16, [(0, 0), (1, 0)], []⟩

def mp_sub751_p4Hints : List (ℕ × List Hint) :=
  []

theorem mp_sub751_p4_check :
    check tabs mp_sub751_p4Sig mp_sub751_p4_asm mp_sub751_p4Hints (full (2 * 12)) []
    (subkClaim mp_sub751_p4Sig 12 (val words751.x4)) = true := by
  decide +kernel

/-- The signature of `fpadd751_asm`: input and output words, stack bytes, where the output may lie in the inputs, inputs that are
overwritten -/
def fpadd751Sig : Sig := ⟨[12, 12], 12, 16, [(0, 0), (1, 0)], []⟩

def fpadd751Hints : List (ℕ × List Hint) :=
  [(26, [.name false [.reg .x3, .reg .x4, .reg .x5, .reg .x6, .reg .x7, .reg .x8, .reg .x9, .reg .x10, .reg .x11, .reg .x12, .reg .x13, .reg .x14] []]),
   (47, [.name false [.reg .x3, .reg .x4, .reg .x5, .reg .x6, .reg .x7, .reg .x8, .reg .x9, .reg .x10, .reg .x11, .reg .x12, .reg .x13, .reg .x14] []])]

theorem fpadd751_check :
    check tabs fpadd751Sig fpadd751_asm fpadd751Hints (full (2 * 12)) []
    (fpaddClaim fpadd751Sig 12 (val words751.x2) 49 73 72) = true := by
  decide +kernel

/-- The signature of `fpsub751_asm`: input and output words, stack bytes, where the output may lie in the inputs, inputs that are
overwritten -/
def fpsub751Sig : Sig := ⟨[12, 12], 12, 16, [(0, 0), (1, 0)], []⟩

def fpsub751Hints : List (ℕ × List Hint) :=
  [(26, [.name false [.reg .x3, .reg .x4, .reg .x5, .reg .x6, .reg .x7, .reg .x8, .reg .x9, .reg .x10, .reg .x11, .reg .x12, .reg .x13, .reg .x14] []])]

theorem fpsub751_check :
    check tabs fpsub751Sig fpsub751_asm fpsub751Hints (full (2 * 12)) []
    (fpsubClaim fpsub751Sig 12 (val words751.x2) 49 48) = true := by
  decide +kernel

/-- The signature of `mp_subadd751x2_asm`: input and output words, stack bytes, where the output may lie in the inputs, inputs that are
overwritten -/
def mp_subadd751x2Sig : Sig := ⟨[2 * 12, 2 * 12], 2 * 12, 16, [(0, 0)], []⟩

def mp_subadd751x2Hints : List (ℕ × List Hint) :=
  [(56, [.name false [.mem .x2 0, .mem .x2 8, .mem .x2 16, .mem .x2 24, .mem .x2 32, .mem .x2 40, .mem .x2 48, .mem .x2 56, .mem .x2 64, .mem .x2 72, .mem .x2 80, .mem .x2 88, .reg .x3, .reg .x4, .reg .x5, .reg .x6, .reg .x7, .reg .x8, .reg .x9, .reg .x10, .reg .x11, .reg .x12, .reg .x13, .reg .x14] []])]

theorem mp_subadd751x2_check :
    check tabs mp_subadd751x2Sig mp_subadd751x2_asm mp_subadd751x2Hints (full (2 * (2 * 12))) []
    (fpsubClaim mp_subadd751x2Sig (2 * 12) (prime * 2 ^ (64 * 12)) 85 84) = true := by
  decide +kernel

/-- The signature of `mp_dblsub751x2_asm`: input and output words, stack bytes, where the output may lie in the inputs, inputs that are
overwritten -/
def mp_dblsub751x2Sig : Sig := ⟨[2 * 12, 2 * 12, 2 * 12], 0, 96, [], [2]⟩

def mp_dblsub751x2Hints : List (ℕ × List Hint) :=
  []

theorem mp_dblsub751x2_check :
    check tabs mp_dblsub751x2Sig mp_dblsub751x2_asm mp_dblsub751x2Hints (full (3 * (2 * 12))) []
    (dblsubClaim (2 * 12)) = true := by
  decide +kernel

/-- The signature of `mul751_asm`: input and output words, stack bytes, where the output may lie in the inputs, inputs that are
overwritten -/
def mul751Sig : Sig := ⟨[12, 12], 2 * 12, 96, [], []⟩

def mul751Hints : List (ℕ × List Hint) :=
  [(33, [.name false [.reg .x3, .reg .x4, .reg .x5, .reg .x6, .reg .x7, .reg .x8] [],
     .name false [.reg .x10, .reg .x11, .reg .x12, .reg .x13, .reg .x14, .reg .x15] [],
     .times 0 [55, 56, 57, 58, 59, 60, 48],
     .times 1 [8, 9, 10, 11, 12, 13],
     .times 1 [14, 15, 16, 17, 18, 19]]),
   (70, [.name false [.reg .x23, .reg .x24, .reg .x25] [],
     .name false [.reg .x26, .reg .x27, .reg .x28] [],
     .times 5 [76, 77, 78, 72],
     .times 6 [49, 50, 51],
     .times 6 [52, 53, 54]]),
   (121, [.name true [.reg .x3, .reg .x21, .reg .x22, .reg .x19, .reg .x20, .reg .x8] []]),
   (167, [.name true [.reg .x16, .reg .x17, .reg .x19, .reg .x20, .reg .x8, .reg .x15] []]),
   (218, [.name true [.reg .x23, .reg .x24, .reg .x25, .reg .x26, .reg .x27, .reg .x28] []]),
   (227, [.name true [.reg .x3, .reg .x21, .reg .x22, .reg .x5, .reg .x14, .reg .x7, .reg .x4] [(1010, 0), (11, 0), (12, 0), (1007, 0), (1008, 0), (1009, 0)]]),
   (236, [.name true [.reg .x16, .reg .x17, .reg .x19, .reg .x20, .reg .x21, .reg .x22, .reg .x23, .reg .x24, .reg .x25, .reg .x26, .reg .x27, .reg .x28] [(1011, 0), (1013, 192), (1012, 384)]]),
   (266, [.name false [.reg .x23, .reg .x24, .reg .x25] [],
     .name false [.reg .x26, .reg .x27, .reg .x28] [],
     .times 15 [229, 230, 231, 225],
     .times 16 [8, 9, 10],
     .times 16 [11, 12, 13]]),
   (317, [.name true [.reg .x3, .reg .x21, .reg .x22, .reg .x19, .reg .x20, .reg .x8] []]),
   (363, [.name true [.reg .x16, .reg .x17, .reg .x19, .reg .x20, .reg .x8, .reg .x15] []]),
   (414, [.name true [.reg .x23, .reg .x24, .reg .x25, .reg .x26, .reg .x27, .reg .x28] []]),
   (423, [.name true [.reg .x3, .reg .x21, .reg .x22, .reg .x5, .reg .x14, .reg .x7, .reg .x4] [(1020, 0), (21, 0), (22, 0), (1017, 0), (1018, 0), (1019, 0)]]),
   (432, [.name true [.reg .x16, .reg .x17, .reg .x19, .reg .x20, .reg .x21, .reg .x22, .reg .x23, .reg .x24, .reg .x25, .reg .x26, .reg .x27, .reg .x28] [(1021, 0), (1023, 192), (1022, 384)]]),
   (451, [.name true [.reg .x3, .reg .x4, .reg .x5, .reg .x6, .reg .x7, .reg .x8, .reg .x10, .reg .x11, .reg .x12, .reg .x13, .reg .x14, .reg .x15, .reg .x9] [(1014, 0), (24, 0), (1002, 0), (1003, 0), (1004, 0)]]),
   (460, [.name false [.reg .x3, .reg .x4, .reg .x5, .reg .x6, .reg .x7, .reg .x8] []]),
   (485, [.name false [.reg .x23, .reg .x24, .reg .x25] [],
     .name false [.reg .x26, .reg .x27, .reg .x28] [],
     .times 27 [414, 415, 416, 410],
     .times 28 [14, 15, 16],
     .times 28 [17, 18, 19]]),
   (536, [.name true [.reg .x3, .reg .x21, .reg .x22, .reg .x19, .reg .x20, .reg .x8] []]),
   (582, [.name true [.reg .x16, .reg .x17, .reg .x19, .reg .x20, .reg .x8, .reg .x15] []]),
   (633, [.name true [.reg .x23, .reg .x24, .reg .x25, .reg .x26, .reg .x27, .reg .x28] []]),
   (642, [.name true [.reg .x3, .reg .x21, .reg .x22, .reg .x5, .reg .x14, .reg .x7, .reg .x4] [(1032, 0), (33, 0), (34, 0), (1029, 0), (1030, 0), (1031, 0)]]),
   (651, [.name true [.reg .x16, .reg .x17, .reg .x19, .reg .x20, .reg .x21, .reg .x22, .reg .x23, .reg .x24, .reg .x25, .reg .x26, .reg .x27, .reg .x28] [(1033, 0), (1035, 192), (1034, 384)]]),
   (670, [.name false [.reg .x3, .reg .x4, .reg .x5, .reg .x6, .reg .x7, .reg .x8, .reg .x10, .reg .x11, .reg .x12, .reg .x13, .reg .x14, .reg .x15, .reg .x9] []])]

theorem mul751_check :
    check tabs mul751Sig mul751_asm mul751Hints (bd 12 (2 ^ 62) ++ bd 12 (2 ^ 62)) []
    (mul751Claim mul751Sig 355 380 399 564 398 563 24 25 26 [(37, 0), (26, 0), (25, 0), (1036, 0)] [(24, 0), (37, 384), (26, 384), (25, 384), (1036, 384), (36, 768)]) = true := by
  decide +kernel

/-- The signature of `rdc751_asm`: input and output words, stack bytes, where the output may lie in the inputs, inputs that are
overwritten -/
def rdc751Sig : Sig := ⟨[2 * 12], 12, 96, [], [0]⟩

def rdc751Hints : List (ℕ × List Hint) :=
  [(128, [.name true [.reg .x6, .reg .x7, .reg .x8, .reg .x9, .reg .x10, .reg .x11, .reg .x12, .reg .x13, .reg .x14, .reg .x15] []]),
   (170, [.name true [.reg .x3, .reg .x4, .reg .x5, .reg .x16, .reg .x17, .reg .x19, .reg .x20, .reg .x21, .reg .x22, .reg .x13, .reg .x14, .reg .x15] []]),
   (281, [.name true [.reg .x6, .reg .x7, .reg .x8, .reg .x9, .reg .x10, .reg .x11, .reg .x12, .reg .x13, .reg .x14, .reg .x15] []]),
   (320, [.name true [.reg .x17, .reg .x19, .reg .x20, .reg .x21, .reg .x22, .reg .x2, .reg .x3, .reg .x13, .reg .x14, .reg .x4, .reg .x5, .reg .x10] []]),
   (431, [.name true [.reg .x6, .reg .x7, .reg .x8, .reg .x9, .reg .x10, .reg .x11, .reg .x12, .reg .x13, .reg .x14, .reg .x15] []]),
   (465, [.name true [.reg .x22, .reg .x2, .reg .x3, .reg .x16, .reg .x17, .reg .x4, .reg .x5, .reg .x6, .reg .x7, .reg .x8, .reg .x9] []]),
   (488, [.name true [.mem .x1 0, .mem .x1 8, .mem .x1 16, .mem .x1 24, .mem .x1 32, .mem .x1 40, .mem .x1 48, .mem .x1 56, .mem .x1 64, .mem .x1 72, .mem .x1 80, .mem .x1 88] []])]

def rdc751Ms : List ℕ := [8, 9, 10, 11, 12, 138, 139, 140, 141, 249, 250, 251]

def rdc751Ws : List (ℕ × ℕ) :=
  [(6, 768), (5, 832), (4, 879), (3, 576), (2, 623), (1, 320), (0, 367)]

theorem rdc751_check :
    check tabs rdc751Sig rdc751_asm rdc751Hints (bd (2 * 12) (2 ^ 56)) []
    (rdcClaim rdc751Sig 12 prime rdc751Ms rdc751Ws) = true := by
  decide +kernel

end Secuer.Arm.P751
