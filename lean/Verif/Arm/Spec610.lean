import Verif.Arm.MulExact
import Verif.Arm.Code610

/-!
# The checks of the ARM functions for p610

Generated: where the checker names words, and the equations that combine to the claims.  The theorems say all that is used of
it.
-/

set_option maxRecDepth 100000

namespace Secuer.Arm.P610

open Secuer.Word
open Secuer.X64 (Sig full bd addClaim subkClaim fpaddClaim fpsubClaim dblsubClaim mulClaim rdcClaim)

/-- The tables as numbers -/
def tabs (t : X64.Tab) : List ℕ := (tab t).map (·.toNat)

/-- The prime -/
def prime : ℕ := val words610.p

/-- The signature of `mp_add610_asm`: input and output words, stack bytes, where the output may lie in the inputs, inputs that are
overwritten -/
def mp_add610Sig : Sig := ⟨[10, 10], 10, 0, [(0, 0), (1, 0)], []⟩

def mp_add610Hints : List (ℕ × List Hint) :=
  []

theorem mp_add610_check :
    check tabs mp_add610Sig mp_add610_asm mp_add610Hints (full (2 * 10)) []
    (addClaim mp_add610Sig 10) = true := by
  decide +kernel

/-- The signature of `mp_sub610_p2_asm`: input and output words, stack bytes, where the output may lie in the inputs, inputs that are
overwritten -/
def mp_sub610_p2Sig : Sig := ⟨[10, 10], 10, 0, [(0, 0), (1, 0)], []⟩

def mp_sub610_p2Hints : List (ℕ × List Hint) :=
  []

theorem mp_sub610_p2_check :
    check tabs mp_sub610_p2Sig mp_sub610_p2_asm mp_sub610_p2Hints (full (2 * 10)) []
    (subkClaim mp_sub610_p2Sig 10 (val words610.x2)) = true := by
  decide +kernel

/-- The signature of `mp_sub610_p4_asm`: input and output words, stack bytes, where the output may lie in the inputs, inputs that are
overwritten -/
def mp_sub610_p4Sig : Sig := ⟨[10, 10], 10, 0, [(0, 0), (1, 0)], []⟩

def mp_sub610_p4Hints : List (ℕ × List Hint) :=
  []

theorem mp_sub610_p4_check :
    check tabs mp_sub610_p4Sig mp_sub610_p4_asm mp_sub610_p4Hints (full (2 * 10)) []
    (subkClaim mp_sub610_p4Sig 10 (val words610.x4)) = true := by
  decide +kernel

/-- The signature of `fpadd610_asm`: input and output words, stack bytes, where the output may lie in the inputs, inputs that are
overwritten -/
def fpadd610Sig : Sig := ⟨[10, 10], 10, 0, [(0, 0), (1, 0)], []⟩

def fpadd610Hints : List (ℕ × List Hint) :=
  [(20, [.name false [.reg .x3, .reg .x4, .reg .x5, .reg .x6, .reg .x7, .reg .x8, .reg .x9, .reg .x10, .reg .x11, .reg .x12] []]),
   (38, [.name false [.reg .x3, .reg .x4, .reg .x5, .reg .x6, .reg .x7, .reg .x8, .reg .x9, .reg .x10, .reg .x11, .reg .x12] []])]

theorem fpadd610_check :
    check tabs fpadd610Sig fpadd610_asm fpadd610Hints (full (2 * 10)) []
    (fpaddClaim fpadd610Sig 10 (val words610.x2) 43 63 62) = true := by
  decide +kernel

/-- The signature of `fpsub610_asm`: input and output words, stack bytes, where the output may lie in the inputs, inputs that are
overwritten -/
def fpsub610Sig : Sig := ⟨[10, 10], 10, 0, [(0, 0), (1, 0)], []⟩

def fpsub610Hints : List (ℕ × List Hint) :=
  [(20, [.name false [.reg .x3, .reg .x4, .reg .x5, .reg .x6, .reg .x7, .reg .x8, .reg .x9, .reg .x10, .reg .x11, .reg .x12] []])]

theorem fpsub610_check :
    check tabs fpsub610Sig fpsub610_asm fpsub610Hints (full (2 * 10)) []
    (fpsubClaim fpsub610Sig 10 (val words610.x2) 43 42) = true := by
  decide +kernel

/-- The signature of `mp_subadd610x2_asm`: input and output words, stack bytes, where the output may lie in the inputs, inputs that are
overwritten -/
def mp_subadd610x2Sig : Sig := ⟨[2 * 10, 2 * 10], 2 * 10, 0, [(0, 0)], []⟩

def mp_subadd610x2Hints : List (ℕ × List Hint) :=
  [(45, [.name false [.mem .x2 0, .mem .x2 8, .mem .x2 16, .mem .x2 24, .mem .x2 32, .mem .x2 40, .mem .x2 48, .mem .x2 56, .mem .x2 64, .mem .x2 72, .reg .x3, .reg .x4, .reg .x5, .reg .x6, .reg .x7, .reg .x8, .reg .x9, .reg .x10, .reg .x11, .reg .x12] []])]

theorem mp_subadd610x2_check :
    check tabs mp_subadd610x2Sig mp_subadd610x2_asm mp_subadd610x2Hints (full (2 * (2 * 10))) []
    (fpsubClaim mp_subadd610x2Sig (2 * 10) (prime * 2 ^ (64 * 10)) 73 72) = true := by
  decide +kernel

/-- The signature of `mp_dblsub610x2_asm`: input and output words, stack bytes, where the output may lie in the inputs, inputs that are
overwritten -/
def mp_dblsub610x2Sig : Sig := ⟨[2 * 10, 2 * 10, 2 * 10], 0, 64, [], [2]⟩

def mp_dblsub610x2Hints : List (ℕ × List Hint) :=
  []

theorem mp_dblsub610x2_check :
    check tabs mp_dblsub610x2Sig mp_dblsub610x2_asm mp_dblsub610x2Hints (full (3 * (2 * 10))) []
    (dblsubClaim (2 * 10)) = true := by
  decide +kernel

/-- The signature of `mul610_asm`: input and output words, stack bytes, where the output may lie in the inputs, inputs that are
overwritten -/
def mul610Sig : Sig := ⟨[10, 10], 2 * 10, 96, [], []⟩

def mul610Hints : List (ℕ × List Hint) :=
  [(28, [.name false [.reg .x26, .reg .x27, .reg .x28, .reg .x29, .reg .x30] [],
     .name false [.reg .x13, .reg .x14, .reg .x15, .reg .x16, .reg .x17] [],
     .times 0 [48, 49, 50, 51, 52, 42],
     .times 1 [8, 9, 10, 11, 12],
     .times 1 [13, 14, 15, 16, 17]]),
   (57, [.name false [.reg .x3, .reg .x4, .reg .x5] [],
     .name false [.reg .x6, .reg .x7, .reg .x19] [],
     .times 5 [67, 68, 69, 63],
     .times 6 [43, 44, 45],
     .times 6 [46, 47]]),
   (106, [.name true [.reg .x26, .reg .x27, .reg .x28, .reg .x29, .reg .x30, .reg .x23] []]),
   (149, [.name true [.reg .x3, .reg .x4, .reg .x5, .reg .x6, .reg .x7, .reg .x19] []]),
   (171, [.name true [.reg .x13, .reg .x14, .reg .x15, .reg .x23] []]),
   (177, [.name true [.reg .x26, .reg .x27, .reg .x28, .reg .x20, .reg .x21, .reg .x22] [(1010, 0), (11, 0), (12, 0), (1007, 0), (1008, 0), (1009, 0)]]),
   (184, [.name true [.reg .x3, .reg .x4, .reg .x5, .reg .x6, .reg .x7, .reg .x19, .reg .x20, .reg .x21, .reg .x22, .reg .x23] [(1011, 0), (1013, 192), (1012, 384)]]),
   (206, [.name false [.reg .x3, .reg .x4, .reg .x5] [],
     .name false [.reg .x6, .reg .x7, .reg .x19] [],
     .times 15 [196, 197, 198, 192],
     .times 16 [8, 9, 10],
     .times 16 [11, 12]]),
   (255, [.name true [.reg .x13, .reg .x14, .reg .x15, .reg .x16, .reg .x17, .reg .x23] []]),
   (298, [.name true [.reg .x3, .reg .x4, .reg .x5, .reg .x6, .reg .x7, .reg .x19] []]),
   (320, [.name true [.reg .x26, .reg .x27, .reg .x28, .reg .x23] []]),
   (326, [.name true [.reg .x13, .reg .x14, .reg .x15, .reg .x20, .reg .x21, .reg .x22] [(1020, 0), (21, 0), (22, 0), (1017, 0), (1018, 0), (1019, 0)]]),
   (333, [.name true [.reg .x3, .reg .x4, .reg .x5, .reg .x6, .reg .x7, .reg .x19, .reg .x20, .reg .x21, .reg .x22, .reg .x23] [(1021, 0), (1023, 192), (1022, 384)]]),
   (369, [.name false [.reg .x8, .reg .x9, .reg .x10] [],
     .name false [.reg .x11, .reg .x12, .reg .x13] [],
     .times 25 [330, 331, 332, 326],
     .times 26 [13, 14, 15],
     .times 26 [16, 17]]),
   (418, [.name true [.reg .x3, .reg .x4, .reg .x5, .reg .x6, .reg .x7, .reg .x17] []]),
   (461, [.name true [.reg .x8, .reg .x9, .reg .x10, .reg .x11, .reg .x12, .reg .x13] []]),
   (483, [.name true [.reg .x26, .reg .x27, .reg .x28, .reg .x17] []]),
   (489, [.name true [.reg .x3, .reg .x4, .reg .x5, .reg .x14, .reg .x15, .reg .x16] [(1030, 0), (31, 0), (32, 0), (1027, 0), (1028, 0), (1029, 0)]]),
   (496, [.name true [.reg .x8, .reg .x9, .reg .x10, .reg .x11, .reg .x12, .reg .x13, .reg .x14, .reg .x15, .reg .x16, .reg .x17] [(1031, 0), (1033, 192), (1032, 384)]]),
   (511, [.name true [.reg .x26, .reg .x27, .reg .x28, .reg .x29, .reg .x30, .reg .x3, .reg .x4, .reg .x5, .reg .x6, .reg .x7] [(1014, 0), (24, 0), (34, 0), (1002, 0), (1003, 0), (1004, 0)]])]

def mul610Ws : List (ℕ × ℕ) :=
  [(24, 0), (35, 320), (34, 640)]

theorem mul610_check :
    check tabs mul610Sig mul610_asm mul610Hints (bd 10 (2 ^ 62) ++ bd 10 (2 ^ 62)) []
    (mulClaim mul610Sig 10 mul610Ws) = true := by
  decide +kernel

/-- The signature of `rdc610_asm`: input and output words, stack bytes, where the output may lie in the inputs, inputs that are
overwritten -/
def rdc610Sig : Sig := ⟨[2 * 10], 10, 96, [], [0]⟩

def rdc610Hints : List (ℕ × List Hint) :=
  [(58, [.name true [.reg .x4, .reg .x5, .reg .x6, .reg .x7, .reg .x8, .reg .x9, .reg .x10] []]),
   (90, [.name true [.reg .x11, .reg .x12, .reg .x13, .reg .x14, .reg .x15, .reg .x16, .reg .x17, .reg .x24, .reg .x25] []]),
   (131, [.name true [.reg .x4, .reg .x5, .reg .x6, .reg .x7, .reg .x8, .reg .x9, .reg .x10] []]),
   (158, [.name true [.reg .x13, .reg .x14, .reg .x15, .reg .x16, .reg .x17, .reg .x24, .reg .x25, .reg .x2, .reg .x3] []]),
   (199, [.name true [.reg .x4, .reg .x5, .reg .x6, .reg .x7, .reg .x8, .reg .x9, .reg .x10] []]),
   (226, [.name true [.reg .x15, .reg .x16, .reg .x17, .reg .x24, .reg .x25, .reg .x2, .reg .x3, .reg .x11, .reg .x12] []]),
   (267, [.name true [.reg .x4, .reg .x5, .reg .x6, .reg .x7, .reg .x8, .reg .x9, .reg .x10] []]),
   (291, [.name true [.mem .x1 0, .mem .x1 8, .reg .x25, .reg .x2, .reg .x3, .reg .x11, .reg .x12, .reg .x13, .reg .x14] []]),
   (336, [.name true [.reg .x4, .reg .x5, .reg .x6, .reg .x7, .reg .x8, .reg .x9, .reg .x10] []]),
   (361, [.name true [.reg .x25, .reg .x2, .reg .x3, .reg .x11, .reg .x12, .reg .x13, .reg .x14, .reg .x15] []]),
   (381, [.name true [.mem .x1 0, .mem .x1 8, .mem .x1 16, .mem .x1 24, .mem .x1 32, .mem .x1 40, .mem .x1 48, .mem .x1 56, .mem .x1 64, .mem .x1 72] []])]

def rdc610Ms : List ℕ := [8, 9, 10, 11, 84, 85, 141, 142, 198, 199]

def rdc610Ws : List (ℕ × ℕ) :=
  [(10, 640), (9, 768), (8, 816), (7, 640), (6, 688), (5, 512), (4, 560), (3, 384), (2, 432), (1, 256), (0, 304)]

theorem rdc610_check :
    check tabs rdc610Sig rdc610_asm rdc610Hints (bd (2 * 10) (2 ^ 56)) []
    (rdcClaim rdc610Sig 10 prime rdc610Ms rdc610Ws) = true := by
  decide +kernel

end Secuer.Arm.P610
