import Verif.Arm.MulExact
import Verif.Arm.Code503

/-!
# The checks of the ARM functions for p503

Generated: where the checker names words, and the equations that combine to the claims.  The theorems say all that is used of
it.
-/

set_option maxRecDepth 100000

namespace Secuer.Arm.P503

open Secuer.Word
open Secuer.X64 (Sig full bd addClaim subkClaim fpaddClaim fpsubClaim dblsubClaim mulClaim rdcClaim)

/-- The tables as numbers -/
def tabs (t : X64.Tab) : List ℕ := (tab t).map (·.toNat)

/-- The prime -/
def prime : ℕ := val words503.p

/-- The signature of `mp_add503_asm`: input and output words, stack bytes, where the output may lie in the inputs, inputs that are
overwritten -/
def mp_add503Sig : Sig := ⟨[8, 8], 8, 0, [(0, 0), (1, 0)], []⟩

def mp_add503Hints : List (ℕ × List Hint) :=
  []

theorem mp_add503_check :
    check tabs mp_add503Sig mp_add503_asm mp_add503Hints (full (2 * 8)) []
    (addClaim mp_add503Sig 8) = true := by
  decide +kernel

/-- The signature of `mp_sub503_p2_asm`: input and output words, stack bytes, where the output may lie in the inputs, inputs that are
overwritten -/
def mp_sub503_p2Sig : Sig := ⟨[8, 8], 8, 0, [(0, 0), (1, 0)], []⟩

def mp_sub503_p2Hints : List (ℕ × List Hint) :=
  []

theorem mp_sub503_p2_check :
    check tabs mp_sub503_p2Sig mp_sub503_p2_asm mp_sub503_p2Hints (full (2 * 8)) []
    (subkClaim mp_sub503_p2Sig 8 (val words503.x2)) = true := by
  decide +kernel

/-- The signature of `mp_sub503_p4_asm`: input and output words, stack bytes, where the output may lie in the inputs, inputs that are
overwritten -/
def mp_sub503_p4Sig : Sig := ⟨[8, 8], 8, 0, [(0, 0), (1, 0)], []⟩

def mp_sub503_p4Hints : List (ℕ × List Hint) :=
  []

theorem mp_sub503_p4_check :
    check tabs mp_sub503_p4Sig mp_sub503_p4_asm mp_sub503_p4Hints (full (2 * 8)) []
    (subkClaim mp_sub503_p4Sig 8 (val words503.x4)) = true := by
  decide +kernel

/-- The signature of `fpadd503_asm`: input and output words, stack bytes, where the output may lie in the inputs, inputs that are
overwritten -/
def fpadd503Sig : Sig := ⟨[8, 8], 8, 0, [(0, 0), (1, 0)], []⟩

def fpadd503Hints : List (ℕ × List Hint) :=
  [(20, [.name false [.reg .x3, .reg .x4, .reg .x5, .reg .x6, .reg .x7, .reg .x8, .reg .x9, .reg .x10] []]),
   (31, [.name false [.reg .x3, .reg .x4, .reg .x5, .reg .x6, .reg .x7, .reg .x8, .reg .x9, .reg .x10] []])]

theorem fpadd503_check :
    check tabs fpadd503Sig fpadd503_asm fpadd503Hints (full (2 * 8)) []
    (fpaddClaim fpadd503Sig 8 (val words503.x2) 37 53 52) = true := by
  decide +kernel

/-- The signature of `fpsub503_asm`: input and output words, stack bytes, where the output may lie in the inputs, inputs that are
overwritten -/
def fpsub503Sig : Sig := ⟨[8, 8], 8, 0, [(0, 0), (1, 0)], []⟩

def fpsub503Hints : List (ℕ × List Hint) :=
  [(20, [.name false [.reg .x3, .reg .x4, .reg .x5, .reg .x6, .reg .x7, .reg .x8, .reg .x9, .reg .x10] []])]

theorem fpsub503_check :
    check tabs fpsub503Sig fpsub503_asm fpsub503Hints (full (2 * 8)) []
    (fpsubClaim fpsub503Sig 8 (val words503.x2) 37 36) = true := by
  decide +kernel

/-- The signature of `mp_subadd503x2_asm`: input and output words, stack bytes, where the output may lie in the inputs, inputs that are
overwritten -/
def mp_subadd503x2Sig : Sig := ⟨[2 * 8, 2 * 8], 2 * 8, 0, [(0, 0)], []⟩

def mp_subadd503x2Hints : List (ℕ × List Hint) :=
  [(40, [.name false [.mem .x2 0, .mem .x2 8, .mem .x2 16, .mem .x2 24, .mem .x2 32, .mem .x2 40, .mem .x2 48, .mem .x2 56, .reg .x3, .reg .x4, .reg .x5, .reg .x6, .reg .x7, .reg .x8, .reg .x9, .reg .x10] []])]

theorem mp_subadd503x2_check :
    check tabs mp_subadd503x2Sig mp_subadd503x2_asm mp_subadd503x2Hints (full (2 * (2 * 8))) []
    (fpsubClaim mp_subadd503x2Sig (2 * 8) (prime * 2 ^ (64 * 8)) 61 60) = true := by
  decide +kernel

/-- The signature of `mp_dblsub503x2_asm`: input and output words, stack bytes, where the output may lie in the inputs, inputs that are
overwritten -/
def mp_dblsub503x2Sig : Sig := ⟨[2 * 8, 2 * 8, 2 * 8], 0, 32, [], [2]⟩

def mp_dblsub503x2Hints : List (ℕ × List Hint) :=
  []

theorem mp_dblsub503x2_check :
    check tabs mp_dblsub503x2Sig mp_dblsub503x2_asm mp_dblsub503x2Hints (full (3 * (2 * 8))) []
    (dblsubClaim (2 * 8)) = true := by
  decide +kernel

/-- The signature of `mul503_asm`: input and output words, stack bytes, where the output may lie in the inputs, inputs that are
overwritten -/
def mul503Sig : Sig := ⟨[8, 8], 2 * 8, 96, [], []⟩

def mul503Hints : List (ℕ × List Hint) :=
  [(25, [.name false [.reg .x26, .reg .x27, .reg .x28, .reg .x29] [],
     .name false [.reg .x11, .reg .x12, .reg .x13, .reg .x14] [],
     .times 0 [41, 42, 43, 44, 36],
     .times 1 [8, 9, 10, 11],
     .times 1 [12, 13, 14, 15]]),
   (46, [.name false [.reg .x26, .reg .x27] [],
     .name false [.reg .x22, .reg .x25] [],
     .times 5 [55, 56, 52],
     .times 6 [37, 38],
     .times 6 [39, 40]]),
   (71, [.name true [.reg .x10, .reg .x19, .reg .x20, .reg .x21] []]),
   (90, [.name true [.reg .x8, .reg .x9, .reg .x25, .reg .x23] []]),
   (110, [.name true [.reg .x26, .reg .x27, .reg .x22, .reg .x11] []]),
   (115, [.name true [.reg .x10, .reg .x19, .reg .x20, .reg .x21, .reg .x24] [(1010, 0), (11, 0), (12, 0), (1007, 0), (1008, 0), (1009, 0)]]),
   (121, [.name true [.reg .x8, .reg .x9, .reg .x10, .reg .x19, .reg .x20, .reg .x21, .reg .x22, .reg .x23] [(1011, 0), (1013, 128), (1012, 256)]]),
   (133, [.name false [.reg .x3, .reg .x4] [],
     .name false [.reg .x26, .reg .x29] [],
     .times 15 [139, 140, 136],
     .times 16 [8, 9],
     .times 16 [10, 11]]),
   (158, [.name true [.reg .x22, .reg .x23, .reg .x24, .reg .x25] []]),
   (177, [.name true [.reg .x20, .reg .x21, .reg .x29, .reg .x27] []]),
   (197, [.name true [.reg .x3, .reg .x4, .reg .x26, .reg .x11] []]),
   (202, [.name true [.reg .x22, .reg .x23, .reg .x24, .reg .x25, .reg .x28] [(1020, 0), (21, 0), (22, 0), (1017, 0), (1018, 0), (1019, 0)]]),
   (208, [.name true [.reg .x20, .reg .x21, .reg .x22, .reg .x23, .reg .x24, .reg .x25, .reg .x26, .reg .x27] [(1021, 0), (1023, 128), (1022, 256)]]),
   (230, [.name false [.reg .x3, .reg .x4] [],
     .name false [.reg .x1, .reg .x29] [],
     .times 25 [227, 228, 224],
     .times 26 [12, 13],
     .times 26 [14, 15]]),
   (255, [.name true [.reg .x22, .reg .x23, .reg .x24, .reg .x25] []]),
   (274, [.name true [.reg .x20, .reg .x21, .reg .x29, .reg .x7] []]),
   (294, [.name true [.reg .x3, .reg .x4, .reg .x1, .reg .x11] []]),
   (299, [.name true [.reg .x22, .reg .x23, .reg .x24, .reg .x25, .reg .x28] [(1030, 0), (31, 0), (32, 0), (1027, 0), (1028, 0), (1029, 0)]]),
   (305, [.name true [.reg .x20, .reg .x21, .reg .x22, .reg .x23, .reg .x24, .reg .x25, .reg .x1, .reg .x7] [(1031, 0), (1033, 128), (1032, 256)]]),
   (315, [.name true [.reg .x8, .reg .x9, .reg .x10, .reg .x19, .reg .x15, .reg .x16, .reg .x17, .reg .x18] [(1014, 0), (24, 0), (34, 0), (1002, 0), (1003, 0), (1004, 0)]]),
   (333, [.name false [.reg .x25] []]),
   (338, [.name false [.mem .x2 0, .mem .x2 8, .mem .x2 16, .mem .x2 24, .mem .x2 32, .mem .x2 40, .mem .x2 48, .mem .x2 56, .mem .x2 64, .mem .x2 72, .mem .x2 80, .mem .x2 88, .mem .x2 96] []])]

theorem mul503_check :
    check tabs mul503Sig mul503_asm mul503Hints (bd 8 (2 ^ 62) ++ bd 8 (2 ^ 62)) []
    (mul503Claim mul503Sig 328 292 326 324 325 34 [(37, 0), (24, 0), (35, 256), (34, 512)] 36) = true := by
  decide +kernel

/-- The signature of `rdc503_asm`: input and output words, stack bytes, where the output may lie in the inputs, inputs that are
overwritten -/
def rdc503Sig : Sig := ⟨[2 * 8], 8, 96, [], [0]⟩

def rdc503Hints : List (ℕ × List Hint) :=
  [(47, [.name true [.reg .x4, .reg .x5, .reg .x6, .reg .x7, .reg .x8, .reg .x9] []]),
   (83, [.name true [.reg .x11, .reg .x12, .reg .x13, .reg .x14, .reg .x15, .reg .x16, .reg .x17, .reg .x18, .reg .x19, .reg .x20, .reg .x21, .reg .x22, .reg .x23] []]),
   (114, [.name true [.reg .x4, .reg .x5, .reg .x6, .reg .x7, .reg .x8, .reg .x9] []]),
   (141, [.name true [.reg .x13, .reg .x14, .reg .x15, .reg .x16, .reg .x17, .reg .x18, .reg .x19, .reg .x20, .reg .x21, .reg .x22, .reg .x23] []]),
   (172, [.name true [.reg .x4, .reg .x5, .reg .x6, .reg .x7, .reg .x8, .reg .x9] []]),
   (197, [.name true [.reg .x15, .reg .x16, .reg .x17, .reg .x18, .reg .x19, .reg .x20, .reg .x21, .reg .x22, .reg .x23] []]),
   (228, [.name true [.reg .x4, .reg .x5, .reg .x6, .reg .x7, .reg .x8, .reg .x9] []]),
   (258, [.name true [.mem .x1 0, .mem .x1 8, .mem .x1 16, .mem .x1 24, .mem .x1 32, .mem .x1 40, .mem .x1 48, .mem .x1 56] []])]

def rdc503Ms : List ℕ := [8, 9, 10, 76, 77, 132, 133, 184]

def rdc503Ws : List (ℕ × ℕ) :=
  [(7, 512), (6, 632), (5, 448), (4, 504), (3, 320), (2, 376), (1, 192), (0, 248)]

theorem rdc503_check :
    check tabs rdc503Sig rdc503_asm rdc503Hints (bd (2 * 8) (2 ^ 56)) []
    (rdcClaim rdc503Sig 8 prime rdc503Ms rdc503Ws) = true := by
  decide +kernel

end Secuer.Arm.P503
