import Verif.Arm.MulExact
import Verif.Arm.Code434

/-!
# The checks of the ARM functions for p434

Generated: where the checker names words, and the equations that combine to the claims.  The theorems say all that is used of
it.
-/

set_option maxRecDepth 100000

namespace Secuer.Arm.P434

open Secuer.Word
open Secuer.X64 (Sig full bd addClaim subkClaim fpaddClaim fpsubClaim dblsubClaim mulClaim rdcClaim)

/-- The tables as numbers -/
def tabs (t : X64.Tab) : List ℕ := (tab t).map (·.toNat)

/-- The prime -/
def prime : ℕ := val words434.p

/-- The signature of `mp_add434_asm`: input and output words, stack bytes, where the output may lie in the inputs, inputs that are
overwritten -/
def mp_add434Sig : Sig := ⟨[7, 7], 7, 0, [(0, 0), (1, 0)], []⟩

def mp_add434Hints : List (ℕ × List Hint) :=
  []

theorem mp_add434_check :
    check tabs mp_add434Sig mp_add434_asm mp_add434Hints (full (2 * 7)) []
    (addClaim mp_add434Sig 7) = true := by
  decide +kernel

/-- The signature of `mp_sub434_p2_asm`: input and output words, stack bytes, where the output may lie in the inputs, inputs that are
overwritten -/
def mp_sub434_p2Sig : Sig := ⟨[7, 7], 7, 0, [(0, 0), (1, 0)], []⟩

def mp_sub434_p2Hints : List (ℕ × List Hint) :=
  []

theorem mp_sub434_p2_check :
    check tabs mp_sub434_p2Sig mp_sub434_p2_asm mp_sub434_p2Hints (full (2 * 7)) []
    (subkClaim mp_sub434_p2Sig 7 (val words434.x2)) = true := by
  decide +kernel

/-- The signature of `mp_sub434_p4_asm`: input and output words, stack bytes, where the output may lie in the inputs, inputs that are
overwritten -/
def mp_sub434_p4Sig : Sig := ⟨[7, 7], 7, 0, [(0, 0), (1, 0)], []⟩

def mp_sub434_p4Hints : List (ℕ × List Hint) :=
  []

theorem mp_sub434_p4_check :
    check tabs mp_sub434_p4Sig mp_sub434_p4_asm mp_sub434_p4Hints (full (2 * 7)) []
    (subkClaim mp_sub434_p4Sig 7 (val words434.x4)) = true := by
  decide +kernel

/-- The signature of `fpadd434_asm`: input and output words, stack bytes, where the output may lie in the inputs, inputs that are
overwritten -/
def fpadd434Sig : Sig := ⟨[7, 7], 7, 0, [(0, 0), (1, 0)], []⟩

def fpadd434Hints : List (ℕ × List Hint) :=
  [(18, [.name false [.reg .x3, .reg .x4, .reg .x5, .reg .x6, .reg .x7, .reg .x8, .reg .x9] []]),
   (28, [.name false [.reg .x3, .reg .x4, .reg .x5, .reg .x6, .reg .x7, .reg .x8, .reg .x9] []])]

theorem fpadd434_check :
    check tabs fpadd434Sig fpadd434_asm fpadd434Hints (full (2 * 7)) []
    (fpaddClaim fpadd434Sig 7 (val words434.x2) 34 48 47) = true := by
  decide +kernel

/-- The signature of `fpsub434_asm`: input and output words, stack bytes, where the output may lie in the inputs, inputs that are
overwritten -/
def fpsub434Sig : Sig := ⟨[7, 7], 7, 0, [(0, 0), (1, 0)], []⟩

def fpsub434Hints : List (ℕ × List Hint) :=
  [(19, [.name false [.reg .x3, .reg .x4, .reg .x5, .reg .x6, .reg .x7, .reg .x8, .reg .x9] []])]

theorem fpsub434_check :
    check tabs fpsub434Sig fpsub434_asm fpsub434Hints (full (2 * 7)) []
    (fpsubClaim fpsub434Sig 7 (val words434.x2) 34 33) = true := by
  decide +kernel

/-- The signature of `mp_subadd434x2_asm`: input and output words, stack bytes, where the output may lie in the inputs, inputs that are
overwritten -/
def mp_subadd434x2Sig : Sig := ⟨[2 * 7, 2 * 7], 2 * 7, 0, [(0, 0)], []⟩

def mp_subadd434x2Hints : List (ℕ × List Hint) :=
  [(36, [.name false [.mem .x2 0, .mem .x2 8, .mem .x2 16, .mem .x2 24, .mem .x2 32, .mem .x2 40, .mem .x2 48, .reg .x10, .reg .x3, .reg .x4, .reg .x5, .reg .x6, .reg .x7, .reg .x8] []])]

theorem mp_subadd434x2_check :
    check tabs mp_subadd434x2Sig mp_subadd434x2_asm mp_subadd434x2Hints (full (2 * (2 * 7))) []
    (fpsubClaim mp_subadd434x2Sig (2 * 7) (prime * 2 ^ (64 * 7)) 55 54) = true := by
  decide +kernel

/-- The signature of `mp_dblsub434x2_asm`: input and output words, stack bytes, where the output may lie in the inputs, inputs that are
overwritten -/
def mp_dblsub434x2Sig : Sig := ⟨[2 * 7, 2 * 7, 2 * 7], 0, 32, [], [2]⟩

def mp_dblsub434x2Hints : List (ℕ × List Hint) :=
  []

theorem mp_dblsub434x2_check :
    check tabs mp_dblsub434x2Sig mp_dblsub434x2_asm mp_dblsub434x2Hints (full (3 * (2 * 7))) []
    (dblsubClaim (2 * 7)) = true := by
  decide +kernel

/-- The signature of `mul434_asm`: input and output words, stack bytes, where the output may lie in the inputs, inputs that are
overwritten -/
def mul434Sig : Sig := ⟨[7, 7], 2 * 7, 96, [], []⟩

def mul434Hints : List (ℕ × List Hint) :=
  [(25, [.name false [.reg .x26, .reg .x27, .reg .x28, .reg .x29] [],
     .name false [.reg .x11, .reg .x12, .reg .x13, .reg .x14] [],
     .times 0 [39, 40, 41, 42, 34],
     .times 1 [8, 9, 10, 11],
     .times 1 [12, 13, 14]]),
   (46, [.name false [.reg .x26, .reg .x27] [],
     .name false [.reg .x22, .reg .x25] [],
     .times 5 [53, 54, 50],
     .times 6 [35, 36],
     .times 6 [37, 38]]),
   (71, [.name true [.reg .x30, .reg .x19, .reg .x20, .reg .x21] []]),
   (90, [.name true [.reg .x8, .reg .x9, .reg .x25, .reg .x23] []]),
   (110, [.name true [.reg .x26, .reg .x27, .reg .x22, .reg .x11] []]),
   (115, [.name true [.reg .x30, .reg .x19, .reg .x20, .reg .x21, .reg .x24] [(1010, 0), (11, 0), (12, 0), (1007, 0), (1008, 0), (1009, 0)]]),
   (121, [.name true [.reg .x8, .reg .x9, .reg .x30, .reg .x19, .reg .x20, .reg .x21, .reg .x22, .reg .x23] [(1011, 0), (1013, 128), (1012, 256)]]),
   (133, [.name false [.reg .x3, .reg .x4] [],
     .name false [.reg .x26, .reg .x29] [],
     .times 15 [137, 138, 134],
     .times 16 [8, 9],
     .times 16 [10, 11]]),
   (158, [.name true [.reg .x22, .reg .x23, .reg .x24, .reg .x25] []]),
   (177, [.name true [.reg .x20, .reg .x21, .reg .x29, .reg .x27] []]),
   (197, [.name true [.reg .x3, .reg .x4, .reg .x26, .reg .x11] []]),
   (202, [.name true [.reg .x22, .reg .x23, .reg .x24, .reg .x25, .reg .x28] [(1020, 0), (21, 0), (22, 0), (1017, 0), (1018, 0), (1019, 0)]]),
   (208, [.name true [.reg .x20, .reg .x21, .reg .x22, .reg .x23, .reg .x24, .reg .x25, .reg .x26, .reg .x27] [(1021, 0), (1023, 128), (1022, 256)]]),
   (260, [.name true [.reg .x20, .reg .x21, .reg .x22, .reg .x23, .reg .x28, .reg .x29] []]),
   (268, [.name true [.reg .x8, .reg .x9, .reg .x30, .reg .x19, .reg .x10, .reg .x15, .reg .x16, .reg .x17] [(1014, 0), (24, 0), (25, 0), (1002, 0), (1003, 0), (1004, 0)]])]

def mul434Ws : List (ℕ × ℕ) :=
  [(24, 0), (26, 256), (25, 512)]

theorem mul434_check :
    check tabs mul434Sig mul434_asm mul434Hints (bd 7 (2 ^ 62) ++ bd 7 (2 ^ 62)) []
    (mulClaim mul434Sig 7 mul434Ws) = true := by
  decide +kernel

/-- The signature of `rdc434_asm`: input and output words, stack bytes, where the output may lie in the inputs, inputs that are
overwritten -/
def rdc434Sig : Sig := ⟨[2 * 7], 7, 80, [], [0]⟩

def rdc434Hints : List (ℕ × List Hint) :=
  [(49, [.name true [.reg .x4, .reg .x5, .reg .x6, .reg .x7, .reg .x8, .reg .x2] []]),
   (68, [.name true [.reg .x10, .reg .x11, .reg .x12, .reg .x13, .reg .x14, .reg .x15, .reg .x16, .reg .x17, .reg .x19, .reg .x20, .reg .x21] []]),
   (99, [.name true [.reg .x4, .reg .x5, .reg .x6, .reg .x7, .reg .x8, .reg .x3] []]),
   (112, [.name true [.reg .x12, .reg .x13, .reg .x14, .reg .x15, .reg .x16, .reg .x17, .reg .x19, .reg .x20, .reg .x21] []]),
   (143, [.name true [.reg .x4, .reg .x5, .reg .x6, .reg .x7, .reg .x8, .reg .x11] []]),
   (153, [.name true [.mem .x1 0, .mem .x1 8, .reg .x16, .reg .x17, .reg .x19, .reg .x20, .reg .x21] []]),
   (165, [.name true [.reg .x2, .reg .x3, .reg .x4, .reg .x5, .reg .x8] []]),
   (179, [.name true [.mem .x1 0, .mem .x1 8, .mem .x1 16, .mem .x1 24, .mem .x1 32, .mem .x1 40, .mem .x1 48] []])]

def rdc434Ms : List ℕ := [8, 9, 10, 66, 67, 112, 113]

def rdc434Ws : List (ℕ × ℕ) :=
  [(7, 448), (6, 576), (5, 448), (4, 448), (3, 320), (2, 320), (1, 192), (0, 192)]

theorem rdc434_check :
    check tabs rdc434Sig rdc434_asm rdc434Hints (bd (2 * 7) (2 ^ 56)) []
    (rdcClaim rdc434Sig 7 prime rdc434Ms rdc434Ws) = true := by
  decide +kernel

end Secuer.Arm.P434
