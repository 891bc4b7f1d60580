import Verif.Arm.Spec434
import Verif.Arm.Spec503
import Verif.Arm.Spec610
import Verif.Arm.Spec751
import Verif.X64.BackendMul

/-!
# The ARM assembly functions by parameter set

`P*/ARM64/fp_arm64.c` calls the assembly functions under names that do not depend on the prime.  Here are the functions behind
these names for every parameter set.
-/

set_option maxRecDepth 100000

namespace Secuer.Arm

open Secuer.Word Secuer.Field
open Secuer.X64 (Tab Env Sig TabOK wordsAt wordsAt_length)

/-- An assembly function: what its callers provide and its code -/
structure Func where
  sig : Sig
  code : List Instr

/-- The constant tables of a parameter set (`P*/ARM64/fp_arm64_asm.S`, section `.text`, at the beginning) -/
def asmTab : Level → Tab → List Digit
  | .l434 => P434.tab
  | .l503 => P503.tab
  | .l610 => P610.tab
  | .l751 => P751.tab

/-- `mp_add434_asm` … (`P434/ARM64/fp_arm64_asm.S`; `fpx.c:228-239`: called by `mp_addfast`) -/
def mpAddF : Level → Func
  | .l434 => ⟨P434.mp_add434Sig, P434.mp_add434_asm⟩
  | .l503 => ⟨P503.mp_add503Sig, P503.mp_add503_asm⟩
  | .l610 => ⟨P610.mp_add610Sig, P610.mp_add610_asm⟩
  | .l751 => ⟨P751.mp_add751Sig, P751.mp_add751_asm⟩

/-- `fpadd434_asm` …, called by `fpadd434` (`P434/ARM64/fp_arm64.c:35-41`) -/
def fpaddF : Level → Func
  | .l434 => ⟨P434.fpadd434Sig, P434.fpadd434_asm⟩
  | .l503 => ⟨P503.fpadd503Sig, P503.fpadd503_asm⟩
  | .l610 => ⟨P610.fpadd610Sig, P610.fpadd610_asm⟩
  | .l751 => ⟨P751.fpadd751Sig, P751.fpadd751_asm⟩

/-- `fpsub434_asm` …, called by `fpsub434` (`P434/ARM64/fp_arm64.c:44-50`) -/
def fpsubF : Level → Func
  | .l434 => ⟨P434.fpsub434Sig, P434.fpsub434_asm⟩
  | .l503 => ⟨P503.fpsub503Sig, P503.fpsub503_asm⟩
  | .l610 => ⟨P610.fpsub610Sig, P610.fpsub610_asm⟩
  | .l751 => ⟨P751.fpsub751Sig, P751.fpsub751_asm⟩

/-- `mp_sub434_p2_asm` …, called by `mp_sub434_p2` (`P434/ARM64/fp_arm64.c:21-25`) -/
def subP2F : Level → Func
  | .l434 => ⟨P434.mp_sub434_p2Sig, P434.mp_sub434_p2_asm⟩
  | .l503 => ⟨P503.mp_sub503_p2Sig, P503.mp_sub503_p2_asm⟩
  | .l610 => ⟨P610.mp_sub610_p2Sig, P610.mp_sub610_p2_asm⟩
  | .l751 => ⟨P751.mp_sub751_p2Sig, P751.mp_sub751_p2_asm⟩

/-- `mp_sub434_p4_asm` …, called by `mp_sub434_p4` (`P434/ARM64/fp_arm64.c:28-32`) -/
def subP4F : Level → Func
  | .l434 => ⟨P434.mp_sub434_p4Sig, P434.mp_sub434_p4_asm⟩
  | .l503 => ⟨P503.mp_sub503_p4Sig, P503.mp_sub503_p4_asm⟩
  | .l610 => ⟨P610.mp_sub610_p4Sig, P610.mp_sub610_p4_asm⟩
  | .l751 => ⟨P751.mp_sub751_p4Sig, P751.mp_sub751_p4_asm⟩

/-- `mul434_asm` …, called by `mp_mul` (`P434/ARM64/fp_arm64.c:97-103`) -/
def mulF : Level → Func
  | .l434 => ⟨P434.mul434Sig, P434.mul434_asm⟩
  | .l503 => ⟨P503.mul503Sig, P503.mul503_asm⟩
  | .l610 => ⟨P610.mul610Sig, P610.mul610_asm⟩
  | .l751 => ⟨P751.mul751Sig, P751.mul751_asm⟩

/-- `rdc434_asm` …, called by `rdc_mont` (`P434/ARM64/fp_arm64.c:107-114`) -/
def rdcF : Level → Func
  | .l434 => ⟨P434.rdc434Sig, P434.rdc434_asm⟩
  | .l503 => ⟨P503.rdc503Sig, P503.rdc503_asm⟩
  | .l610 => ⟨P610.rdc610Sig, P610.rdc610_asm⟩
  | .l751 => ⟨P751.rdc751Sig, P751.rdc751_asm⟩

/-- `mp_subadd434x2_asm` …, called by `mp_subaddfast` (`fpx.c:301-316`) -/
def subaddF : Level → Func
  | .l434 => ⟨P434.mp_subadd434x2Sig, P434.mp_subadd434x2_asm⟩
  | .l503 => ⟨P503.mp_subadd503x2Sig, P503.mp_subadd503x2_asm⟩
  | .l610 => ⟨P610.mp_subadd610x2Sig, P610.mp_subadd610x2_asm⟩
  | .l751 => ⟨P751.mp_subadd751x2Sig, P751.mp_subadd751x2_asm⟩

/-- `mp_dblsub434x2_asm` …, called by `mp_dblsubfast` (`fpx.c:319-331`) -/
def dblsubF : Level → Func
  | .l434 => ⟨P434.mp_dblsub434x2Sig, P434.mp_dblsub434x2_asm⟩
  | .l503 => ⟨P503.mp_dblsub503x2Sig, P503.mp_dblsub503x2_asm⟩
  | .l610 => ⟨P610.mp_dblsub610x2Sig, P610.mp_dblsub610x2_asm⟩
  | .l751 => ⟨P751.mp_dblsub751x2Sig, P751.mp_dblsub751x2_asm⟩

/-- Every call that meets the conventions and has its inputs in the given domain returns, keeps to the conventions and has
the given result. -/
def Computes (l : Level) (f : Func) (dom : St → Prop) (res : St → St → Prop) : Prop :=
  ∀ (E : Env) (s : St), E.tab = asmTab l → Pre E f.sig s → dom s →
    ∃ s', Done E f.sig f.code s s' ∧ res s s'

/-! ## The functions are what the checks say -/

variable (l : Level)

theorem tabOK434 {E : Env} (h : E.tab = asmTab .l434) : TabOK P434.tabs E := fun t => by rw [h]; rfl
theorem tabOK503 {E : Env} (h : E.tab = asmTab .l503) : TabOK P503.tabs E := fun t => by rw [h]; rfl
theorem tabOK610 {E : Env} (h : E.tab = asmTab .l610) : TabOK P610.tabs E := fun t => by rw [h]; rfl
theorem tabOK751 {E : Env} (h : E.tab = asmTab .l751) : TabOK P751.tabs E := fun t => by rw [h]; rfl

theorem mpAddF_ok : Computes l (mpAddF l) (fun _ => True) fun s s' =>
    wordsAt s'.mem (ptr s 2) (tables l).n =
      mpAddfastC (wordsAt s.mem (ptr s 0) (tables l).n) (wordsAt s.mem (ptr s 1) (tables l).n) := by
  intro E s hE hp _
  cases l
  · exact mpAdd_of_check P434.mp_add434_check (by decide) (by decide) (tabOK434 hE) hp
  · exact mpAdd_of_check P503.mp_add503_check (by decide) (by decide) (tabOK503 hE) hp
  · exact mpAdd_of_check P610.mp_add610_check (by decide) (by decide) (tabOK610 hE) hp
  · exact mpAdd_of_check P751.mp_add751_check (by decide) (by decide) (tabOK751 hE) hp

theorem fpaddF_ok : Computes l (fpaddF l) (fun _ => True) fun s s' =>
    wordsAt s'.mem (ptr s 2) (tables l).n =
      fpaddC (tables l) (wordsAt s.mem (ptr s 0) (tables l).n) (wordsAt s.mem (ptr s 1) (tables l).n) := by
  intro E s hE hp _
  have hx := (good l).len_x2
  cases l
  · exact fpadd_of_check (T := words434) hx P434.fpadd434_check (by decide) (by decide) (tabOK434 hE) hp
  · exact fpadd_of_check (T := words503) hx P503.fpadd503_check (by decide) (by decide) (tabOK503 hE) hp
  · exact fpadd_of_check (T := words610) hx P610.fpadd610_check (by decide) (by decide) (tabOK610 hE) hp
  · exact fpadd_of_check (T := words751) hx P751.fpadd751_check (by decide) (by decide) (tabOK751 hE) hp

theorem fpsubF_ok : Computes l (fpsubF l) (fun _ => True) fun s s' =>
    wordsAt s'.mem (ptr s 2) (tables l).n =
      fpsubC (tables l) (wordsAt s.mem (ptr s 0) (tables l).n) (wordsAt s.mem (ptr s 1) (tables l).n) := by
  intro E s hE hp _
  have hx := (good l).len_x2
  cases l
  · exact fpsub_of_check (T := words434) hx P434.fpsub434_check (by decide) (by decide) (tabOK434 hE) hp
  · exact fpsub_of_check (T := words503) hx P503.fpsub503_check (by decide) (by decide) (tabOK503 hE) hp
  · exact fpsub_of_check (T := words610) hx P610.fpsub610_check (by decide) (by decide) (tabOK610 hE) hp
  · exact fpsub_of_check (T := words751) hx P751.fpsub751_check (by decide) (by decide) (tabOK751 hE) hp

theorem subP2F_ok : Computes l (subP2F l) (fun _ => True) fun s s' =>
    wordsAt s'.mem (ptr s 2) (tables l).n =
      subP2C (tables l) (wordsAt s.mem (ptr s 0) (tables l).n) (wordsAt s.mem (ptr s 1) (tables l).n) := by
  intro E s hE hp _
  have hx := (good l).len_x2
  cases l
  · exact subk_of_check hx P434.mp_sub434_p2_check (by decide) (by decide) (tabOK434 hE) hp
  · exact subk_of_check hx P503.mp_sub503_p2_check (by decide) (by decide) (tabOK503 hE) hp
  · exact subk_of_check hx P610.mp_sub610_p2_check (by decide) (by decide) (tabOK610 hE) hp
  · exact subk_of_check hx P751.mp_sub751_p2_check (by decide) (by decide) (tabOK751 hE) hp

theorem subP4F_ok : Computes l (subP4F l) (fun _ => True) fun s s' =>
    wordsAt s'.mem (ptr s 2) (tables l).n =
      subP4 (tables l) (wordsAt s.mem (ptr s 0) (tables l).n) (wordsAt s.mem (ptr s 1) (tables l).n) := by
  intro E s hE hp _
  have hx := (good l).len_x4
  cases l
  · exact subk_of_check hx P434.mp_sub434_p4_check (by decide) (by decide) (tabOK434 hE) hp
  · exact subk_of_check hx P503.mp_sub503_p4_check (by decide) (by decide) (tabOK503 hE) hp
  · exact subk_of_check hx P610.mp_sub610_p4_check (by decide) (by decide) (tabOK610 hE) hp
  · exact subk_of_check hx P751.mp_sub751_p4_check (by decide) (by decide) (tabOK751 hE) hp

theorem prime434 : P434.prime = Level.l434.p := (good .l434).val_p
theorem prime503 : P503.prime = Level.l503.p := (good .l503).val_p
theorem prime610 : P610.prime = Level.l610.p := (good .l610).val_p
theorem prime751 : P751.prime = Level.l751.p := (good .l751).val_p

theorem subaddF_ok : Computes l (subaddF l) (fun _ => True) fun s s' =>
    wordsAt s'.mem (ptr s 2) (2 * (tables l).n) =
      mpSubaddfast (tables l) (wordsAt s.mem (ptr s 0) (2 * (tables l).n)) (wordsAt s.mem (ptr s 1) (2 * (tables l).n)) := by
  intro E s hE hp _
  have g := good l
  cases l
  · have c := P434.mp_subadd434x2_check
    rw [prime434] at c
    exact subadd_of_check (T := words434) g c (by decide) (by decide) (tabOK434 hE) hp
  · have c := P503.mp_subadd503x2_check
    rw [prime503] at c
    exact subadd_of_check (T := words503) g c (by decide) (by decide) (tabOK503 hE) hp
  · have c := P610.mp_subadd610x2_check
    rw [prime610] at c
    exact subadd_of_check (T := words610) g c (by decide) (by decide) (tabOK610 hE) hp
  · have c := P751.mp_subadd751x2_check
    rw [prime751] at c
    exact subadd_of_check (T := words751) g c (by decide) (by decide) (tabOK751 hE) hp

theorem dblsubF_ok : Computes l (dblsubF l) (fun _ => True) fun s s' =>
    wordsAt s'.mem (ptr s 2) (2 * (tables l).n) =
      mpDblsubfast (wordsAt s.mem (ptr s 0) (2 * (tables l).n)) (wordsAt s.mem (ptr s 1) (2 * (tables l).n))
        (wordsAt s.mem (ptr s 2) (2 * (tables l).n)) := by
  intro E s hE hp _
  cases l
  · exact dblsub_of_check P434.mp_dblsub434x2_check (by decide) (by decide) (tabOK434 hE) hp
  · exact dblsub_of_check P503.mp_dblsub503x2_check (by decide) (by decide) (tabOK503 hE) hp
  · exact dblsub_of_check P610.mp_dblsub610x2_check (by decide) (by decide) (tabOK610 hE) hp
  · exact dblsub_of_check P751.mp_dblsub751x2_check (by decide) (by decide) (tabOK751 hE) hp

theorem rdcTop_le : 2 ^ (64 * (tables l).n) * l.p ≤ (2 ^ 56 + 1) * 2 ^ (64 * (2 * (tables l).n - 1)) := by
  cases l <;> decide +kernel

theorem rdcF_ok : Computes l (rdcF l)
    (fun s => val (wordsAt s.mem (ptr s 0) (2 * (tables l).n)) < 2 ^ (64 * (tables l).n) * l.p) fun s s' =>
    rdcMont (tables l) (wordsAt s.mem (ptr s 0) (2 * (tables l).n)) = some (wordsAt s'.mem (ptr s 1) (tables l).n) := by
  intro E s hE hp h0
  have g := good l
  have hb := lt_of_lt_of_le h0 (rdcTop_le l)
  cases l
  · have c := P434.rdc434_check
    rw [prime434] at c
    exact rdc_of_check (T := words434) g c (by decide) (by decide) (tabOK434 hE) hp hb h0
  · have c := P503.rdc503_check
    rw [prime503] at c
    exact rdc_of_check (T := words503) g c (by decide) (by decide) (tabOK503 hE) hp hb h0
  · have c := P610.rdc610_check
    rw [prime610] at c
    exact rdc_of_check (T := words610) g c (by decide) (by decide) (tabOK610 hE) hp hb h0
  · have c := P751.rdc751_check
    rw [prime751] at c
    exact rdc_of_check (T := words751) g c (by decide) (by decide) (tabOK751 hE) hp hb h0

/-- The number `mul434_asm` … store for inputs `a`, `b` -/
def mulVal : Level → ℕ → ℕ → ℕ
  | .l434, a, b => a * b
  | .l503, a, b => mul503Val a b
  | .l610, a, b => a * b
  | .l751, a, b => mul751Val a b

theorem mulTop_le : 120 * l.p ≤ (2 ^ 62 + 1) * 2 ^ (64 * ((tables l).n - 1)) := by cases l <;> decide +kernel

theorem val_mpMul {n : ℕ} {a b c : List Digit} (hn : 0 < n) (hn' : n < 2 ^ 32) (ha : a.length = n) (hb : b.length = n)
    (h : mpMul n a b = some c) : val c = val a * val b := by
  obtain ⟨c', e, -, v⟩ := mpMul_spec hn hn' ha hb
  rw [e] at h
  cases h
  exact v

theorem mulF_ok : Computes l (mulF l)
    (fun s => val (wordsAt s.mem (ptr s 0) (tables l).n) < 120 * l.p ∧
      val (wordsAt s.mem (ptr s 1) (tables l).n) < 120 * l.p) fun s s' =>
    val (wordsAt s'.mem (ptr s 2) (2 * (tables l).n)) =
      mulVal l (val (wordsAt s.mem (ptr s 0) (tables l).n)) (val (wordsAt s.mem (ptr s 1) (tables l).n)) := by
  intro E s hE hp ⟨h0, h1⟩
  have b0 := lt_of_lt_of_le h0 (mulTop_le l)
  have b1 := lt_of_lt_of_le h1 (mulTop_le l)
  cases l
  · obtain ⟨s', hd, hm⟩ := mul_of_check P434.mul434_check (by decide) (by decide) (by decide) (tabOK434 hE) hp hyp_nil (by decide)
      b0 b1
    exact ⟨s', hd, val_mpMul (by decide) (by decide) (wordsAt_length _ _ _) (wordsAt_length _ _ _) hm⟩
  · exact mul503_of_check P503.mul503_check (by decide) (tabOK503 hE) hp b0 b1
  · obtain ⟨s', hd, hm⟩ := mul_of_check P610.mul610_check (by decide) (by decide) (by decide) (tabOK610 hE) hp hyp_nil (by decide)
      b0 b1
    exact ⟨s', hd, val_mpMul (by decide) (by decide) (wordsAt_length _ _ _) (wordsAt_length _ _ _) hm⟩
  · exact mul751_of_check P751.mul751_check (by decide) (tabOK751 hE) hp b0 b1

end Secuer.Arm
