import Verif.X64.Model

/-!
# The field arithmetic of `P434/AMD64/fp_x64_asm.S`

The macros and functions of this file for Linux with `_MULX_` and `_ADX_` defined (the default of the Makefile), transcribed
instruction by instruction.  `reg_p1`, `reg_p2` and `reg_p3` are `rdi`, `rsi` and `rdx`; `8\M1` is `M1.at 8`;
`[rip+fmt(p434x2)+8*i]` is `.tab .x2 i`.
-/

namespace Secuer.X64.P434

open Reg

/-- `P434/AMD64/fp_x64_asm.S:32-55` -/
def mp_add434_asm : List Instr :=
  [.mov r8 (.mem rdi 0), .mov r9 (.mem rdi 8), .mov r10 (.mem rdi 16), .mov r11 (.mem rdi 24), .add r8 (.mem rsi 0), .adc r9 (.mem rsi 8),
   .adc r10 (.mem rsi 16), .adc r11 (.mem rsi 24), .mov (.mem rdx 0) r8, .mov (.mem rdx 8) r9, .mov (.mem rdx 16) r10, .mov (.mem rdx 24) r11,
   .mov r8 (.mem rdi 32), .mov r9 (.mem rdi 40), .mov r10 (.mem rdi 48), .adc r8 (.mem rsi 32), .adc r9 (.mem rsi 40), .adc r10 (.mem rsi 48),
   .mov (.mem rdx 32) r8, .mov (.mem rdx 40) r9, .mov (.mem rdx 48) r10, .ret]

/-- `P434/AMD64/fp_x64_asm.S:63-130` -/
def fpadd434_asm : List Instr :=
  [.push r12, .push r13, .push r14, .push r15, .push rbx, .push rbp, .xor rax rax, .mov r8 (.mem rdi 0),
   .mov r9 (.mem rdi 8), .mov r10 (.mem rdi 16), .mov r11 (.mem rdi 24), .mov r12 (.mem rdi 32), .mov r13 (.mem rdi 40), .mov r14 (.mem rdi 48),
   .add r8 (.mem rsi 0), .adc r9 (.mem rsi 8), .adc r10 (.mem rsi 16), .adc r11 (.mem rsi 24), .adc r12 (.mem rsi 32), .adc r13 (.mem rsi 40),
   .adc r14 (.mem rsi 48), .mov rbx (.tab .x2 0), .sub r8 rbx, .mov rcx (.tab .x2 1), .sbb r9 rcx, .sbb r10 rcx,
   .mov rdi (.tab .x2 3), .sbb r11 rdi, .mov rsi (.tab .x2 4), .sbb r12 rsi, .mov rbp (.tab .x2 5), .sbb r13 rbp,
   .mov r15 (.tab .x2 6), .sbb r14 r15, .sbb rax (.imm 0), .and rbx rax, .and rcx rax, .and rdi rax, .and rsi rax,
   .and rbp rax, .and r15 rax, .add r8 rbx, .adc r9 rcx, .adc r10 rcx, .adc r11 rdi, .adc r12 rsi, .adc r13 rbp,
   .adc r14 r15, .mov (.mem rdx 0) r8, .mov (.mem rdx 8) r9, .mov (.mem rdx 16) r10, .mov (.mem rdx 24) r11, .mov (.mem rdx 32) r12,
   .mov (.mem rdx 40) r13, .mov (.mem rdx 48) r14, .pop rbp, .pop rbx, .pop r15, .pop r14, .pop r13, .pop r12, .ret]

/-- `P434/AMD64/fp_x64_asm.S:138-193` -/
def fpsub434_asm : List Instr :=
  [.push r12, .push r13, .push r14, .xor rax rax, .mov r8 (.mem rdi 0), .mov r9 (.mem rdi 8), .mov r10 (.mem rdi 16),
   .mov r11 (.mem rdi 24), .mov r12 (.mem rdi 32), .mov r13 (.mem rdi 40), .mov r14 (.mem rdi 48), .sub r8 (.mem rsi 0), .sbb r9 (.mem rsi 8),
   .sbb r10 (.mem rsi 16), .sbb r11 (.mem rsi 24), .sbb r12 (.mem rsi 32), .sbb r13 (.mem rsi 40), .sbb r14 (.mem rsi 48),
   .sbb rax (.imm 0), .mov rcx (.tab .x2 0), .mov rdi (.tab .x2 1), .mov rsi (.tab .x2 3), .and rcx rax,
   .and rdi rax, .and rsi rax, .add r8 rcx, .adc r9 rdi, .adc r10 rdi, .adc r11 rsi, .mov (.mem rdx 0) r8,
   .mov (.mem rdx 8) r9, .mov (.mem rdx 16) r10, .mov (.mem rdx 24) r11, .setc rcx, .mov r8 (.tab .x2 4), .mov rdi (.tab .x2 5),
   .mov rsi (.tab .x2 6), .and r8 rax, .and rdi rax, .and rsi rax, .bt rcx, .adc r12 r8, .adc r13 rdi,
   .adc r14 rsi, .mov (.mem rdx 32) r12, .mov (.mem rdx 40) r13, .mov (.mem rdx 48) r14, .pop r14, .pop r13, .pop r12, .ret]

/-- The macro `SUB434_PX`: `P434/AMD64/fp_x64_asm.S:197-239` -/
def SUB434_PX (P0 : Tab) : List Instr :=
  [.push r12, .push r13, .mov r8 (.mem rdi 0), .mov r9 (.mem rdi 8), .mov r10 (.mem rdi 16), .mov r11 (.mem rdi 24), .mov r12 (.mem rdi 32),
   .mov r13 (.mem rdi 40), .mov rcx (.mem rdi 48), .sub r8 (.mem rsi 0), .sbb r9 (.mem rsi 8), .sbb r10 (.mem rsi 16), .sbb r11 (.mem rsi 24),
   .sbb r12 (.mem rsi 32), .sbb r13 (.mem rsi 40), .sbb rcx (.mem rsi 48), .mov rax (.tab P0 0), .mov rdi (.tab P0 1),
   .mov rsi (.tab P0 3), .add r8 rax, .mov rax (.tab P0 4), .adc r9 rdi, .adc r10 rdi, .adc r11 rsi,
   .mov rdi (.tab P0 5), .mov rsi (.tab P0 6), .adc r12 rax, .adc r13 rdi, .adc rcx rsi, .mov (.mem rdx 0) r8,
   .mov (.mem rdx 8) r9, .mov (.mem rdx 16) r10, .mov (.mem rdx 24) r11, .mov (.mem rdx 32) r12, .mov (.mem rdx 40) r13, .mov (.mem rdx 48) rcx,
   .pop r13, .pop r12]

/-- `P434/AMD64/fp_x64_asm.S:247-250` -/
def mp_sub434_p2_asm : List Instr :=
  SUB434_PX .x2 ++
  [.ret]

/-- The macro `MULADD64x448`: `P434/AMD64/fp_x64_asm.S:264-288` -/
def MULADD64x448 (M1 Z0 Z1 Z2 Z3 Z4 Z5 Z6 Z7 : Opd) (T0 T1 : Reg) (C : Opd) : List Instr :=
  [.mulx T0 T1 M1, .xor C C, .adox Z0 T1, .adox Z1 T0, .mulx T0 T1 (M1.at 8), .adcx Z1 T1, .adox Z2 T0,
   .mulx T0 T1 (M1.at 16), .adcx Z2 T1, .adox Z3 T0, .mulx T0 T1 (M1.at 24), .adcx Z3 T1, .adox Z4 T0,
   .mulx T0 T1 (M1.at 32), .adcx Z4 T1, .adox Z5 T0, .mulx T0 T1 (M1.at 40), .adcx Z5 T1, .adox Z6 T0,
   .mulx T0 T1 (M1.at 48), .adcx Z6 T1, .adox Z7 T0, .adc Z7 (.imm 0)]

/-- The macro `MULADD64x256`: `P434/AMD64/fp_x64_asm.S:291-306` -/
def MULADD64x256 (M1 Z0 Z1 Z2 Z3 Z4 : Opd) (T0 T1 : Reg) : List Instr :=
  [.mulx T0 T1 M1, .xor rax rax, .adox Z0 T1, .adox Z1 T0, .mulx T0 T1 (M1.at 8), .adcx Z1 T1, .adox Z2 T0,
   .mulx T0 T1 (M1.at 16), .adcx Z2 T1, .adox Z3 T0, .mulx T0 T1 (M1.at 24), .adcx Z3 T1, .adox Z4 T0,
   .adcx Z4 rax]

/-- The macro `FPDBLMUL448x448`: `P434/AMD64/fp_x64_asm.S:317-399` -/
def FPDBLMUL448x448 (M00 M01 M10 M11 Z0 : Opd) (Z1 Z2 : Reg) (Z3 Z4 Z5 : Opd) (Z6 Z7 T0 T1 : Reg) : List Instr :=
  [.mov rdx M11] ++
  MULADD64x448 M01 Z0 Z1 Z2 Z3 Z4 Z5 Z6 Z7 T0 T1 rax ++
  [.mov rdx Z0] ++
  MULADD64x256 (.tab .p1 3) Z3 Z4 Z5 Z6 Z7 T0 T1 ++
  [.mov rdx (M10.at 8)] ++
  MULADD64x448 M00 Z1 Z2 Z3 Z4 Z5 Z6 Z7 Z0 T0 T1 Z0 ++
  [.mov rdx (M11.at 8)] ++
  MULADD64x448 M01 Z1 Z2 Z3 Z4 Z5 Z6 Z7 Z0 T0 T1 rax ++
  [.mov rdx Z1] ++
  MULADD64x256 (.tab .p1 3) Z4 Z5 Z6 Z7 Z0 T0 T1 ++
  [.mov rdx (M10.at 16)] ++
  MULADD64x448 M00 Z2 Z3 Z4 Z5 Z6 Z7 Z0 Z1 T0 T1 Z1 ++
  [.mov rdx (M11.at 16)] ++
  MULADD64x448 M01 Z2 Z3 Z4 Z5 Z6 Z7 Z0 Z1 T0 T1 rax ++
  [.mov rdx Z2] ++
  MULADD64x256 (.tab .p1 3) Z5 Z6 Z7 Z0 Z1 T0 T1 ++
  [.mov rdx (M10.at 24)] ++
  MULADD64x448 M00 Z3 Z4 Z5 Z6 Z7 Z0 Z1 Z2 T0 T1 Z2 ++
  [.mov rdx (M11.at 24)] ++
  MULADD64x448 M01 Z3 Z4 Z5 Z6 Z7 Z0 Z1 Z2 T0 T1 rax ++
  [.mov rdx Z3] ++
  MULADD64x256 (.tab .p1 3) Z6 Z7 Z0 Z1 Z2 T0 T1 ++
  [.mov rdx (M10.at 32)] ++
  MULADD64x448 M00 Z4 Z5 Z6 Z7 Z0 Z1 Z2 Z3 T0 T1 Z3 ++
  [.mov rdx (M11.at 32)] ++
  MULADD64x448 M01 Z4 Z5 Z6 Z7 Z0 Z1 Z2 Z3 T0 T1 rax ++
  [.mov rdx Z4] ++
  MULADD64x256 (.tab .p1 3) Z7 Z0 Z1 Z2 Z3 T0 T1 ++
  [.mov rdx (M10.at 40)] ++
  MULADD64x448 M00 Z5 Z6 Z7 Z0 Z1 Z2 Z3 Z4 T0 T1 Z4 ++
  [.mov rdx (M11.at 40)] ++
  MULADD64x448 M01 Z5 Z6 Z7 Z0 Z1 Z2 Z3 Z4 T0 T1 rax ++
  [.mov rdx Z5] ++
  MULADD64x256 (.tab .p1 3) Z0 Z1 Z2 Z3 Z4 T0 T1 ++
  [.mov rdx (M10.at 48)] ++
  MULADD64x448 M00 Z6 Z7 Z0 Z1 Z2 Z3 Z4 Z5 T0 T1 Z5 ++
  [.mov rdx (M11.at 48)] ++
  MULADD64x448 M01 Z6 Z7 Z0 Z1 Z2 Z3 Z4 Z5 T0 T1 rax ++
  [.pop T1, .mov (.mem rcx 0) Z7, .mov rdx Z6, .mulx Z6 Z7 (.tab .p1 3), .pop T0, .adox Z1 Z7, .adox Z2 Z6,
   .mov (.mem rcx 8) Z0, .mulx Z6 Z7 (.tab .p1 4), .mov (.mem rcx 16) Z1, .adcx Z2 Z7, .adox Z3 Z6, .mov (.mem rcx 24) Z2,
   .mulx Z2 Z1 (.tab .p1 5), .pop Z7, .adcx Z3 Z1, .adox Z4 Z2, .mov (.mem rcx 32) Z3, .mulx Z2 Z1 (.tab .p1 6),
   .pop Z6, .adcx Z4 Z1, .adox Z5 Z2, .adc Z5 (.imm 0)]

/-- `P434/AMD64/fp_x64_asm.S:410-473` -/
def fp2mul434_c0_asm : List Instr :=
  [.push r12, .mov rcx rdx, .mov r8 (.tab .x8 0), .mov r9 (.tab .x8 1), .mov r11 (.tab .x8 3),
   .mov r12 (.tab .x8 4), .mov rax (.mem rsi 56), .mov rdx (.mem rsi 64), .mov r10 r9, .sub r8 rax, .push r13, .sbb r9 rdx,
   .mov rax (.mem rsi 72), .mov rdx (.mem rsi 80), .sbb r10 rax, .push r14, .sbb r11 rdx, .mov rax (.mem rsi 88),
   .mov rdx (.mem rsi 96), .mov r13 (.tab .x8 5), .mov r14 (.tab .x8 6), .mov (.mem rcx 0) r8, .sbb r12 rax, .push r15,
   .sbb r13 rdx, .mov rax (.mem rsi 104), .mov (.mem rcx 8) r9, .sbb r14 rax, .mov (.mem rcx 16) r10, .mov rdx (.mem rsi 0),
   .mulx r9 r8 (.mem rdi 0), .mov (.mem rcx 24) r11, .xor rax rax, .mulx r10 r11 (.mem rdi 8), .mov (.mem rcx 32) r12, .adox r9 r11,
   .mulx r11 r12 (.mem rdi 16), .mov (.mem rcx 40) r13, .adox r10 r12, .mulx r12 r13 (.mem rdi 24), .mov (.mem rcx 48) r14,
   .adox r11 r13, .mulx r13 r14 (.mem rdi 32), .push rbx, .adox r12 r14, .mulx r14 r15 (.mem rdi 40), .push rbp,
   .adox r13 r15, .mulx r15 rbx (.mem rdi 48), .adox r14 rbx, .adox r15 rax] ++
  FPDBLMUL448x448 (.mem rdi 0) (.mem rdi 56) (.mem rsi 0) (.mem rcx 0) r8 r9 r10 r11 r12 r13 r14 r15 rbx rbp ++
  [.mov (.mem rcx 40) r12, .mov (.mem rcx 48) r13, .pop r13, .pop r12, .ret]

/-- `P434/AMD64/fp_x64_asm.S:484-517` -/
def fp2mul434_c1_asm : List Instr :=
  [.mov rcx rdx, .mov rdx (.mem rsi 0), .mulx r9 r8 (.mem rdi 56), .xor rax rax, .push r12, .mulx r10 r11 (.mem rdi 64),
   .push r13, .adox r9 r11, .mulx r11 r12 (.mem rdi 72), .push r14, .adox r10 r12, .mulx r12 r13 (.mem rdi 80), .push r15,
   .adox r11 r13, .mulx r13 r14 (.mem rdi 88), .push rbx, .adox r12 r14, .mulx r14 r15 (.mem rdi 96), .push rbp,
   .adox r13 r15, .mulx r15 rbx (.mem rdi 104), .adox r14 rbx, .adox r15 rax] ++
  FPDBLMUL448x448 (.mem rdi 56) (.mem rdi 0) (.mem rsi 0) (.mem rsi 56) r8 r9 r10 r11 r12 r13 r14 r15 rbx rbp ++
  [.mov (.mem rcx 40) r12, .mov (.mem rcx 48) r13, .pop r13, .pop r12, .ret]

/-- The macro `FPMUL448x448`: `P434/AMD64/fp_x64_asm.S:540-586` -/
def FPMUL448x448 (M0 M1 Z0 Z1 Z2 Z3 Z4 Z5 Z6 Z7 : Opd) (T0 T1 : Reg) : List Instr :=
  [.mov rdx Z0] ++
  MULADD64x256 (.tab .p1 3) Z3 Z4 Z5 Z6 Z7 T0 T1 ++
  [.mov rdx (M0.at 8)] ++
  MULADD64x448 M1 Z1 Z2 Z3 Z4 Z5 Z6 Z7 Z0 T0 T1 Z0 ++
  [.mov rdx Z1] ++
  MULADD64x256 (.tab .p1 3) Z4 Z5 Z6 Z7 Z0 T0 T1 ++
  [.mov rdx (M0.at 16)] ++
  MULADD64x448 M1 Z2 Z3 Z4 Z5 Z6 Z7 Z0 Z1 T0 T1 Z1 ++
  [.mov rdx Z2] ++
  MULADD64x256 (.tab .p1 3) Z5 Z6 Z7 Z0 Z1 T0 T1 ++
  [.mov rdx (M0.at 24)] ++
  MULADD64x448 M1 Z3 Z4 Z5 Z6 Z7 Z0 Z1 Z2 T0 T1 Z2 ++
  [.mov rdx Z3] ++
  MULADD64x256 (.tab .p1 3) Z6 Z7 Z0 Z1 Z2 T0 T1 ++
  [.mov rdx (M0.at 32)] ++
  MULADD64x448 M1 Z4 Z5 Z6 Z7 Z0 Z1 Z2 Z3 T0 T1 Z3 ++
  [.mov rdx Z4] ++
  MULADD64x256 (.tab .p1 3) Z7 Z0 Z1 Z2 Z3 T0 T1 ++
  [.mov rdx (M0.at 40)] ++
  MULADD64x448 M1 Z5 Z6 Z7 Z0 Z1 Z2 Z3 Z4 T0 T1 Z4 ++
  [.mov rdx Z5] ++
  MULADD64x256 (.tab .p1 3) Z0 Z1 Z2 Z3 Z4 T0 T1 ++
  [.mov rdx (M0.at 48)] ++
  MULADD64x448 M1 Z6 Z7 Z0 Z1 Z2 Z3 Z4 Z5 T0 T1 Z5 ++
  [.mov rdx Z6] ++
  MULADD64x256 (.tab .p1 3) Z1 Z2 Z3 Z4 Z5 T0 T1

/-- `P434/AMD64/fp_x64_asm.S:596-689` -/
def fp2sqr434_c0_asm : List Instr :=
  [.push r12, .mov r8 (.mem rdi 0), .mov r9 (.mem rdi 8), .mov r10 (.mem rdi 16), .mov r11 (.mem rdi 24), .mov r12 (.mem rdi 32),
   .add r8 (.mem rdi 56), .push r13, .adc r9 (.mem rdi 64), .adc r10 (.mem rdi 72), .push r14, .adc r11 (.mem rdi 80),
   .adc r12 (.mem rdi 88), .mov r13 (.mem rdi 40), .mov r14 (.mem rdi 48), .adc r13 (.mem rdi 96), .adc r14 (.mem rdi 104), .mov (.mem rsi 0) r8,
   .mov (.mem rsi 8) r9, .mov (.mem rsi 16) r10, .mov (.mem rsi 24) r11, .mov (.mem rsi 32) r12, .mov (.mem rsi 40) r13, .mov (.mem rsi 48) r14,
   .mov rax (.mem rdi 0), .mov r10 (.mem rdi 8), .mov r12 (.mem rdi 16), .mov r13 (.mem rdi 24), .mov r14 (.mem rdi 32), .sub rax (.mem rdi 56),
   .sbb r10 (.mem rdi 64), .sbb r12 (.mem rdi 72), .push r15, .sbb r13 (.mem rdi 80), .sbb r14 (.mem rdi 88), .mov r15 (.mem rdi 40),
   .mov rcx (.mem rdi 48), .sbb r15 (.mem rdi 96), .sbb rcx (.mem rdi 104), .add rax (.tab .x4 0), .mov rdx (.tab .x4 1),
   .adc r10 rdx, .adc r12 rdx, .adc r13 (.tab .x4 3), .adc r14 (.tab .x4 4), .adc r15 (.tab .x4 5),
   .adc rcx (.tab .x4 6), .mov (.mem rsi 56) rax, .mov rdx r8, .mulx r9 r8 rax, .mov (.mem rsi 64) r10, .xor rax rax,
   .push rbx, .mulx r10 r11 r10, .mov (.mem rsi 72) r12, .adox r9 r11, .mulx r11 r12 r12, .mov (.mem rsi 80) r13,
   .adox r10 r12, .mulx r12 r13 r13, .mov (.mem rsi 88) r14, .adox r11 r13, .mulx r13 r14 r14, .mov (.mem rsi 96) r15,
   .adox r12 r14, .mulx r14 r15 r15, .mov (.mem rsi 104) rcx, .adox r13 r15, .mulx r15 rbx rcx, .adox r14 rbx,
   .adox r15 rax] ++
  FPMUL448x448 (.mem rsi 0) (.mem rsi 56) r8 r9 r10 r11 r12 r13 r14 r15 rbx rcx ++
  [.mov (.mem rsi 0) r15, .mov (.mem rsi 8) r8, .mov (.mem rsi 16) r9, .mov (.mem rsi 24) r10, .mov (.mem rsi 32) r11, .mov (.mem rsi 40) r12,
   .mov (.mem rsi 48) r13, .pop rbx, .pop r15, .pop r14, .pop r13, .pop r12, .ret]

/-- `P434/AMD64/fp_x64_asm.S:699-761` -/
def fp2sqr434_c1_asm : List Instr :=
  [.push r12, .mov r8 (.mem rdi 0), .mov r9 (.mem rdi 8), .mov r10 (.mem rdi 16), .mov r11 (.mem rdi 24), .mov r12 (.mem rdi 32),
   .add r8 r8, .push r13, .adc r9 r9, .adc r10 r10, .push r14, .adc r11 r11, .mov r13 (.mem rdi 40), .mov r14 (.mem rdi 48),
   .adc r12 r12, .push r15, .adc r13 r13, .push rbx, .adc r14 r14, .sub rsp (.imm 56), .mov (.mem rsp 8) r9,
   .mov (.mem rsp 16) r10, .mov rdx r8, .mulx r9 r8 (.mem rdi 56), .mov (.mem rsp 24) r11, .xor rax rax, .mulx r10 r11 (.mem rdi 64),
   .mov (.mem rsp 32) r12, .adox r9 r11, .mulx r11 r12 (.mem rdi 72), .mov (.mem rsp 40) r13, .adox r10 r12,
   .mulx r12 r13 (.mem rdi 80), .mov (.mem rsp 48) r14, .adox r11 r13, .mulx r13 r14 (.mem rdi 88), .adox r12 r14,
   .mulx r14 r15 (.mem rdi 96), .adox r13 r15, .mulx r15 rbx (.mem rdi 104), .adox r14 rbx, .adox r15 rax] ++
  FPMUL448x448 (.mem rsp 0) (.mem rdi 56) r8 r9 r10 r11 r12 r13 r14 r15 rbx rcx ++
  [.add rsp (.imm 56), .mov (.mem rsi 0) r15, .mov (.mem rsi 8) r8, .mov (.mem rsi 16) r9, .mov (.mem rsi 24) r10, .mov (.mem rsi 32) r11,
   .mov (.mem rsi 40) r12, .mov (.mem rsi 48) r13, .pop rbx, .pop r15, .pop r14, .pop r13, .pop r12, .ret]

/-- `P434/AMD64/fp_x64_asm.S:771-813` -/
def fpmul434_asm : List Instr :=
  [.mov rcx rdx, .mov rdx (.mem rsi 0), .mulx r9 r8 (.mem rdi 0), .push r12, .xor rax rax, .mulx r10 r11 (.mem rdi 8), .push r13,
   .adox r9 r11, .mulx r11 r12 (.mem rdi 16), .push r14, .adox r10 r12, .mulx r12 r13 (.mem rdi 24), .push r15,
   .adox r11 r13, .mulx r13 r14 (.mem rdi 32), .push rbx, .adox r12 r14, .mulx r14 r15 (.mem rdi 40), .push rbp,
   .adox r13 r15, .mulx r15 rbx (.mem rdi 48), .adox r14 rbx, .adox r15 rax] ++
  FPMUL448x448 (.mem rsi 0) (.mem rdi 0) r8 r9 r10 r11 r12 r13 r14 r15 rbx rbp ++
  [.mov (.mem rcx 0) r15, .mov (.mem rcx 8) r8, .mov (.mem rcx 16) r9, .mov (.mem rcx 24) r10, .mov (.mem rcx 32) r11, .mov (.mem rcx 40) r12,
   .mov (.mem rcx 48) r13, .pop rbp, .pop rbx, .pop r15, .pop r14, .pop r13, .pop r12, .ret]

end Secuer.X64.P434
