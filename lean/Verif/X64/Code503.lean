import Verif.X64.Model

/-!
# The field arithmetic of `P503/AMD64/fp_x64_asm.S`

The macros and functions of this file for Linux with `_MULX_` and `_ADX_` defined (the default of the Makefile), transcribed
instruction by instruction.  `reg_p1`, `reg_p2` and `reg_p3` are `rdi`, `rsi` and `rdx`; `8\M1` is `M1.at 8`;
`[rip+fmt(p503x2)+8*i]` is `.tab .x2 i`.
-/

namespace Secuer.X64.P503

open Reg

/-- `P503/AMD64/fp_x64_asm.S:32-58` -/
def mp_add503_asm : List Instr :=
  [.mov r8 (.mem rdi 0), .mov r9 (.mem rdi 8), .mov r10 (.mem rdi 16), .mov r11 (.mem rdi 24), .add r8 (.mem rsi 0), .adc r9 (.mem rsi 8),
   .adc r10 (.mem rsi 16), .adc r11 (.mem rsi 24), .mov (.mem rdx 0) r8, .mov (.mem rdx 8) r9, .mov (.mem rdx 16) r10, .mov (.mem rdx 24) r11,
   .mov r8 (.mem rdi 32), .mov r9 (.mem rdi 40), .mov r10 (.mem rdi 48), .mov r11 (.mem rdi 56), .adc r8 (.mem rsi 32), .adc r9 (.mem rsi 40),
   .adc r10 (.mem rsi 48), .adc r11 (.mem rsi 56), .mov (.mem rdx 32) r8, .mov (.mem rdx 40) r9, .mov (.mem rdx 48) r10, .mov (.mem rdx 56) r11,
   .ret]

/-- `P503/AMD64/fp_x64_asm.S:66-147` -/
def fpadd503_asm : List Instr :=
  [.push r12, .push r13, .push r14, .push r15, .xor rax rax, .mov r8 (.mem rdi 0), .mov r9 (.mem rdi 8), .mov r10 (.mem rdi 16),
   .mov r11 (.mem rdi 24), .mov r12 (.mem rdi 32), .mov r13 (.mem rdi 40), .mov r14 (.mem rdi 48), .mov r15 (.mem rdi 56), .add r8 (.mem rsi 0),
   .adc r9 (.mem rsi 8), .adc r10 (.mem rsi 16), .adc r11 (.mem rsi 24), .adc r12 (.mem rsi 32), .adc r13 (.mem rsi 40), .adc r14 (.mem rsi 48),
   .adc r15 (.mem rsi 56), .mov rcx (.tab .x2 0), .sub r8 rcx, .mov rcx (.tab .x2 1), .sbb r9 rcx, .sbb r10 rcx,
   .mov rcx (.tab .x2 3), .sbb r11 rcx, .mov rcx (.tab .x2 4), .sbb r12 rcx, .mov rcx (.tab .x2 5), .sbb r13 rcx,
   .mov rcx (.tab .x2 6), .sbb r14 rcx, .mov rcx (.tab .x2 7), .sbb r15 rcx, .sbb rax (.imm 0),
   .mov rdi (.tab .x2 0), .and rdi rax, .mov rsi (.tab .x2 1), .and rsi rax, .mov rcx (.tab .x2 3), .and rcx rax,
   .add r8 rdi, .adc r9 rsi, .adc r10 rsi, .adc r11 rcx, .mov (.mem rdx 0) r8, .mov (.mem rdx 8) r9, .mov (.mem rdx 16) r10,
   .mov (.mem rdx 24) r11, .setc rcx, .mov r8 (.tab .x2 4), .and r8 rax, .mov r9 (.tab .x2 5), .and r9 rax,
   .mov r10 (.tab .x2 6), .and r10 rax, .mov r11 (.tab .x2 7), .and r11 rax, .bt rcx, .adc r12 r8, .adc r13 r9,
   .adc r14 r10, .adc r15 r11, .mov (.mem rdx 32) r12, .mov (.mem rdx 40) r13, .mov (.mem rdx 48) r14, .mov (.mem rdx 56) r15,
   .pop r15, .pop r14, .pop r13, .pop r12, .ret]

/-- `P503/AMD64/fp_x64_asm.S:155-220` -/
def fpsub503_asm : List Instr :=
  [.push r12, .push r13, .push r14, .push r15, .xor rax rax, .mov r8 (.mem rdi 0), .mov r9 (.mem rdi 8), .mov r10 (.mem rdi 16),
   .mov r11 (.mem rdi 24), .mov r12 (.mem rdi 32), .mov r13 (.mem rdi 40), .mov r14 (.mem rdi 48), .mov r15 (.mem rdi 56), .sub r8 (.mem rsi 0),
   .sbb r9 (.mem rsi 8), .sbb r10 (.mem rsi 16), .sbb r11 (.mem rsi 24), .sbb r12 (.mem rsi 32), .sbb r13 (.mem rsi 40), .sbb r14 (.mem rsi 48),
   .sbb r15 (.mem rsi 56), .sbb rax (.imm 0), .mov rdi (.tab .x2 0), .and rdi rax, .mov rsi (.tab .x2 1), .and rsi rax,
   .mov rcx (.tab .x2 3), .and rcx rax, .add r8 rdi, .adc r9 rsi, .adc r10 rsi, .adc r11 rcx, .mov (.mem rdx 0) r8,
   .mov (.mem rdx 8) r9, .mov (.mem rdx 16) r10, .mov (.mem rdx 24) r11, .setc rcx, .mov r8 (.tab .x2 4), .and r8 rax,
   .mov r9 (.tab .x2 5), .and r9 rax, .mov r10 (.tab .x2 6), .and r10 rax, .mov r11 (.tab .x2 7), .and r11 rax,
   .bt rcx, .adc r12 r8, .adc r13 r9, .adc r14 r10, .adc r15 r11, .mov (.mem rdx 32) r12, .mov (.mem rdx 40) r13,
   .mov (.mem rdx 48) r14, .mov (.mem rdx 56) r15, .pop r15, .pop r14, .pop r13, .pop r12, .ret]

/-- The macro `SUB503_PX`: `P503/AMD64/fp_x64_asm.S:224-273` -/
def SUB503_PX (P0 : Tab) : List Instr :=
  [.push r12, .push r13, .push r14, .mov r8 (.mem rdi 0), .mov r9 (.mem rdi 8), .mov r10 (.mem rdi 16), .mov r11 (.mem rdi 24),
   .mov r12 (.mem rdi 32), .mov r13 (.mem rdi 40), .mov r14 (.mem rdi 48), .mov rcx (.mem rdi 56), .sub r8 (.mem rsi 0), .sbb r9 (.mem rsi 8),
   .sbb r10 (.mem rsi 16), .sbb r11 (.mem rsi 24), .sbb r12 (.mem rsi 32), .sbb r13 (.mem rsi 40), .sbb r14 (.mem rsi 48),
   .sbb rcx (.mem rsi 56), .mov rax (.tab P0 0), .mov rdi (.tab P0 1), .mov rsi (.tab P0 3), .add r8 rax,
   .mov rax (.tab P0 4), .adc r9 rdi, .adc r10 rdi, .adc r11 rsi, .adc r12 rax, .mov rdi (.tab P0 5),
   .mov rsi (.tab P0 6), .mov rax (.tab P0 7), .adc r13 rdi, .adc r14 rsi, .adc rcx rax, .mov (.mem rdx 0) r8,
   .mov (.mem rdx 8) r9, .mov (.mem rdx 16) r10, .mov (.mem rdx 24) r11, .mov (.mem rdx 32) r12, .mov (.mem rdx 40) r13, .mov (.mem rdx 48) r14,
   .mov (.mem rdx 56) rcx, .pop r14, .pop r13, .pop r12]

/-- `P503/AMD64/fp_x64_asm.S:281-284` -/
def mp_sub503_p2_asm : List Instr :=
  SUB503_PX .x2 ++
  [.ret]

/-- The macro `MULADD64x512`: `P503/AMD64/fp_x64_asm.S:298-325` -/
def MULADD64x512 (M1 Z0 Z1 Z2 Z3 Z4 Z5 Z6 Z7 Z8 : Opd) (T0 T1 : Reg) (C : Opd) : List Instr :=
  [.xor C C, .mulx T0 T1 M1, .adox Z0 T1, .adox Z1 T0, .mulx T0 T1 (M1.at 8), .adcx Z1 T1, .adox Z2 T0,
   .mulx T0 T1 (M1.at 16), .adcx Z2 T1, .adox Z3 T0, .mulx T0 T1 (M1.at 24), .adcx Z3 T1, .adox Z4 T0,
   .mulx T0 T1 (M1.at 32), .adcx Z4 T1, .adox Z5 T0, .mulx T0 T1 (M1.at 40), .adcx Z5 T1, .adox Z6 T0,
   .mulx T0 T1 (M1.at 48), .adcx Z6 T1, .adox Z7 T0, .mulx T0 T1 (M1.at 56), .adcx Z7 T1, .adox Z8 T0,
   .adc Z8 (.imm 0)]

/-- The macro `MULADD64x320`: `P503/AMD64/fp_x64_asm.S:328-346` -/
def MULADD64x320 (M1 Z0 Z1 Z2 Z3 Z4 Z5 : Opd) (T0 T1 : Reg) : List Instr :=
  [.xor T0 T0, .mulx T0 T1 M1, .adox Z0 T1, .adox Z1 T0, .mulx T0 T1 (M1.at 8), .adcx Z1 T1, .adox Z2 T0,
   .mulx T0 T1 (M1.at 16), .adcx Z2 T1, .adox Z3 T0, .mulx T0 T1 (M1.at 24), .adcx Z3 T1, .adox Z4 T0,
   .mulx T0 T1 (M1.at 32), .adcx Z4 T1, .adox Z5 T0, .adc Z5 (.imm 0)]

/-- The macro `FPDBLMUL512x512`: `P503/AMD64/fp_x64_asm.S:357-428` -/
def FPDBLMUL512x512 (M00 M01 M10 M11 Z0 Z1 Z2 Z3 Z4 Z5 Z6 Z7 Z8 : Opd) (T0 T1 : Reg) : List Instr :=
  [.mov rdx M11] ++
  MULADD64x512 M01 Z0 Z1 Z2 Z3 Z4 Z5 Z6 Z7 Z8 T0 T1 T0 ++
  [.mov rdx Z0] ++
  MULADD64x320 (.tab .p1 3) Z3 Z4 Z5 Z6 Z7 Z8 T0 T1 ++
  [.mov rdx (M10.at 8)] ++
  MULADD64x512 M00 Z1 Z2 Z3 Z4 Z5 Z6 Z7 Z8 Z0 T0 T1 Z0 ++
  [.mov rdx (M11.at 8)] ++
  MULADD64x512 M01 Z1 Z2 Z3 Z4 Z5 Z6 Z7 Z8 Z0 T0 T1 T0 ++
  [.mov rdx Z1] ++
  MULADD64x320 (.tab .p1 3) Z4 Z5 Z6 Z7 Z8 Z0 T0 T1 ++
  [.mov rdx (M10.at 16)] ++
  MULADD64x512 M00 Z2 Z3 Z4 Z5 Z6 Z7 Z8 Z0 Z1 T0 T1 Z1 ++
  [.mov rdx (M11.at 16)] ++
  MULADD64x512 M01 Z2 Z3 Z4 Z5 Z6 Z7 Z8 Z0 Z1 T0 T1 T0 ++
  [.mov rdx Z2] ++
  MULADD64x320 (.tab .p1 3) Z5 Z6 Z7 Z8 Z0 Z1 T0 T1 ++
  [.mov rdx (M10.at 24)] ++
  MULADD64x512 M00 Z3 Z4 Z5 Z6 Z7 Z8 Z0 Z1 Z2 T0 T1 Z2 ++
  [.mov rdx (M11.at 24)] ++
  MULADD64x512 M01 Z3 Z4 Z5 Z6 Z7 Z8 Z0 Z1 Z2 T0 T1 T0 ++
  [.mov rdx Z3] ++
  MULADD64x320 (.tab .p1 3) Z6 Z7 Z8 Z0 Z1 Z2 T0 T1 ++
  [.mov rdx (M10.at 32)] ++
  MULADD64x512 M00 Z4 Z5 Z6 Z7 Z8 Z0 Z1 Z2 Z3 T0 T1 Z3 ++
  [.mov rdx (M11.at 32)] ++
  MULADD64x512 M01 Z4 Z5 Z6 Z7 Z8 Z0 Z1 Z2 Z3 T0 T1 T0 ++
  [.mov rdx Z4] ++
  MULADD64x320 (.tab .p1 3) Z7 Z8 Z0 Z1 Z2 Z3 T0 T1 ++
  [.mov rdx (M10.at 40)] ++
  MULADD64x512 M00 Z5 Z6 Z7 Z8 Z0 Z1 Z2 Z3 Z4 T0 T1 Z4 ++
  [.mov rdx (M11.at 40)] ++
  MULADD64x512 M01 Z5 Z6 Z7 Z8 Z0 Z1 Z2 Z3 Z4 T0 T1 T0 ++
  [.mov rdx Z5] ++
  MULADD64x320 (.tab .p1 3) Z8 Z0 Z1 Z2 Z3 Z4 T0 T1 ++
  [.mov rdx (M10.at 48)] ++
  MULADD64x512 M00 Z6 Z7 Z8 Z0 Z1 Z2 Z3 Z4 Z5 T0 T1 Z5 ++
  [.mov rdx (M11.at 48)] ++
  MULADD64x512 M01 Z6 Z7 Z8 Z0 Z1 Z2 Z3 Z4 Z5 T0 T1 T0 ++
  [.mov rdx Z6] ++
  MULADD64x320 (.tab .p1 3) Z0 Z1 Z2 Z3 Z4 Z5 T0 T1 ++
  [.mov rdx (M10.at 56)] ++
  MULADD64x512 M00 Z7 Z8 Z0 Z1 Z2 Z3 Z4 Z5 Z6 T0 T1 Z6 ++
  [.mov rdx (M11.at 56)] ++
  MULADD64x512 M01 Z7 Z8 Z0 Z1 Z2 Z3 Z4 Z5 Z6 T0 T1 T0 ++
  [.mov rdx Z7, .mov (.mem rcx 0) Z8, .mov (.mem rcx 8) Z0] ++
  MULADD64x320 (.tab .p1 3) Z1 Z2 Z3 Z4 Z5 Z6 T0 T1

/-- `P503/AMD64/fp_x64_asm.S:439-517` -/
def fp2mul503_c0_asm : List Instr :=
  [.push r12, .mov rcx rdx, .mov r8 (.tab .x8 0), .mov r9 (.tab .x8 1), .mov r11 (.tab .x8 3),
   .mov r12 (.tab .x8 4), .mov rax (.mem rsi 64), .mov rdx (.mem rsi 72), .mov r10 r9, .sub r8 rax, .push r13, .sbb r9 rdx,
   .mov rax (.mem rsi 80), .mov rdx (.mem rsi 88), .sbb r10 rax, .push r14, .sbb r11 rdx, .mov rax (.mem rsi 96),
   .mov rdx (.mem rsi 104), .mov (.mem rcx 0) r8, .mov (.mem rcx 8) r9, .mov r13 (.tab .x8 5), .mov r14 (.tab .x8 6),
   .sbb r12 rax, .push r15, .sbb r13 rdx, .mov rax (.mem rsi 112), .mov rdx (.mem rsi 120), .mov r15 (.tab .x8 7),
   .sbb r14 rax, .sbb r15 rdx, .mov (.mem rcx 16) r10, .mov rdx (.mem rsi 0), .mulx r9 r8 (.mem rdi 0), .mov (.mem rcx 24) r11,
   .xor rax rax, .mulx r10 r11 (.mem rdi 8), .mov (.mem rcx 32) r12, .adcx r9 r11, .mulx r11 r12 (.mem rdi 16), .mov (.mem rcx 40) r13,
   .adcx r10 r12, .mulx r12 r13 (.mem rdi 24), .mov (.mem rcx 48) r14, .adcx r11 r13, .mulx r13 r14 (.mem rdi 32),
   .mov (.mem rcx 56) r15, .adcx r12 r14, .mulx r14 rax (.mem rdi 40), .push rbx, .adcx r13 rax, .mulx r15 rax (.mem rdi 48),
   .push rbp, .adcx r14 rax, .mulx rax rbx (.mem rdi 56), .mov rdx (.mem rcx 0), .adcx r15 rbx, .adc rax (.imm 0)] ++
  FPDBLMUL512x512 (.mem rdi 0) (.mem rdi 64) (.mem rsi 0) (.mem rcx 0) r8 r9 r10 r11 r12 r13 r14 r15 rax rbx rbp ++
  [.mov (.mem rcx 16) r9, .mov (.mem rcx 24) r10, .mov (.mem rcx 32) r11, .mov (.mem rcx 40) r12, .mov (.mem rcx 48) r13, .mov (.mem rcx 56) r14,
   .pop rbp, .pop rbx, .pop r15, .pop r14, .pop r13, .pop r12, .ret]

/-- `P503/AMD64/fp_x64_asm.S:528-571` -/
def fp2mul503_c1_asm : List Instr :=
  [.mov rcx rdx, .mov rdx (.mem rsi 0), .mulx r9 r8 (.mem rdi 64), .xor rax rax, .push r12, .mulx r10 r11 (.mem rdi 72),
   .push r13, .adcx r9 r11, .mulx r11 r12 (.mem rdi 80), .push r14, .adcx r10 r12, .mulx r12 r13 (.mem rdi 88), .push r15,
   .adcx r11 r13, .mulx r13 r14 (.mem rdi 96), .push rbx, .adcx r12 r14, .mulx r14 r15 (.mem rdi 104), .push rbp,
   .adcx r13 r15, .mulx r15 rbp (.mem rdi 112), .adcx r14 rbp, .mulx rax rbx (.mem rdi 120), .adcx r15 rbx,
   .adc rax (.imm 0)] ++
  FPDBLMUL512x512 (.mem rdi 64) (.mem rdi 0) (.mem rsi 0) (.mem rsi 64) r8 r9 r10 r11 r12 r13 r14 r15 rax rbx rbp ++
  [.mov (.mem rcx 16) r9, .mov (.mem rcx 24) r10, .mov (.mem rcx 32) r11, .mov (.mem rcx 40) r12, .mov (.mem rcx 48) r13, .mov (.mem rcx 56) r14,
   .pop rbp, .pop rbx, .pop r15, .pop r14, .pop r13, .pop r12, .ret]

/-- The macro `FPMUL512x512`: `P503/AMD64/fp_x64_asm.S:1385-1438` -/
def FPMUL512x512 (M0 M1 Z0 Z1 Z2 Z3 Z4 Z5 Z6 Z7 Z8 : Opd) (T0 T1 : Reg) : List Instr :=
  [.mov rdx Z0] ++
  MULADD64x320 (.tab .p1 3) Z3 Z4 Z5 Z6 Z7 Z8 T0 T1 ++
  [.mov rdx (M0.at 8)] ++
  MULADD64x512 M1 Z1 Z2 Z3 Z4 Z5 Z6 Z7 Z8 Z0 T0 T1 Z0 ++
  [.mov rdx Z1] ++
  MULADD64x320 (.tab .p1 3) Z4 Z5 Z6 Z7 Z8 Z0 T0 T1 ++
  [.mov rdx (M0.at 16)] ++
  MULADD64x512 M1 Z2 Z3 Z4 Z5 Z6 Z7 Z8 Z0 Z1 T0 T1 Z1 ++
  [.mov rdx Z2] ++
  MULADD64x320 (.tab .p1 3) Z5 Z6 Z7 Z8 Z0 Z1 T0 T1 ++
  [.mov rdx (M0.at 24)] ++
  MULADD64x512 M1 Z3 Z4 Z5 Z6 Z7 Z8 Z0 Z1 Z2 T0 T1 Z2 ++
  [.mov rdx Z3] ++
  MULADD64x320 (.tab .p1 3) Z6 Z7 Z8 Z0 Z1 Z2 T0 T1 ++
  [.mov rdx (M0.at 32)] ++
  MULADD64x512 M1 Z4 Z5 Z6 Z7 Z8 Z0 Z1 Z2 Z3 T0 T1 Z3 ++
  [.mov rdx Z4] ++
  MULADD64x320 (.tab .p1 3) Z7 Z8 Z0 Z1 Z2 Z3 T0 T1 ++
  [.mov rdx (M0.at 40)] ++
  MULADD64x512 M1 Z5 Z6 Z7 Z8 Z0 Z1 Z2 Z3 Z4 T0 T1 Z4 ++
  [.mov rdx Z5] ++
  MULADD64x320 (.tab .p1 3) Z8 Z0 Z1 Z2 Z3 Z4 T0 T1 ++
  [.mov rdx (M0.at 48)] ++
  MULADD64x512 M1 Z6 Z7 Z8 Z0 Z1 Z2 Z3 Z4 Z5 T0 T1 Z5 ++
  [.mov rdx Z6] ++
  MULADD64x320 (.tab .p1 3) Z0 Z1 Z2 Z3 Z4 Z5 T0 T1 ++
  [.mov rdx (M0.at 56)] ++
  MULADD64x512 M1 Z7 Z8 Z0 Z1 Z2 Z3 Z4 Z5 Z6 T0 T1 Z6 ++
  [.mov rdx Z7] ++
  MULADD64x320 (.tab .p1 3) Z1 Z2 Z3 Z4 Z5 Z6 T0 T1

/-- `P503/AMD64/fp_x64_asm.S:1448-1552` -/
def fp2sqr503_c0_asm : List Instr :=
  [.push r12, .push r13, .mov r8 (.mem rdi 0), .mov r9 (.mem rdi 8), .mov r10 (.mem rdi 16), .mov r11 (.mem rdi 24), .mov r12 (.mem rdi 32),
   .mov r13 (.mem rdi 40), .add r8 (.mem rdi 64), .adc r9 (.mem rdi 72), .push r14, .adc r10 (.mem rdi 80), .adc r11 (.mem rdi 88),
   .push r15, .adc r12 (.mem rdi 96), .adc r13 (.mem rdi 104), .mov r14 (.mem rdi 48), .mov r15 (.mem rdi 56), .adc r14 (.mem rdi 112),
   .adc r15 (.mem rdi 120), .mov (.mem rsi 8) r9, .mov (.mem rsi 16) r10, .mov (.mem rsi 24) r11, .mov (.mem rsi 32) r12, .mov (.mem rsi 40) r13,
   .mov (.mem rsi 48) r14, .mov (.mem rsi 56) r15, .mov rcx (.mem rdi 0), .mov r10 (.mem rdi 8), .mov r12 (.mem rdi 16), .mov r13 (.mem rdi 24),
   .mov r14 (.mem rdi 32), .mov r15 (.mem rdi 40), .sub rcx (.mem rdi 64), .sbb r10 (.mem rdi 72), .push rbx, .sbb r12 (.mem rdi 80),
   .sbb r13 (.mem rdi 88), .push rbp, .sbb r14 (.mem rdi 96), .sbb r15 (.mem rdi 104), .mov rbx (.mem rdi 48), .mov rbp (.mem rdi 56),
   .sbb rbx (.mem rdi 112), .sbb rbp (.mem rdi 120), .add rcx (.tab .x4 0), .mov rdx (.tab .x4 1), .adc r10 rdx,
   .adc r12 rdx, .adc r13 (.tab .x4 3), .adc r14 (.tab .x4 4), .adc r15 (.tab .x4 5), .adc rbx (.tab .x4 6),
   .adc rbp (.tab .x4 7), .mov (.mem rsi 64) rcx, .mov (.mem rsi 72) r10, .mov rdx r8, .mulx r9 r8 rcx, .xor rax rax,
   .mov (.mem rsi 80) r12, .mulx r10 r11 r10, .mov (.mem rsi 88) r13, .adox r9 r11, .mulx r11 r12 r12, .mov (.mem rsi 96) r14,
   .adox r10 r12, .mulx r12 r13 r13, .mov (.mem rsi 104) r15, .adox r11 r13, .mulx r13 r14 r14, .mov (.mem rsi 112) rbx,
   .adox r12 r14, .mulx r14 r15 r15, .mov (.mem rsi 120) rbp, .adox r13 r15, .mulx r15 rbp rbx, .adox r14 rbp,
   .mulx rbp rbx (.mem rsi 120), .adox r15 rbx, .adox rbp rax] ++
  FPMUL512x512 (.mem rsi 0) (.mem rsi 64) r8 r9 r10 r11 r12 r13 r14 r15 rbp rbx rcx ++
  [.mov (.mem rsi 0) rbp, .mov (.mem rsi 8) r8, .mov (.mem rsi 16) r9, .mov (.mem rsi 24) r10, .mov (.mem rsi 32) r11, .mov (.mem rsi 40) r12,
   .mov (.mem rsi 48) r13, .mov (.mem rsi 56) r14, .pop rbp, .pop rbx, .pop r15, .pop r14, .pop r13, .pop r12, .ret]

/-- `P503/AMD64/fp_x64_asm.S:1562-1632` -/
def fp2sqr503_c1_asm : List Instr :=
  [.push r12, .push r13, .mov r8 (.mem rdi 0), .mov r9 (.mem rdi 8), .mov r10 (.mem rdi 16), .mov r11 (.mem rdi 24), .mov r12 (.mem rdi 32),
   .mov r13 (.mem rdi 40), .add r8 r8, .adc r9 r9, .push r14, .adc r10 r10, .adc r11 r11, .push r15, .adc r12 r12,
   .mov r14 (.mem rdi 48), .mov r15 (.mem rdi 56), .adc r13 r13, .push rbx, .adc r14 r14, .push rbp, .adc r15 r15,
   .sub rsp (.imm 64), .mov (.mem rsp 8) r9, .mov (.mem rsp 16) r10, .mov rdx r8, .mulx r9 r8 (.mem rdi 64), .mov (.mem rsp 24) r11,
   .xor rax rax, .mulx r10 r11 (.mem rdi 72), .mov (.mem rsp 32) r12, .adox r9 r11, .mulx r11 r12 (.mem rdi 80),
   .mov (.mem rsp 40) r13, .adox r10 r12, .mulx r12 r13 (.mem rdi 88), .mov (.mem rsp 48) r14, .adox r11 r13,
   .mulx r13 r14 (.mem rdi 96), .mov (.mem rsp 56) r15, .adox r12 r14, .mulx r14 r15 (.mem rdi 104), .adox r13 r15,
   .mulx r15 rbp (.mem rdi 112), .adox r14 rbp, .mulx rbp rbx (.mem rdi 120), .adox r15 rbx, .adox rbp rax] ++
  FPMUL512x512 (.mem rsp 0) (.mem rdi 64) r8 r9 r10 r11 r12 r13 r14 r15 rbp rbx rcx ++
  [.mov (.mem rsi 0) rbp, .mov (.mem rsi 8) r8, .mov (.mem rsi 16) r9, .mov (.mem rsi 24) r10, .mov (.mem rsi 32) r11, .mov (.mem rsi 40) r12,
   .mov (.mem rsi 48) r13, .mov (.mem rsi 56) r14, .add rsp (.imm 64), .pop rbp, .pop rbx, .pop r15, .pop r14, .pop r13,
   .pop r12, .ret]

/-- `P503/AMD64/fp_x64_asm.S:1642-1687` -/
def fpmul503_asm : List Instr :=
  [.mov rcx rdx, .mov rdx (.mem rsi 0), .mulx r9 r8 (.mem rdi 0), .push r12, .xor rax rax, .mulx r10 r11 (.mem rdi 8), .push r13,
   .adox r9 r11, .mulx r11 r12 (.mem rdi 16), .push r14, .adox r10 r12, .mulx r12 r13 (.mem rdi 24), .push r15,
   .adox r11 r13, .mulx r13 r14 (.mem rdi 32), .push rbx, .adox r12 r14, .mulx r14 r15 (.mem rdi 40), .push rbp,
   .adox r13 r15, .mulx r15 rbx (.mem rdi 48), .adox r14 rbx, .mulx rbx rbp (.mem rdi 56), .adox r15 rbp, .adox rax rbx] ++
  FPMUL512x512 (.mem rsi 0) (.mem rdi 0) r8 r9 r10 r11 r12 r13 r14 r15 rax rbx rbp ++
  [.mov (.mem rcx 0) rax, .mov (.mem rcx 8) r8, .mov (.mem rcx 16) r9, .mov (.mem rcx 24) r10, .mov (.mem rcx 32) r11, .mov (.mem rcx 40) r12,
   .mov (.mem rcx 48) r13, .mov (.mem rcx 56) r14, .pop rbp, .pop rbx, .pop r15, .pop r14, .pop r13, .pop r12, .ret]

end Secuer.X64.P503
