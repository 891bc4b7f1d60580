import Verif.X64.Model

/-!
# The field arithmetic of `P610/AMD64/fp_x64_asm.S`

The macros and functions of this file for Linux with `_MULX_` and `_ADX_` defined (the default of the Makefile), transcribed
instruction by instruction.  `reg_p1`, `reg_p2` and `reg_p3` are `rdi`, `rsi` and `rdx`; `8\M1` is `M1.at 8`;
`[rip+fmt(p610x2)+8*i]` is `.tab .x2 i`.
-/

namespace Secuer.X64.P610

open Reg

/-- `P610/AMD64/fp_x64_asm.S:32-64` -/
def mp_add610_asm : List Instr :=
  [.mov r8 (.mem rdi 0), .mov r9 (.mem rdi 8), .mov r10 (.mem rdi 16), .mov r11 (.mem rdi 24), .mov rax (.mem rdi 32), .add r8 (.mem rsi 0),
   .adc r9 (.mem rsi 8), .adc r10 (.mem rsi 16), .adc r11 (.mem rsi 24), .adc rax (.mem rsi 32), .mov (.mem rdx 0) r8, .mov (.mem rdx 8) r9,
   .mov (.mem rdx 16) r10, .mov (.mem rdx 24) r11, .mov (.mem rdx 32) rax, .mov r8 (.mem rdi 40), .mov r9 (.mem rdi 48), .mov r10 (.mem rdi 56),
   .mov r11 (.mem rdi 64), .mov rax (.mem rdi 72), .adc r8 (.mem rsi 40), .adc r9 (.mem rsi 48), .adc r10 (.mem rsi 56), .adc r11 (.mem rsi 64),
   .adc rax (.mem rsi 72), .mov (.mem rdx 40) r8, .mov (.mem rdx 48) r9, .mov (.mem rdx 56) r10, .mov (.mem rdx 64) r11, .mov (.mem rdx 72) rax,
   .ret]

/-- `P610/AMD64/fp_x64_asm.S:72-170` -/
def fpadd610_asm : List Instr :=
  [.push r12, .push r13, .push r14, .push r15, .mov r8 (.mem rdi 0), .mov r9 (.mem rdi 8), .mov r10 (.mem rdi 16),
   .mov r11 (.mem rdi 24), .mov r12 (.mem rdi 32), .mov r13 (.mem rdi 40), .mov r14 (.mem rdi 48), .mov r15 (.mem rdi 56),
   .mov rcx (.mem rdi 64), .mov rdi (.mem rdi 72), .add r8 (.mem rsi 0), .adc r9 (.mem rsi 8), .adc r10 (.mem rsi 16), .adc r11 (.mem rsi 24),
   .adc r12 (.mem rsi 32), .adc r13 (.mem rsi 40), .adc r14 (.mem rsi 48), .adc r15 (.mem rsi 56), .adc rcx (.mem rsi 64),
   .adc rdi (.mem rsi 72), .mov rax (.tab .x2 0), .sub r8 rax, .mov rax (.tab .x2 1), .sbb r9 rax, .sbb r10 rax,
   .sbb r11 rax, .mov rax (.tab .x2 4), .sbb r12 rax, .mov rax (.tab .x2 5), .sbb r13 rax, .mov rax (.tab .x2 6),
   .sbb r14 rax, .mov rax (.tab .x2 7), .sbb r15 rax, .mov rax (.tab .x2 8), .sbb rcx rax, .mov rax (.tab .x2 9),
   .sbb rdi rax, .mov (.mem rdx 64) rcx, .mov (.mem rdx 72) rdi, .mov rax (.imm 0), .sbb rax (.imm 0), .mov rsi (.tab .x2 0),
   .and rsi rax, .mov rdi (.tab .x2 1), .and rdi rax, .add r8 rsi, .adc r9 rdi, .adc r10 rdi, .adc r11 rdi,
   .mov (.mem rdx 0) r8, .mov (.mem rdx 8) r9, .mov (.mem rdx 16) r10, .mov (.mem rdx 24) r11, .setc rcx, .mov rdi (.tab .x2 4),
   .and rdi rax, .mov rsi (.tab .x2 5), .and rsi rax, .mov r8 (.tab .x2 6), .and r8 rax, .mov r9 (.tab .x2 7),
   .and r9 rax, .mov r10 (.tab .x2 8), .and r10 rax, .mov r11 (.tab .x2 9), .and r11 rax, .bt rcx, .adc r12 rdi,
   .adc r13 rsi, .adc r14 r8, .adc r15 r9, .mov rsi (.mem rdx 64), .mov rdi (.mem rdx 72), .adc rsi r10, .adc rdi r11,
   .mov (.mem rdx 32) r12, .mov (.mem rdx 40) r13, .mov (.mem rdx 48) r14, .mov (.mem rdx 56) r15, .mov (.mem rdx 64) rsi,
   .mov (.mem rdx 72) rdi, .pop r15, .pop r14, .pop r13, .pop r12, .ret]

/-- `P610/AMD64/fp_x64_asm.S:178-257` -/
def fpsub610_asm : List Instr :=
  [.push r12, .push r13, .push r14, .push r15, .mov r8 (.mem rdi 0), .mov r9 (.mem rdi 8), .mov r10 (.mem rdi 16),
   .mov r11 (.mem rdi 24), .mov r12 (.mem rdi 32), .mov r13 (.mem rdi 40), .mov r14 (.mem rdi 48), .mov r15 (.mem rdi 56),
   .mov rcx (.mem rdi 64), .mov rdi (.mem rdi 72), .sub r8 (.mem rsi 0), .sbb r9 (.mem rsi 8), .sbb r10 (.mem rsi 16), .sbb r11 (.mem rsi 24),
   .sbb r12 (.mem rsi 32), .sbb r13 (.mem rsi 40), .sbb r14 (.mem rsi 48), .sbb r15 (.mem rsi 56), .sbb rcx (.mem rsi 64),
   .sbb rdi (.mem rsi 72), .mov (.mem rdx 64) rcx, .mov (.mem rdx 72) rdi, .mov rax (.imm 0), .sbb rax (.imm 0),
   .mov rsi (.tab .x2 0), .and rsi rax, .mov rdi (.tab .x2 1), .and rdi rax, .add r8 rsi, .adc r9 rdi,
   .adc r10 rdi, .adc r11 rdi, .mov (.mem rdx 0) r8, .mov (.mem rdx 8) r9, .mov (.mem rdx 16) r10, .mov (.mem rdx 24) r11, .setc rcx,
   .mov rdi (.tab .x2 4), .and rdi rax, .mov rsi (.tab .x2 5), .and rsi rax, .mov r8 (.tab .x2 6), .and r8 rax,
   .mov r9 (.tab .x2 7), .and r9 rax, .mov r10 (.tab .x2 8), .and r10 rax, .mov r11 (.tab .x2 9), .and r11 rax,
   .bt rcx, .adc r12 rdi, .adc r13 rsi, .adc r14 r8, .adc r15 r9, .mov rsi (.mem rdx 64), .mov rdi (.mem rdx 72),
   .adc rsi r10, .adc rdi r11, .mov (.mem rdx 32) r12, .mov (.mem rdx 40) r13, .mov (.mem rdx 48) r14, .mov (.mem rdx 56) r15,
   .mov (.mem rdx 64) rsi, .mov (.mem rdx 72) rdi, .pop r15, .pop r14, .pop r13, .pop r12, .ret]

/-- The macro `SUB610_PX`: `P610/AMD64/fp_x64_asm.S:261-321` -/
def SUB610_PX (P0 : Tab) : List Instr :=
  [.push r12, .push r13, .push r14, .push r15, .mov r8 (.mem rdi 0), .mov r9 (.mem rdi 8), .mov r10 (.mem rdi 16),
   .mov r11 (.mem rdi 24), .mov r12 (.mem rdi 32), .mov r13 (.mem rdi 40), .mov r14 (.mem rdi 48), .mov r15 (.mem rdi 56),
   .mov rax (.mem rdi 64), .mov rcx (.mem rdi 72), .sub r8 (.mem rsi 0), .sbb r9 (.mem rsi 8), .sbb r10 (.mem rsi 16), .sbb r11 (.mem rsi 24),
   .sbb r12 (.mem rsi 32), .sbb r13 (.mem rsi 40), .sbb r14 (.mem rsi 48), .sbb r15 (.mem rsi 56), .sbb rax (.mem rsi 64),
   .sbb rcx (.mem rsi 72), .mov rdi (.tab P0 0), .mov rsi (.tab P0 1), .add r8 rdi, .adc r9 rsi, .adc r10 rsi,
   .adc r11 rsi, .mov rdi (.tab P0 4), .mov rsi (.tab P0 5), .adc r12 rdi, .adc r13 rsi, .mov (.mem rdx 0) r8,
   .mov (.mem rdx 8) r9, .mov (.mem rdx 16) r10, .mov (.mem rdx 24) r11, .mov (.mem rdx 32) r12, .mov (.mem rdx 40) r13,
   .mov rdi (.tab P0 6), .mov rsi (.tab P0 7), .adc r14 rdi, .adc r15 rsi, .mov rdi (.tab P0 8),
   .mov rsi (.tab P0 9), .adc rax rdi, .adc rcx rsi, .mov (.mem rdx 48) r14, .mov (.mem rdx 56) r15, .mov (.mem rdx 64) rax,
   .mov (.mem rdx 72) rcx, .pop r15, .pop r14, .pop r13, .pop r12]

/-- `P610/AMD64/fp_x64_asm.S:329-332` -/
def mp_sub610_p2_asm : List Instr :=
  SUB610_PX .x2 ++
  [.ret]

/-- The macro `MULADD64x640`: `P610/AMD64/fp_x64_asm.S:346-382` -/
def MULADD64x640 (M1 M Z3 Z4 Z5 Z6 Z7 Z8 Z9 Z10 : Opd) (T0 T1 T2 : Reg) (C : Opd) : List Instr :=
  [.mulx T0 T1 M1, .xor C C, .adox T1 M, .adox T0 (M.at 8), .mov M T1, .mulx T1 T2 (M1.at 8), .adcx T0 T2,
   .adox T1 (M.at 16), .mov (M.at 8) T0, .mulx T0 T2 (M1.at 16), .adcx T1 T2, .adox Z3 T0, .mov (M.at 16) T1,
   .mulx T0 T1 (M1.at 24), .adcx Z3 T1, .adox Z4 T0, .mulx T0 T1 (M1.at 32), .adcx Z4 T1, .adox Z5 T0,
   .mulx T0 T1 (M1.at 40), .adcx Z5 T1, .adox Z6 T0, .mulx T0 T1 (M1.at 48), .adcx Z6 T1, .adox Z7 T0,
   .mulx T0 T1 (M1.at 56), .adcx Z7 T1, .adox Z8 T0, .mulx T0 T1 (M1.at 64), .adcx Z8 T1, .adox Z9 T0,
   .mulx T0 T1 (M1.at 72), .adcx Z9 T1, .adox Z10 T0, .adc Z10 (.imm 0)]

/-- The macro `MULADD64x640b`: `P610/AMD64/fp_x64_asm.S:385-422` -/
def MULADD64x640b (M1 M MM Z3 Z4 Z5 Z6 Z7 Z8 Z9 Z10 : Opd) (T0 T1 T2 : Reg) (C : Opd) : List Instr :=
  [.mulx T0 T1 M1, .xor C C, .adox T1 M, .adox T0 (M.at 8), .mov (M.at 24) T1, .mulx T1 T2 (M1.at 8), .adcx T0 T2,
   .adox T1 (M.at 16), .mov MM T0, .mulx T0 T2 (M1.at 16), .adcx T1 T2, .adox Z3 T0, .mov (MM.at 8) T1,
   .mulx T0 T1 (M1.at 24), .adcx Z3 T1, .adox Z4 T0, .mulx T0 T1 (M1.at 32), .mov (MM.at 16) Z3, .adcx Z4 T1,
   .adox Z5 T0, .mulx T0 T1 (M1.at 40), .adcx Z5 T1, .adox Z6 T0, .mulx T0 T1 (M1.at 48), .adcx Z6 T1, .adox Z7 T0,
   .mulx T0 T1 (M1.at 56), .adcx Z7 T1, .adox Z8 T0, .mulx T0 T1 (M1.at 64), .adcx Z8 T1, .adox Z9 T0,
   .mulx T0 T1 (M1.at 72), .adcx Z9 T1, .adox Z10 T0, .adc Z10 (.imm 0)]

/-- The macro `MULADD64x384`: `P610/AMD64/fp_x64_asm.S:425-446` -/
def MULADD64x384 (M1 Z0 Z1 Z2 Z3 Z4 Z5 Z6 : Opd) (T0 T1 : Reg) : List Instr :=
  [.mulx T0 T1 M1, .xor rax rax, .adox Z0 T1, .adox Z1 T0, .mulx T0 T1 (M1.at 8), .adcx Z1 T1, .adox Z2 T0,
   .mulx T0 T1 (M1.at 16), .adcx Z2 T1, .adox Z3 T0, .mulx T0 T1 (M1.at 24), .adcx Z3 T1, .adox Z4 T0,
   .mulx T0 T1 (M1.at 32), .adcx Z4 T1, .adox Z5 T0, .mulx T0 T1 (M1.at 40), .adcx Z5 T1, .adox Z6 T0,
   .adc Z6 (.imm 0)]

/-- The macro `FPDBLMUL640x640`: `P610/AMD64/fp_x64_asm.S:457-544` -/
def FPDBLMUL640x640 (M00 M01 M10 M11 MM Z0 Z1 Z2 Z3 Z4 Z5 Z6 Z7 : Opd) (T0 T1 T2 : Reg) : List Instr :=
  [.mov rdx M11] ++
  MULADD64x640b M01 MM MM Z0 Z1 Z2 Z3 Z4 Z5 Z6 Z7 T0 T1 T2 T2 ++
  [.mov rdx (MM.at 24)] ++
  MULADD64x384 (.tab .p1 4) Z1 Z2 Z3 Z4 Z5 Z6 Z7 T0 T1 ++
  [.mov rdx (M10.at 8)] ++
  MULADD64x640 M00 MM Z1 Z2 Z3 Z4 Z5 Z6 Z7 Z0 T0 T1 T2 Z0 ++
  [.mov rdx (M11.at 8)] ++
  MULADD64x640b M01 MM MM Z1 Z2 Z3 Z4 Z5 Z6 Z7 Z0 T0 T1 T2 T2 ++
  [.mov rdx (MM.at 24)] ++
  MULADD64x384 (.tab .p1 4) Z2 Z3 Z4 Z5 Z6 Z7 Z0 T0 T1 ++
  [.mov rdx (M10.at 16)] ++
  MULADD64x640 M00 MM Z2 Z3 Z4 Z5 Z6 Z7 Z0 Z1 T0 T1 T2 Z1 ++
  [.mov rdx (M11.at 16)] ++
  MULADD64x640b M01 MM MM Z2 Z3 Z4 Z5 Z6 Z7 Z0 Z1 T0 T1 T2 T2 ++
  [.mov rdx (MM.at 24)] ++
  MULADD64x384 (.tab .p1 4) Z3 Z4 Z5 Z6 Z7 Z0 Z1 T0 T1 ++
  [.mov rdx (M10.at 24)] ++
  MULADD64x640 M00 MM Z3 Z4 Z5 Z6 Z7 Z0 Z1 Z2 T0 T1 T2 Z2 ++
  [.mov rdx (M11.at 24)] ++
  MULADD64x640b M01 MM MM Z3 Z4 Z5 Z6 Z7 Z0 Z1 Z2 T0 T1 T2 T2 ++
  [.mov rdx (MM.at 24)] ++
  MULADD64x384 (.tab .p1 4) Z4 Z5 Z6 Z7 Z0 Z1 Z2 T0 T1 ++
  [.mov rdx (M10.at 32)] ++
  MULADD64x640 M00 MM Z4 Z5 Z6 Z7 Z0 Z1 Z2 Z3 T0 T1 T2 Z3 ++
  [.mov rdx (M11.at 32)] ++
  MULADD64x640b M01 MM MM Z4 Z5 Z6 Z7 Z0 Z1 Z2 Z3 T0 T1 T2 T2 ++
  [.mov rdx (MM.at 24)] ++
  MULADD64x384 (.tab .p1 4) Z5 Z6 Z7 Z0 Z1 Z2 Z3 T0 T1 ++
  [.mov rdx (M10.at 40)] ++
  MULADD64x640 M00 MM Z5 Z6 Z7 Z0 Z1 Z2 Z3 Z4 T0 T1 T2 Z4 ++
  [.mov rdx (M11.at 40)] ++
  MULADD64x640b M01 MM MM Z5 Z6 Z7 Z0 Z1 Z2 Z3 Z4 T0 T1 T2 T2 ++
  [.mov rdx (MM.at 24)] ++
  MULADD64x384 (.tab .p1 4) Z6 Z7 Z0 Z1 Z2 Z3 Z4 T0 T1 ++
  [.mov rdx (M10.at 48)] ++
  MULADD64x640 M00 MM Z6 Z7 Z0 Z1 Z2 Z3 Z4 Z5 T0 T1 T2 Z5 ++
  [.mov rdx (M11.at 48)] ++
  MULADD64x640b M01 MM MM Z6 Z7 Z0 Z1 Z2 Z3 Z4 Z5 T0 T1 T2 T2 ++
  [.mov rdx (MM.at 24)] ++
  MULADD64x384 (.tab .p1 4) Z7 Z0 Z1 Z2 Z3 Z4 Z5 T0 T1 ++
  [.mov rdx (M10.at 56)] ++
  MULADD64x640 M00 MM Z7 Z0 Z1 Z2 Z3 Z4 Z5 Z6 T0 T1 T2 Z6 ++
  [.mov rdx (M11.at 56)] ++
  MULADD64x640b M01 MM MM Z7 Z0 Z1 Z2 Z3 Z4 Z5 Z6 T0 T1 T2 T2 ++
  [.mov rdx (MM.at 24)] ++
  MULADD64x384 (.tab .p1 4) Z0 Z1 Z2 Z3 Z4 Z5 Z6 T0 T1 ++
  [.mov rdx (M10.at 64)] ++
  MULADD64x640 M00 MM Z0 Z1 Z2 Z3 Z4 Z5 Z6 Z7 T0 T1 T2 Z7 ++
  [.mov rdx (M11.at 64)] ++
  MULADD64x640b M01 MM MM Z0 Z1 Z2 Z3 Z4 Z5 Z6 Z7 T0 T1 T2 T2 ++
  [.mov rdx (MM.at 24)] ++
  MULADD64x384 (.tab .p1 4) Z1 Z2 Z3 Z4 Z5 Z6 Z7 T0 T1 ++
  [.mov rdx (M10.at 72)] ++
  MULADD64x640 M00 MM Z1 Z2 Z3 Z4 Z5 Z6 Z7 Z0 T0 T1 T2 Z0 ++
  [.mov rdx (M11.at 72)] ++
  MULADD64x640b M01 MM (.mem rcx 0) Z1 Z2 Z3 Z4 Z5 Z6 Z7 Z0 T0 T1 T2 T2 ++
  [.mov rdx (MM.at 24)] ++
  MULADD64x384 (.tab .p1 4) Z2 Z3 Z4 Z5 Z6 Z7 Z0 T0 T1

/-- `P610/AMD64/fp_x64_asm.S:555-650` -/
def fp2mul610_c0_asm : List Instr :=
  [.push r12, .push r13, .push r14, .push r15, .push rbx, .push rbp, .sub rsp (.imm 80), .mov rcx rdx,
   .mov r8 (.tab .x8 0), .mov r9 (.tab .x8 1), .mov r12 (.tab .x8 4), .mov r13 (.tab .x8 5), .mov rax (.mem rsi 80),
   .mov rdx (.mem rsi 88), .mov r10 r9, .mov r11 r9, .sub r8 rax, .sbb r9 rdx, .mov rax (.mem rsi 96), .mov rdx (.mem rsi 104),
   .sbb r10 rax, .sbb r11 rdx, .mov rax (.mem rsi 112), .mov rdx (.mem rsi 120), .sbb r12 rax, .sbb r13 rdx, .mov (.mem rsp 0) r8,
   .mov (.mem rsp 8) r9, .mov (.mem rsp 16) r10, .mov (.mem rsp 24) r11, .mov (.mem rsp 32) r12, .mov (.mem rsp 40) r13,
   .mov r8 (.tab .x8 6), .mov r9 (.tab .x8 7), .mov r10 (.tab .x8 8), .mov r11 (.tab .x8 9), .mov rax (.mem rsi 128),
   .mov rdx (.mem rsi 136), .sbb r8 rax, .sbb r9 rdx, .mov rax (.mem rsi 144), .mov rdx (.mem rsi 152), .sbb r10 rax,
   .sbb r11 rdx, .mov (.mem rsp 48) r8, .mov (.mem rsp 56) r9, .mov (.mem rsp 64) r10, .mov (.mem rsp 72) r11, .mov rdx (.mem rsi 0),
   .mulx r9 r8 (.mem rdi 0), .xor rax rax, .mulx r10 r11 (.mem rdi 8), .mov (.mem rcx 0) r8, .adcx r9 r11, .mulx r11 r12 (.mem rdi 16),
   .mov (.mem rcx 8) r9, .adcx r10 r12, .mulx r12 r13 (.mem rdi 24), .mov (.mem rcx 16) r10, .adcx r11 r13, .mulx r13 r8 (.mem rdi 32),
   .adcx r12 r8, .mulx r14 r9 (.mem rdi 40), .adcx r13 r9, .mulx r15 rax (.mem rdi 48), .adcx r14 rax, .mulx r8 r10 (.mem rdi 56),
   .adcx r15 r10, .mulx r9 rax (.mem rdi 64), .adcx r8 rax, .mulx r10 rbx (.mem rdi 72), .adcx r9 rbx, .adc r10 (.imm 0)] ++
  FPDBLMUL640x640 (.mem rdi 0) (.mem rdi 80) (.mem rsi 0) (.mem rsp 0) (.mem rcx 0) r11 r12 r13 r14 r15 r8 r9 r10 rbx rbp rax ++
  [.mov (.mem rcx 24) r13, .mov (.mem rcx 32) r14, .mov (.mem rcx 40) r15, .mov (.mem rcx 48) r8, .mov (.mem rcx 56) r9, .mov (.mem rcx 64) r10,
   .mov (.mem rcx 72) r11, .add rsp (.imm 80), .pop rbp, .pop rbx, .pop r15, .pop r14, .pop r13, .pop r12, .ret]

/-- `P610/AMD64/fp_x64_asm.S:661-714` -/
def fp2mul610_c1_asm : List Instr :=
  [.push r12, .push r13, .push r14, .push r15, .push rbx, .push rbp, .sub rsp (.imm 32), .mov rcx rdx,
   .mov rdx (.mem rsi 0), .mulx r9 r8 (.mem rdi 80), .xor rax rax, .mulx r10 r11 (.mem rdi 88), .mov (.mem rsp 0) r8, .adcx r9 r11,
   .mulx r11 r12 (.mem rdi 96), .mov (.mem rsp 8) r9, .adcx r10 r12, .mulx r12 r13 (.mem rdi 104), .mov (.mem rsp 16) r10,
   .adcx r11 r13, .mulx r13 r8 (.mem rdi 112), .adcx r12 r8, .mulx r14 r9 (.mem rdi 120), .adcx r13 r9,
   .mulx r15 rax (.mem rdi 128), .adcx r14 rax, .mulx r8 r10 (.mem rdi 136), .adcx r15 r10, .mulx r9 rax (.mem rdi 144),
   .adcx r8 rax, .mulx r10 rbx (.mem rdi 152), .adcx r9 rbx, .adc r10 (.imm 0)] ++
  FPDBLMUL640x640 (.mem rdi 80) (.mem rdi 0) (.mem rsi 0) (.mem rsi 80) (.mem rsp 0) r11 r12 r13 r14 r15 r8 r9 r10 rbx rbp rax ++
  [.mov (.mem rcx 24) r13, .mov (.mem rcx 32) r14, .mov (.mem rcx 40) r15, .mov (.mem rcx 48) r8, .mov (.mem rcx 56) r9, .mov (.mem rcx 64) r10,
   .mov (.mem rcx 72) r11, .add rsp (.imm 32), .pop rbp, .pop rbx, .pop r15, .pop r14, .pop r13, .pop r12, .ret]

/-- The macro `FPMUL640x640`: `P610/AMD64/fp_x64_asm.S:737-804` -/
def FPMUL640x640 (M0 M1 MM OUT Z0 Z1 Z2 Z3 Z4 Z5 Z6 Z7 : Opd) (T0 T1 T2 : Reg) : List Instr :=
  [.mov rdx (MM.at 24)] ++
  MULADD64x384 (.tab .p1 4) Z4 Z5 Z6 Z7 Z0 Z1 Z2 T0 T1 ++
  [.mov rdx (M0.at 8)] ++
  MULADD64x640b M1 MM MM Z4 Z5 Z6 Z7 Z0 Z1 Z2 Z3 T0 T1 T2 Z3 ++
  [.mov rdx (MM.at 24)] ++
  MULADD64x384 (.tab .p1 4) Z5 Z6 Z7 Z0 Z1 Z2 Z3 T0 T1 ++
  [.mov rdx (M0.at 16)] ++
  MULADD64x640b M1 MM MM Z5 Z6 Z7 Z0 Z1 Z2 Z3 Z4 T0 T1 T2 Z4 ++
  [.mov rdx (MM.at 24)] ++
  MULADD64x384 (.tab .p1 4) Z6 Z7 Z0 Z1 Z2 Z3 Z4 T0 T1 ++
  [.mov rdx (M0.at 24)] ++
  MULADD64x640b M1 MM MM Z6 Z7 Z0 Z1 Z2 Z3 Z4 Z5 T0 T1 T2 Z5 ++
  [.mov rdx (MM.at 24)] ++
  MULADD64x384 (.tab .p1 4) Z7 Z0 Z1 Z2 Z3 Z4 Z5 T0 T1 ++
  [.mov rdx (M0.at 32)] ++
  MULADD64x640b M1 MM MM Z7 Z0 Z1 Z2 Z3 Z4 Z5 Z6 T0 T1 T2 Z6 ++
  [.mov rdx (MM.at 24)] ++
  MULADD64x384 (.tab .p1 4) Z0 Z1 Z2 Z3 Z4 Z5 Z6 T0 T1 ++
  [.mov rdx (M0.at 40)] ++
  MULADD64x640b M1 MM MM Z0 Z1 Z2 Z3 Z4 Z5 Z6 Z7 T0 T1 T2 Z7 ++
  [.mov rdx (MM.at 24)] ++
  MULADD64x384 (.tab .p1 4) Z1 Z2 Z3 Z4 Z5 Z6 Z7 T0 T1 ++
  [.mov rdx (M0.at 48)] ++
  MULADD64x640b M1 MM MM Z1 Z2 Z3 Z4 Z5 Z6 Z7 Z0 T0 T1 T2 Z0 ++
  [.mov rdx (MM.at 24)] ++
  MULADD64x384 (.tab .p1 4) Z2 Z3 Z4 Z5 Z6 Z7 Z0 T0 T1 ++
  [.mov rdx (M0.at 56)] ++
  MULADD64x640b M1 MM MM Z2 Z3 Z4 Z5 Z6 Z7 Z0 Z1 T0 T1 T2 Z1 ++
  [.mov rdx (MM.at 24)] ++
  MULADD64x384 (.tab .p1 4) Z3 Z4 Z5 Z6 Z7 Z0 Z1 T0 T1 ++
  [.mov rdx (M0.at 64)] ++
  MULADD64x640b M1 MM MM Z3 Z4 Z5 Z6 Z7 Z0 Z1 Z2 T0 T1 T2 Z2 ++
  [.mov rdx (MM.at 24)] ++
  MULADD64x384 (.tab .p1 4) Z4 Z5 Z6 Z7 Z0 Z1 Z2 T0 T1 ++
  [.mov rdx (M0.at 72)] ++
  MULADD64x640b M1 MM OUT Z4 Z5 Z6 Z7 Z0 Z1 Z2 Z3 T0 T1 T2 Z3 ++
  [.mov rdx (MM.at 24)] ++
  MULADD64x384 (.tab .p1 4) Z5 Z6 Z7 Z0 Z1 Z2 Z3 T0 T1

/-- `P610/AMD64/fp_x64_asm.S:814-942` -/
def fp2sqr610_c0_asm : List Instr :=
  [.push r12, .push r13, .push r14, .push r15, .push rbx, .push rbp, .sub rsp (.imm 32), .mov r8 (.mem rdi 0),
   .mov r9 (.mem rdi 8), .mov r10 (.mem rdi 16), .mov r11 (.mem rdi 24), .mov r12 (.mem rdi 32), .mov r13 (.mem rdi 40), .add r8 (.mem rdi 80),
   .adc r9 (.mem rdi 88), .mov (.mem rsi 0) r8, .adc r10 (.mem rdi 96), .adc r11 (.mem rdi 104), .mov (.mem rsi 8) r9, .mov (.mem rsi 16) r10,
   .adc r12 (.mem rdi 112), .adc r13 (.mem rdi 120), .mov r14 (.mem rdi 48), .mov r15 (.mem rdi 56), .adc r14 (.mem rdi 128),
   .adc r15 (.mem rdi 136), .mov r9 (.mem rdi 64), .mov r10 (.mem rdi 72), .adc r9 (.mem rdi 144), .adc r10 (.mem rdi 152),
   .mov (.mem rsi 24) r11, .mov (.mem rsi 32) r12, .mov (.mem rsi 40) r13, .mov (.mem rsi 48) r14, .mov (.mem rsi 56) r15, .mov (.mem rsi 64) r9,
   .mov (.mem rsi 72) r10, .mov rcx (.mem rdi 0), .mov r10 (.mem rdi 8), .mov r12 (.mem rdi 16), .mov r13 (.mem rdi 24), .mov r14 (.mem rdi 32),
   .mov r15 (.mem rdi 40), .sub rcx (.mem rdi 80), .sbb r10 (.mem rdi 88), .sbb r12 (.mem rdi 96), .sbb r13 (.mem rdi 104),
   .sbb r14 (.mem rdi 112), .sbb r15 (.mem rdi 120), .mov rbx (.mem rdi 48), .mov rbp (.mem rdi 56), .mov r8 (.mem rdi 64),
   .mov rax (.mem rdi 72), .sbb rbx (.mem rdi 128), .sbb rbp (.mem rdi 136), .sbb r8 (.mem rdi 144), .sbb rax (.mem rdi 152),
   .add rcx (.tab .x4 0), .mov rdx (.tab .x4 1), .adc r10 rdx, .adc r12 rdx, .adc r13 rdx, .adc r14 (.tab .x4 4),
   .adc r15 (.tab .x4 5), .adc rbx (.tab .x4 6), .adc rbp (.tab .x4 7), .adc r8 (.tab .x4 8),
   .adc rax (.tab .x4 9), .mov (.mem rsi 80) rcx, .mov (.mem rsi 88) r10, .mov (.mem rsi 96) r12, .mov (.mem rsi 104) r13,
   .mov (.mem rsi 112) r14, .mov (.mem rsi 144) r8, .mov (.mem rsi 152) rax, .mov rdx (.mem rsi 0), .mulx r9 r8 rcx,
   .mov (.mem rsi 120) r15, .xor rax rax, .mulx r10 r11 r10, .mov (.mem rsi 128) rbx, .adcx r9 r11, .mulx r11 r12 r12,
   .mov (.mem rsi 136) rbp, .adcx r10 r12, .mulx r12 r13 r13, .mov (.mem rsp 24) r8, .adcx r11 r13, .mulx r13 r8 r14,
   .mov (.mem rsp 0) r9, .adcx r12 r8, .mulx r14 r9 r15, .mov (.mem rsp 8) r10, .adcx r13 r9, .mulx r15 rax rbx,
   .mov (.mem rsp 16) r11, .adcx r14 rax, .mulx r8 r10 rbp, .adcx r15 r10, .mulx r9 rax (.mem rsi 144), .adcx r8 rax,
   .mulx r10 rbx (.mem rsi 152), .adcx r9 rbx, .adc r10 (.imm 0)] ++
  FPMUL640x640 (.mem rsi 0) (.mem rsi 80) (.mem rsp 0) (.mem rsi 0) r8 r9 r10 r11 r12 r13 r14 r15 rbx rbp rax ++
  [.mov (.mem rsi 24) r13, .mov (.mem rsi 32) r14, .mov (.mem rsi 40) r15, .mov (.mem rsi 48) r8, .mov (.mem rsi 56) r9, .mov (.mem rsi 64) r10,
   .mov (.mem rsi 72) r11, .add rsp (.imm 32), .pop rbp, .pop rbx, .pop r15, .pop r14, .pop r13, .pop r12, .ret]

/-- `P610/AMD64/fp_x64_asm.S:951-1034` -/
def fp2sqr610_c1_asm : List Instr :=
  [.push r12, .push r13, .push r14, .push r15, .mov r8 (.mem rdi 0), .mov r9 (.mem rdi 8), .mov r10 (.mem rdi 16),
   .mov r11 (.mem rdi 24), .mov r12 (.mem rdi 32), .mov r13 (.mem rdi 40), .add r8 r8, .adc r9 r9, .push rbx, .adc r10 r10,
   .adc r11 r11, .push rbp, .adc r12 r12, .adc r13 r13, .mov r14 (.mem rdi 48), .mov r15 (.mem rdi 56), .adc r14 r14,
   .adc r15 r15, .mov rbx (.mem rdi 64), .mov rbp (.mem rdi 72), .adc rbx rbx, .adc rbp rbp, .sub rsp (.imm 112),
   .mov (.mem rsp 8) r9, .mov (.mem rsp 16) r10, .mov (.mem rsp 24) r11, .mov rdx r8, .mulx r9 r8 (.mem rdi 80), .mov (.mem rsp 32) r12,
   .xor rax rax, .mulx r10 r11 (.mem rdi 88), .mov (.mem rsp 40) r13, .adcx r9 r11, .mulx r11 r12 (.mem rdi 96),
   .mov (.mem rsp 48) r14, .adcx r10 r12, .mulx r12 r13 (.mem rdi 104), .mov (.mem rsp 104) r8, .adcx r11 r13,
   .mulx r13 r8 (.mem rdi 112), .mov (.mem rsp 80) r9, .adcx r12 r8, .mulx r14 r9 (.mem rdi 120), .mov (.mem rsp 56) r15, .adcx r13 r9,
   .mulx r15 rax (.mem rdi 128), .mov (.mem rsp 88) r10, .adcx r14 rax, .mulx r8 r10 (.mem rdi 136), .mov (.mem rsp 96) r11,
   .adcx r15 r10, .mulx r9 rax (.mem rdi 144), .mov (.mem rsp 64) rbx, .adcx r8 rax, .mulx r10 rbx (.mem rdi 152),
   .mov (.mem rsp 72) rbp, .adcx r9 rbx, .adc r10 (.imm 0)] ++
  FPMUL640x640 (.mem rsp 0) (.mem rdi 80) (.mem rsp 80) (.mem rsi 0) r8 r9 r10 r11 r12 r13 r14 r15 rbx rbp rax ++
  [.mov (.mem rsi 24) r13, .mov (.mem rsi 32) r14, .mov (.mem rsi 40) r15, .mov (.mem rsi 48) r8, .mov (.mem rsi 56) r9, .mov (.mem rsi 64) r10,
   .mov (.mem rsi 72) r11, .add rsp (.imm 112), .pop rbp, .pop rbx, .pop r15, .pop r14, .pop r13, .pop r12, .ret]

/-- `P610/AMD64/fp_x64_asm.S:1044-1098` -/
def fpmul610_asm : List Instr :=
  [.mov rcx rdx, .push r12, .push r13, .push r14, .push r15, .push rbx, .push rbp, .sub rsp (.imm 32),
   .mov rdx (.mem rsi 0), .mulx r9 r8 (.mem rdi 0), .xor rax rax, .mov (.mem rsp 24) r8, .mulx r10 r11 (.mem rdi 8), .adcx r9 r11,
   .mulx r11 r12 (.mem rdi 16), .adcx r10 r12, .mulx r12 r13 (.mem rdi 24), .adcx r11 r13, .mulx r13 r8 (.mem rdi 32),
   .adcx r12 r8, .mulx r14 rax (.mem rdi 40), .adcx r13 rax, .mulx r15 rax (.mem rdi 48), .mov (.mem rsp 0) r9, .adcx r14 rax,
   .mulx r8 rbx (.mem rdi 56), .mov (.mem rsp 8) r10, .adcx r15 rbx, .mulx r9 rax (.mem rdi 64), .mov (.mem rsp 16) r11, .adcx r8 rax,
   .mulx r10 rbx (.mem rdi 72), .adcx r9 rbx, .adc r10 (.imm 0)] ++
  FPMUL640x640 (.mem rsi 0) (.mem rdi 0) (.mem rsp 0) (.mem rcx 0) r8 r9 r10 r11 r12 r13 r14 r15 rbx rbp rax ++
  [.mov (.mem rcx 24) r13, .mov (.mem rcx 32) r14, .mov (.mem rcx 40) r15, .mov (.mem rcx 48) r8, .mov (.mem rcx 56) r9, .mov (.mem rcx 64) r10,
   .mov (.mem rcx 72) r11, .add rsp (.imm 32), .pop rbp, .pop rbx, .pop r15, .pop r14, .pop r13, .pop r12, .ret]

end Secuer.X64.P610
