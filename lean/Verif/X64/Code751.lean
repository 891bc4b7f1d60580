import Verif.X64.Model

/-!
# The field arithmetic of `P751/AMD64/fp_x64_asm.S`

The macros and functions of this file for Linux with `_MULX_` and `_ADX_` defined (the default of the Makefile), transcribed
instruction by instruction.  `reg_p1`, `reg_p2` and `reg_p3` are `rdi`, `rsi` and `rdx`; `8\M1` is `M1.at 8`;
`[rip+fmt(p751x2)+8*i]` is `.tab .x2 i`.
-/

namespace Secuer.X64.P751

open Reg

/-- `P751/AMD64/fp_x64_asm.S:32-157` -/
def fpadd751_asm : List Instr :=
  [.push r12, .push r13, .push r14, .push r15, .mov r8 (.mem rdi 0), .mov r9 (.mem rdi 8), .mov r10 (.mem rdi 16),
   .mov r11 (.mem rdi 24), .mov r12 (.mem rdi 32), .mov r13 (.mem rdi 40), .mov r14 (.mem rdi 48), .mov r15 (.mem rdi 56),
   .mov rcx (.mem rdi 64), .add r8 (.mem rsi 0), .adc r9 (.mem rsi 8), .adc r10 (.mem rsi 16), .adc r11 (.mem rsi 24), .adc r12 (.mem rsi 32),
   .adc r13 (.mem rsi 40), .adc r14 (.mem rsi 48), .adc r15 (.mem rsi 56), .adc rcx (.mem rsi 64), .mov rax (.mem rdi 72),
   .adc rax (.mem rsi 72), .mov (.mem rdx 72) rax, .mov rax (.mem rdi 80), .adc rax (.mem rsi 80), .mov (.mem rdx 80) rax,
   .mov rax (.mem rdi 88), .adc rax (.mem rsi 88), .mov (.mem rdx 88) rax, .mov rax (.tab .x2 0), .sub r8 rax,
   .mov rax (.tab .x2 1), .sbb r9 rax, .sbb r10 rax, .sbb r11 rax, .sbb r12 rax, .mov rax (.tab .x2 5),
   .sbb r13 rax, .mov rax (.tab .x2 6), .sbb r14 rax, .mov rax (.tab .x2 7), .sbb r15 rax, .mov rax (.tab .x2 8),
   .sbb rcx rax, .mov (.mem rdx 0) r8, .mov (.mem rdx 8) r9, .mov (.mem rdx 16) r10, .mov (.mem rdx 24) r11, .mov (.mem rdx 32) r12,
   .mov (.mem rdx 40) r13, .mov (.mem rdx 48) r14, .mov (.mem rdx 56) r15, .mov (.mem rdx 64) rcx, .mov r8 (.mem rdx 72), .mov r9 (.mem rdx 80),
   .mov r10 (.mem rdx 88), .mov rax (.tab .x2 9), .sbb r8 rax, .mov rax (.tab .x2 10), .sbb r9 rax,
   .mov rax (.tab .x2 11), .sbb r10 rax, .mov (.mem rdx 72) r8, .mov (.mem rdx 80) r9, .mov (.mem rdx 88) r10, .mov rax (.imm 0),
   .sbb rax (.imm 0), .mov rsi (.tab .x2 0), .and rsi rax, .mov r8 (.tab .x2 1), .and r8 rax, .mov r9 (.tab .x2 5),
   .and r9 rax, .mov r10 (.tab .x2 6), .and r10 rax, .mov r11 (.tab .x2 7), .and r11 rax, .mov r12 (.tab .x2 8),
   .and r12 rax, .mov r13 (.tab .x2 9), .and r13 rax, .mov r14 (.tab .x2 10), .and r14 rax, .mov r15 (.tab .x2 11),
   .and r15 rax, .add rsi (.mem rdx 0), .mov (.mem rdx 0) rsi, .mov rax (.mem rdx 8), .adc rax r8, .mov (.mem rdx 8) rax,
   .mov rax (.mem rdx 16), .adc rax r8, .mov (.mem rdx 16) rax, .mov rax (.mem rdx 24), .adc rax r8, .mov (.mem rdx 24) rax,
   .mov rax (.mem rdx 32), .adc rax r8, .mov (.mem rdx 32) rax, .adc r9 (.mem rdx 40), .adc r10 (.mem rdx 48), .adc r11 (.mem rdx 56),
   .adc r12 (.mem rdx 64), .adc r13 (.mem rdx 72), .adc r14 (.mem rdx 80), .adc r15 (.mem rdx 88), .mov (.mem rdx 40) r9, .mov (.mem rdx 48) r10,
   .mov (.mem rdx 56) r11, .mov (.mem rdx 64) r12, .mov (.mem rdx 72) r13, .mov (.mem rdx 80) r14, .mov (.mem rdx 88) r15, .pop r15,
   .pop r14, .pop r13, .pop r12, .ret]

/-- `P751/AMD64/fp_x64_asm.S:165-263` -/
def fpsub751_asm : List Instr :=
  [.push r12, .push r13, .push r14, .push r15, .mov r8 (.mem rdi 0), .mov r9 (.mem rdi 8), .mov r10 (.mem rdi 16),
   .mov r11 (.mem rdi 24), .mov r12 (.mem rdi 32), .mov r13 (.mem rdi 40), .mov r14 (.mem rdi 48), .mov r15 (.mem rdi 56),
   .mov rcx (.mem rdi 64), .sub r8 (.mem rsi 0), .sbb r9 (.mem rsi 8), .sbb r10 (.mem rsi 16), .sbb r11 (.mem rsi 24), .sbb r12 (.mem rsi 32),
   .sbb r13 (.mem rsi 40), .sbb r14 (.mem rsi 48), .sbb r15 (.mem rsi 56), .sbb rcx (.mem rsi 64), .mov (.mem rdx 0) r8, .mov (.mem rdx 8) r9,
   .mov (.mem rdx 16) r10, .mov (.mem rdx 24) r11, .mov (.mem rdx 32) r12, .mov (.mem rdx 40) r13, .mov (.mem rdx 48) r14,
   .mov (.mem rdx 56) r15, .mov (.mem rdx 64) rcx, .mov rax (.mem rdi 72), .sbb rax (.mem rsi 72), .mov (.mem rdx 72) rax,
   .mov rax (.mem rdi 80), .sbb rax (.mem rsi 80), .mov (.mem rdx 80) rax, .mov rax (.mem rdi 88), .sbb rax (.mem rsi 88),
   .mov (.mem rdx 88) rax, .mov rax (.imm 0), .sbb rax (.imm 0), .mov rsi (.tab .x2 0), .and rsi rax,
   .mov r8 (.tab .x2 1), .and r8 rax, .mov r9 (.tab .x2 5), .and r9 rax, .mov r10 (.tab .x2 6), .and r10 rax,
   .mov r11 (.tab .x2 7), .and r11 rax, .mov r12 (.tab .x2 8), .and r12 rax, .mov r13 (.tab .x2 9), .and r13 rax,
   .mov r14 (.tab .x2 10), .and r14 rax, .mov r15 (.tab .x2 11), .and r15 rax, .mov rax (.mem rdx 0), .add rax rsi,
   .mov (.mem rdx 0) rax, .mov rax (.mem rdx 8), .adc rax r8, .mov (.mem rdx 8) rax, .mov rax (.mem rdx 16), .adc rax r8,
   .mov (.mem rdx 16) rax, .mov rax (.mem rdx 24), .adc rax r8, .mov (.mem rdx 24) rax, .mov rax (.mem rdx 32), .adc rax r8,
   .mov (.mem rdx 32) rax, .adc r9 (.mem rdx 40), .adc r10 (.mem rdx 48), .adc r11 (.mem rdx 56), .adc r12 (.mem rdx 64), .adc r13 (.mem rdx 72),
   .adc r14 (.mem rdx 80), .adc r15 (.mem rdx 88), .mov (.mem rdx 40) r9, .mov (.mem rdx 48) r10, .mov (.mem rdx 56) r11, .mov (.mem rdx 64) r12,
   .mov (.mem rdx 72) r13, .mov (.mem rdx 80) r14, .mov (.mem rdx 88) r15, .pop r15, .pop r14, .pop r13, .pop r12, .ret]

/-- The macro `SUB751_PX`: `P751/AMD64/fp_x64_asm.S:267-342` -/
def SUB751_PX (P0 : Tab) : List Instr :=
  [.push r12, .push r13, .push r14, .push r15, .mov r8 (.mem rdi 0), .mov r9 (.mem rdi 8), .mov r10 (.mem rdi 16),
   .mov r11 (.mem rdi 24), .mov r12 (.mem rdi 32), .mov r13 (.mem rdi 40), .sub r8 (.mem rsi 0), .sbb r9 (.mem rsi 8), .sbb r10 (.mem rsi 16),
   .sbb r11 (.mem rsi 24), .sbb r12 (.mem rsi 32), .sbb r13 (.mem rsi 40), .setc rax, .mov r14 (.tab P0 0), .mov r15 (.tab P0 1),
   .add r8 r14, .adc r9 r15, .adc r10 r15, .adc r11 r15, .adc r12 r15, .mov r14 (.tab P0 5), .adc r13 r14,
   .mov (.mem rdx 0) r8, .mov (.mem rdx 8) r9, .mov (.mem rdx 16) r10, .mov (.mem rdx 24) r11, .mov (.mem rdx 32) r12, .mov (.mem rdx 40) r13,
   .setc rcx, .bt rax, .mov r8 (.mem rdi 48), .mov r9 (.mem rdi 56), .mov r10 (.mem rdi 64), .mov r11 (.mem rdi 72), .mov r12 (.mem rdi 80),
   .mov r13 (.mem rdi 88), .sbb r8 (.mem rsi 48), .sbb r9 (.mem rsi 56), .sbb r10 (.mem rsi 64), .sbb r11 (.mem rsi 72), .sbb r12 (.mem rsi 80),
   .sbb r13 (.mem rsi 88), .bt rcx, .mov r14 (.tab P0 6), .mov r15 (.tab P0 7), .adc r8 r14, .adc r9 r15,
   .mov r14 (.tab P0 8), .mov r15 (.tab P0 9), .adc r10 r14, .adc r11 r15, .mov r14 (.tab P0 10),
   .mov r15 (.tab P0 11), .adc r12 r14, .adc r13 r15, .mov (.mem rdx 48) r8, .mov (.mem rdx 56) r9, .mov (.mem rdx 64) r10,
   .mov (.mem rdx 72) r11, .mov (.mem rdx 80) r12, .mov (.mem rdx 88) r13, .pop r15, .pop r14, .pop r13, .pop r12]

/-- `P751/AMD64/fp_x64_asm.S:350-353` -/
def mp_sub751_p2_asm : List Instr :=
  SUB751_PX .x2 ++
  [.ret]

/-- `P751/AMD64/fp_x64_asm.S:361-364` -/
def mp_sub751_p4_asm : List Instr :=
  SUB751_PX .x4 ++
  [.ret]

/-- The macro `MUL384_SCHOOL`: `P751/AMD64/fp_x64_asm.S:377-519` -/
def MUL384_SCHOOL (M0 M1 C S : Opd) (T0 T1 T2 T3 T4 T5 T6 T7 : Reg) : List Instr :=
  [.mov rdx M0, .mulx T0 T1 M1, .mulx T2 T3 (M1.at 8), .mov C T1, .xor rax rax, .mulx T4 T5 (M1.at 16),
   .adox T0 T3, .adox T2 T5, .mulx T1 T3 (M1.at 24), .adox T4 T3, .mulx T5 T6 (M1.at 32), .adox T1 T6,
   .mulx T3 T7 (M1.at 40), .adox T5 T7, .adox T3 rax, .mov rdx (M0.at 8), .mulx T6 T7 M1, .xor rax rax,
   .adcx T0 T7, .mov (C.at 8) T0, .adcx T2 T6, .mulx T6 T7 (M1.at 8), .adox T2 T7, .adcx T4 T6,
   .mulx T0 T6 (M1.at 16), .adox T4 T6, .adcx T0 T1, .mulx T1 T7 (M1.at 24), .adcx T1 T5, .mulx T5 T6 (M1.at 32),
   .adcx T3 T5, .mulx T5 rdx (M1.at 40), .adcx T5 rax, .adox T0 T7, .adox T1 T6, .adox T3 rdx, .adox T5 rax,
   .mov rdx (M0.at 16), .mulx T6 T7 M1, .xor rax rax, .adcx T2 T7, .mov (C.at 16) T2, .adcx T4 T6,
   .mulx T6 T7 (M1.at 8), .adox T4 T7, .adcx T0 T6, .mulx T2 T6 (M1.at 16), .adox T0 T6, .adcx T1 T2,
   .mulx T2 T7 (M1.at 24), .adcx T3 T2, .mulx T2 T6 (M1.at 32), .adcx T5 T2, .mulx T2 rdx (M1.at 40), .adcx T2 rax,
   .adox T1 T7, .adox T3 T6, .adox T5 rdx, .adox T2 rax, .mov rdx (M0.at 24), .mulx T6 T7 M1, .xor rax rax,
   .adcx T4 T7, .mov (C.at 24) T4, .adcx T0 T6, .mulx T6 T7 (M1.at 8), .adox T0 T7, .adcx T1 T6,
   .mulx T4 T6 (M1.at 16), .adox T1 T6, .adcx T3 T4, .mulx T4 T7 (M1.at 24), .adcx T5 T4, .mulx T4 T6 (M1.at 32),
   .adcx T2 T4, .mulx T4 rdx (M1.at 40), .adcx T4 rax, .adox T3 T7, .adox T5 T6, .adox T2 rdx, .adox T4 rax,
   .mov rdx (M0.at 32), .mulx T6 T7 M1, .xor rax rax, .adcx T0 T7, .mov (C.at 32) T0, .adcx T1 T6,
   .mulx T6 T7 (M1.at 8), .adox T1 T7, .adcx T3 T6, .mulx T0 T6 (M1.at 16), .adox T3 T6, .adcx T5 T0,
   .mulx T0 T7 (M1.at 24), .adcx T2 T0, .mulx T0 T6 (M1.at 32), .adcx T4 T0, .mulx T0 rdx (M1.at 40), .adcx T0 rax,
   .adox T5 T7, .adox T2 T6, .adox T4 rdx, .adox T0 rax, .mov rdx (M0.at 40), .mulx T6 T7 M1, .xor rax rax,
   .adcx T1 T7, .mov (C.at 40) T1, .adcx T3 T6, .mulx T6 T7 (M1.at 8), .adox T3 T7, .adcx T5 T6,
   .mulx T1 T6 (M1.at 16), .adox T5 T6, .adcx T2 T1, .mulx T1 T7 (M1.at 24), .adcx T4 T1, .mulx T1 T6 (M1.at 32),
   .adcx T0 T1, .mulx T1 rdx (M1.at 40), .adcx T1 rax, .adox T2 T7, .adox T4 T6, .adox T0 rdx, .adox T1 rax,
   .mov (C.at 48) T3, .mov (C.at 56) T5, .mov (C.at 64) T2, .mov (C.at 72) T4, .mov (C.at 80) T0,
   .mov (C.at 88) T1]

/-- `P751/AMD64/fp_x64_asm.S:683-894` -/
def mul751_asm : List Instr :=
  [.push r12, .push r13, .push r14, .push r15, .mov rcx rdx, .xor rax rax, .mov r8 (.mem rdi 0), .mov r9 (.mem rdi 8),
   .mov r10 (.mem rdi 16), .mov r11 (.mem rdi 24), .mov r12 (.mem rdi 32), .mov r13 (.mem rdi 40), .push rbx, .push rbp,
   .sub rsp (.imm 152), .add r8 (.mem rdi 48), .adc r9 (.mem rdi 56), .adc r10 (.mem rdi 64), .adc r11 (.mem rdi 72),
   .adc r12 (.mem rdi 80), .adc r13 (.mem rdi 88), .sbb rax (.imm 0), .mov (.mem rsp 0) r8, .mov (.mem rsp 8) r9, .mov (.mem rsp 16) r10,
   .mov (.mem rsp 24) r11, .mov (.mem rsp 32) r12, .mov (.mem rsp 40) r13, .xor rdx rdx, .mov r8 (.mem rsi 0), .mov r9 (.mem rsi 8),
   .mov rbx (.mem rsi 16), .mov rbp (.mem rsi 24), .mov r14 (.mem rsi 32), .mov r15 (.mem rsi 40), .add r8 (.mem rsi 48), .adc r9 (.mem rsi 56),
   .adc rbx (.mem rsi 64), .adc rbp (.mem rsi 72), .adc r14 (.mem rsi 80), .adc r15 (.mem rsi 88), .sbb rdx (.imm 0), .mov (.mem rsp 48) r8,
   .mov (.mem rsp 56) r9, .mov (.mem rsp 64) rbx, .mov (.mem rsp 72) rbp, .mov (.mem rsp 80) r14, .mov (.mem rsp 88) r15, .and r8 rax,
   .and r9 rax, .and rbx rax, .and rbp rax, .and r14 rax, .and r15 rax, .mov (.mem rcx 0) r8, .mov (.mem rcx 8) r9,
   .mov r8 (.mem rsp 0), .mov r9 (.mem rsp 8), .and r8 rdx, .and r9 rdx, .and r10 rdx, .and r11 rdx, .and r12 rdx,
   .and r13 rdx, .mov rax (.mem rcx 0), .mov rdx (.mem rcx 8), .add r8 rax, .adc r9 rdx, .adc r10 rbx, .adc r11 rbp,
   .adc r12 r14, .adc r13 r15, .mov (.mem rsp 96) r8, .mov (.mem rsp 104) r9, .mov (.mem rsp 112) r10, .mov (.mem rsp 120) r11] ++
  MUL384_SCHOOL (.mem rdi 0) (.mem rsi 0) (.mem rcx 0) (.mem rsp 128) r8 r9 r10 r11 rbx rbp r14 r15 ++
  MUL384_SCHOOL (.mem rsp 0) (.mem rsp 48) (.mem rcx 96) (.mem rsp 128) r8 r9 r10 r11 rbx rbp r14 r15 ++
  MUL384_SCHOOL (.mem rdi 48) (.mem rsi 48) (.mem rsp 0) (.mem rsp 128) r8 r9 r10 r11 rbx rbp r14 r15 ++
  [.mov r8 (.mem rsp 96), .mov r9 (.mem rsp 104), .mov r10 (.mem rsp 112), .mov r11 (.mem rsp 120), .mov rax (.mem rcx 144), .add r8 rax,
   .mov rax (.mem rcx 152), .adc r9 rax, .mov rax (.mem rcx 160), .adc r10 rax, .mov rax (.mem rcx 168), .adc r11 rax,
   .mov rax (.mem rcx 176), .adc r12 rax, .mov rax (.mem rcx 184), .adc r13 rax, .mov rdi (.mem rcx 96), .sub rdi (.mem rcx 0),
   .mov rdx (.mem rcx 104), .sbb rdx (.mem rcx 8), .mov rbx (.mem rcx 112), .sbb rbx (.mem rcx 16), .mov rbp (.mem rcx 120),
   .sbb rbp (.mem rcx 24), .mov r14 (.mem rcx 128), .sbb r14 (.mem rcx 32), .mov r15 (.mem rcx 136), .sbb r15 (.mem rcx 40),
   .sbb r8 (.mem rcx 48), .sbb r9 (.mem rcx 56), .sbb r10 (.mem rcx 64), .sbb r11 (.mem rcx 72), .sbb r12 (.mem rcx 80), .sbb r13 (.mem rcx 88),
   .sub rdi (.mem rsp 0), .sbb rdx (.mem rsp 8), .sbb rbx (.mem rsp 16), .sbb rbp (.mem rsp 24), .sbb r14 (.mem rsp 32), .sbb r15 (.mem rsp 40),
   .sbb r8 (.mem rsp 48), .sbb r9 (.mem rsp 56), .sbb r10 (.mem rsp 64), .sbb r11 (.mem rsp 72), .sbb r12 (.mem rsp 80), .sbb r13 (.mem rsp 88),
   .mov rax (.mem rcx 48), .add rax rdi, .mov (.mem rcx 48) rax, .mov rax (.mem rcx 56), .adc rax rdx, .mov (.mem rcx 56) rax,
   .mov rax (.mem rcx 64), .adc rax rbx, .mov (.mem rcx 64) rax, .mov rax (.mem rcx 72), .adc rax rbp, .mov (.mem rcx 72) rax,
   .mov rax (.mem rcx 80), .adc rax r14, .mov (.mem rcx 80) rax, .mov rax (.mem rcx 88), .adc rax r15, .mov (.mem rcx 88) rax,
   .mov rax (.mem rsp 0), .adc r8 rax, .mov (.mem rcx 96) r8, .mov rax (.mem rsp 8), .adc r9 rax, .mov (.mem rcx 104) r9,
   .mov rax (.mem rsp 16), .adc r10 rax, .mov (.mem rcx 112) r10, .mov rax (.mem rsp 24), .adc r11 rax, .mov (.mem rcx 120) r11,
   .mov rax (.mem rsp 32), .adc r12 rax, .mov (.mem rcx 128) r12, .mov rax (.mem rsp 40), .adc r13 rax, .mov (.mem rcx 136) r13,
   .mov r8 (.mem rsp 48), .mov r9 (.mem rsp 56), .mov r10 (.mem rsp 64), .mov r11 (.mem rsp 72), .mov r12 (.mem rsp 80), .mov r13 (.mem rsp 88),
   .adc r8 (.imm 0), .adc r9 (.imm 0), .adc r10 (.imm 0), .adc r11 (.imm 0), .adc r12 (.imm 0), .adc r13 (.imm 0),
   .add rsp (.imm 152), .mov (.mem rcx 144) r8, .mov (.mem rcx 152) r9, .mov (.mem rcx 160) r10, .mov (.mem rcx 168) r11,
   .mov (.mem rcx 176) r12, .mov (.mem rcx 184) r13, .pop rbp, .pop rbx, .pop r15, .pop r14, .pop r13, .pop r12, .ret]

/-- The macro `MUL256x448_SCHOOL`: `P751/AMD64/fp_x64_asm.S:1853-1951` -/
def MUL256x448_SCHOOL (M0 M1 C : Opd) (T0 T1 T2 T3 T4 T5 T6 T7 T8 T9 T10 : Reg) : List Instr :=
  [.mov rdx M0, .mulx T0 T1 M1, .mulx T2 T3 (M1.at 8), .mov C T1, .xor rax rax, .mulx T4 T5 (M1.at 16),
   .adox T0 T3, .adox T2 T5, .mulx T1 T3 (M1.at 24), .adox T4 T3, .mulx T5 T6 (M1.at 32), .adox T1 T6,
   .mulx T3 T7 (M1.at 40), .adox T5 T7, .mulx T6 T8 (M1.at 48), .adox T3 T8, .adox T6 rax, .mov rdx (M0.at 8),
   .mulx T8 T7 M1, .xor rax rax, .adcx T0 T7, .mov (C.at 8) T0, .adcx T2 T8, .mulx T7 T8 (M1.at 8), .adox T2 T8,
   .adcx T4 T7, .mulx T0 T8 (M1.at 16), .adox T4 T8, .adcx T0 T1, .mulx T1 T7 (M1.at 24), .adcx T1 T5,
   .mulx T5 T8 (M1.at 32), .adcx T3 T5, .mulx T5 T9 (M1.at 40), .adcx T6 T5, .mulx T5 rdx (M1.at 48), .adcx T5 rax,
   .adox T0 T7, .adox T1 T8, .adox T3 T9, .adox T6 rdx, .adox T5 rax, .mov rdx (M0.at 16), .mulx T8 T7 M1,
   .xor rax rax, .adcx T2 T7, .mov (C.at 16) T2, .adcx T4 T8, .mulx T8 T7 (M1.at 8), .adox T4 T7, .adcx T0 T8,
   .mulx T2 T8 (M1.at 16), .adox T0 T8, .adcx T1 T2, .mulx T2 T7 (M1.at 24), .adcx T3 T2, .mulx T2 T8 (M1.at 32),
   .adcx T6 T2, .mulx T2 T9 (M1.at 40), .adcx T5 T2, .mulx T2 rdx (M1.at 48), .adcx T2 rax, .adox T1 T7,
   .adox T3 T8, .adox T6 T9, .adox T5 rdx, .adox T2 rax, .mov rdx (M0.at 24), .mulx T8 T7 M1, .xor rax rax,
   .adcx T7 T4, .adcx T0 T8, .mulx T8 T10 (M1.at 8), .adox T0 T10, .adcx T1 T8, .mulx T4 T8 (M1.at 16),
   .adox T1 T8, .adcx T3 T4, .mulx T4 T10 (M1.at 24), .adcx T6 T4, .mulx T4 T8 (M1.at 32), .adcx T5 T4,
   .mulx T4 T9 (M1.at 40), .adcx T2 T4, .mulx T4 rdx (M1.at 48), .adcx T4 rax, .adox T3 T10, .adox T6 T8,
   .adox T5 T9, .adox T2 rdx, .adox T4 rax]

/-- `P751/AMD64/fp_x64_asm.S:2071-2209` -/
def rdc751_asm : List Instr :=
  [.push rbx, .push rbp, .push r12, .push r13, .push r14, .push r15] ++
  MUL256x448_SCHOOL (.mem rdi 0) (.tab .p1 5) (.mem rsi 48) r8 r9 r13 r10 r14 r12 r11 rbp rbx rcx r15 ++
  [.xor r15 r15, .mov rax (.mem rsi 48), .mov rdx (.mem rsi 56), .mov rbx (.mem rsi 64), .add rax (.mem rdi 40), .adc rdx (.mem rdi 48),
   .adc rbx (.mem rdi 56), .mov (.mem rdi 40) rax, .mov (.mem rdi 48) rdx, .mov (.mem rdi 56) rbx, .adc rbp (.mem rdi 64), .adc r8 (.mem rdi 72),
   .adc r9 (.mem rdi 80), .adc r10 (.mem rdi 88), .adc r11 (.mem rdi 96), .adc r12 (.mem rdi 104), .adc r13 (.mem rdi 112),
   .adc r14 (.mem rdi 120), .adc r15 (.mem rdi 128), .mov (.mem rdi 64) rbp, .mov (.mem rdi 72) r8, .mov (.mem rdi 80) r9,
   .mov (.mem rdi 88) r10, .mov (.mem rdi 96) r11, .mov (.mem rdi 104) r12, .mov (.mem rdi 112) r13, .mov (.mem rdi 120) r14,
   .mov (.mem rdi 128) r15, .mov r8 (.mem rdi 136), .mov r9 (.mem rdi 144), .mov r10 (.mem rdi 152), .mov r11 (.mem rdi 160),
   .mov r12 (.mem rdi 168), .mov r13 (.mem rdi 176), .mov r14 (.mem rdi 184), .adc r8 (.imm 0), .adc r9 (.imm 0),
   .adc r10 (.imm 0), .adc r11 (.imm 0), .adc r12 (.imm 0), .adc r13 (.imm 0), .adc r14 (.imm 0),
   .mov (.mem rdi 136) r8, .mov (.mem rdi 144) r9, .mov (.mem rdi 152) r10, .mov (.mem rdi 160) r11, .mov (.mem rdi 168) r12,
   .mov (.mem rdi 176) r13, .mov (.mem rdi 184) r14] ++
  MUL256x448_SCHOOL (.mem rdi 32) (.tab .p1 5) (.mem rsi 48) r8 r9 r13 r10 r14 r12 r11 rbp rbx rcx r15 ++
  [.xor r15 r15, .mov rax (.mem rsi 48), .mov rdx (.mem rsi 56), .mov rbx (.mem rsi 64), .add rax (.mem rdi 72), .adc rdx (.mem rdi 80),
   .adc rbx (.mem rdi 88), .mov (.mem rdi 72) rax, .mov (.mem rdi 80) rdx, .mov (.mem rdi 88) rbx, .adc rbp (.mem rdi 96),
   .adc r8 (.mem rdi 104), .adc r9 (.mem rdi 112), .adc r10 (.mem rdi 120), .adc r11 (.mem rdi 128), .adc r12 (.mem rdi 136),
   .adc r13 (.mem rdi 144), .adc r14 (.mem rdi 152), .adc r15 (.mem rdi 160), .mov (.mem rsi 0) rbp, .mov (.mem rdi 104) r8,
   .mov (.mem rdi 112) r9, .mov (.mem rdi 120) r10, .mov (.mem rdi 128) r11, .mov (.mem rdi 136) r12, .mov (.mem rdi 144) r13,
   .mov (.mem rdi 152) r14, .mov (.mem rdi 160) r15, .mov r12 (.mem rdi 168), .mov r13 (.mem rdi 176), .mov r14 (.mem rdi 184),
   .adc r12 (.imm 0), .adc r13 (.imm 0), .adc r14 (.imm 0), .mov (.mem rdi 168) r12, .mov (.mem rdi 176) r13,
   .mov (.mem rdi 184) r14] ++
  MUL256x448_SCHOOL (.mem rdi 64) (.tab .p1 5) (.mem rsi 48) r8 r9 r13 r10 r14 r12 r11 rbp rbx rcx r15 ++
  [.mov rax (.mem rsi 48), .mov rdx (.mem rsi 56), .mov rbx (.mem rsi 64), .add rax (.mem rdi 104), .adc rdx (.mem rdi 112),
   .adc rbx (.mem rdi 120), .mov (.mem rsi 8) rax, .mov (.mem rsi 16) rdx, .mov (.mem rsi 24) rbx, .adc rbp (.mem rdi 128),
   .adc r8 (.mem rdi 136), .adc r9 (.mem rdi 144), .adc r10 (.mem rdi 152), .adc r11 (.mem rdi 160), .adc r12 (.mem rdi 168),
   .adc r13 (.mem rdi 176), .adc r14 (.mem rdi 184), .mov (.mem rsi 32) rbp, .mov (.mem rsi 40) r8, .mov (.mem rsi 48) r9,
   .mov (.mem rsi 56) r10, .mov (.mem rsi 64) r11, .mov (.mem rsi 72) r12, .mov (.mem rsi 80) r13, .mov (.mem rsi 88) r14, .pop r15,
   .pop r14, .pop r13, .pop r12, .pop rbp, .pop rbx, .ret]

/-- `P751/AMD64/fp_x64_asm.S:2841-2879` -/
def mp_add751_asm : List Instr :=
  [.mov r8 (.mem rdi 0), .mov r9 (.mem rdi 8), .mov r10 (.mem rdi 16), .mov r11 (.mem rdi 24), .mov rax (.mem rdi 32), .mov rcx (.mem rdi 40),
   .add r8 (.mem rsi 0), .adc r9 (.mem rsi 8), .adc r10 (.mem rsi 16), .adc r11 (.mem rsi 24), .adc rax (.mem rsi 32), .adc rcx (.mem rsi 40),
   .mov (.mem rdx 0) r8, .mov (.mem rdx 8) r9, .mov (.mem rdx 16) r10, .mov (.mem rdx 24) r11, .mov (.mem rdx 32) rax, .mov (.mem rdx 40) rcx,
   .mov r8 (.mem rdi 48), .mov r9 (.mem rdi 56), .mov r10 (.mem rdi 64), .mov r11 (.mem rdi 72), .mov rax (.mem rdi 80), .mov rcx (.mem rdi 88),
   .adc r8 (.mem rsi 48), .adc r9 (.mem rsi 56), .adc r10 (.mem rsi 64), .adc r11 (.mem rsi 72), .adc rax (.mem rsi 80), .adc rcx (.mem rsi 88),
   .mov (.mem rdx 48) r8, .mov (.mem rdx 56) r9, .mov (.mem rdx 64) r10, .mov (.mem rdx 72) r11, .mov (.mem rdx 80) rax, .mov (.mem rdx 88) rcx,
   .ret]

/-- `P751/AMD64/fp_x64_asm.S:2887-3022` -/
def mp_subadd751x2_asm : List Instr :=
  [.push r12, .push r13, .push r14, .push r15, .push rbx, .xor rax rax, .mov r8 (.mem rdi 0), .mov r9 (.mem rdi 8),
   .mov r10 (.mem rdi 16), .mov r11 (.mem rdi 24), .mov rcx (.mem rdi 32), .sub r8 (.mem rsi 0), .sbb r9 (.mem rsi 8), .sbb r10 (.mem rsi 16),
   .sbb r11 (.mem rsi 24), .sbb rcx (.mem rsi 32), .mov (.mem rdx 0) r8, .mov (.mem rdx 8) r9, .mov (.mem rdx 16) r10, .mov (.mem rdx 24) r11,
   .mov (.mem rdx 32) rcx, .mov r8 (.mem rdi 40), .mov r9 (.mem rdi 48), .mov r10 (.mem rdi 56), .mov r11 (.mem rdi 64), .mov rcx (.mem rdi 72),
   .sbb r8 (.mem rsi 40), .sbb r9 (.mem rsi 48), .sbb r10 (.mem rsi 56), .sbb r11 (.mem rsi 64), .sbb rcx (.mem rsi 72), .mov (.mem rdx 40) r8,
   .mov (.mem rdx 48) r9, .mov (.mem rdx 56) r10, .mov (.mem rdx 64) r11, .mov (.mem rdx 72) rcx, .mov r8 (.mem rdi 80), .mov r9 (.mem rdi 88),
   .mov r10 (.mem rdi 96), .mov r11 (.mem rdi 104), .mov rcx (.mem rdi 112), .sbb r8 (.mem rsi 80), .sbb r9 (.mem rsi 88),
   .sbb r10 (.mem rsi 96), .sbb r11 (.mem rsi 104), .sbb rcx (.mem rsi 112), .mov (.mem rdx 80) r8, .mov (.mem rdx 88) r9,
   .mov (.mem rdx 96) r10, .mov (.mem rdx 104) r11, .mov (.mem rdx 112) rcx, .mov r8 (.mem rdi 120), .mov r9 (.mem rdi 128),
   .mov r10 (.mem rdi 136), .mov r11 (.mem rdi 144), .mov rcx (.mem rdi 152), .sbb r8 (.mem rsi 120), .sbb r9 (.mem rsi 128),
   .sbb r10 (.mem rsi 136), .sbb r11 (.mem rsi 144), .sbb rcx (.mem rsi 152), .mov (.mem rdx 120) r8, .mov (.mem rdx 128) r9,
   .mov (.mem rdx 136) r10, .mov (.mem rdx 144) r11, .mov (.mem rdx 152) rcx, .mov r8 (.mem rdi 160), .mov r9 (.mem rdi 168),
   .mov r10 (.mem rdi 176), .mov r11 (.mem rdi 184), .sbb r8 (.mem rsi 160), .sbb r9 (.mem rsi 168), .sbb r10 (.mem rsi 176),
   .sbb r11 (.mem rsi 184), .sbb rax (.imm 0), .mov r12 (.tab .p 0), .mov r13 (.tab .p 5), .mov r14 (.tab .p 6),
   .mov r15 (.tab .p 7), .mov rdi (.tab .p 8), .mov rsi (.tab .p 9), .mov rbx (.tab .p 10), .mov rcx (.tab .p 11),
   .and r12 rax, .and r13 rax, .and r14 rax, .and r15 rax, .and rdi rax, .and rsi rax, .and rbx rax, .and rcx rax,
   .mov rax (.mem rdx 96), .add rax r12, .mov (.mem rdx 96) rax, .mov rax (.mem rdx 104), .adc rax r12, .mov (.mem rdx 104) rax,
   .mov rax (.mem rdx 112), .adc rax r12, .mov (.mem rdx 112) rax, .mov rax (.mem rdx 120), .adc rax r12, .mov (.mem rdx 120) rax,
   .adc r12 (.mem rdx 128), .adc r13 (.mem rdx 136), .mov (.mem rdx 128) r12, .mov (.mem rdx 136) r13, .mov r12 (.mem rdx 144),
   .mov r13 (.mem rdx 152), .adc r12 r14, .adc r13 r15, .adc r8 rdi, .adc r9 rsi, .adc r10 rbx, .adc r11 rcx,
   .mov (.mem rdx 144) r12, .mov (.mem rdx 152) r13, .mov (.mem rdx 160) r8, .mov (.mem rdx 168) r9, .mov (.mem rdx 176) r10,
   .mov (.mem rdx 184) r11, .pop rbx, .pop r15, .pop r14, .pop r13, .pop r12, .ret, .ret]

/-- `P751/AMD64/fp_x64_asm.S:3030-3147` -/
def mp_dblsub751x2_asm : List Instr :=
  [.push r12, .push r13, .push r14, .push r15, .mov r8 (.mem rdx 0), .mov r9 (.mem rdx 8), .mov r10 (.mem rdx 16),
   .mov r11 (.mem rdx 24), .mov r12 (.mem rdx 32), .mov r13 (.mem rdx 40), .mov r14 (.mem rdx 48), .mov r15 (.mem rdx 56), .sub r8 (.mem rdi 0),
   .sbb r9 (.mem rdi 8), .sbb r10 (.mem rdi 16), .sbb r11 (.mem rdi 24), .sbb r12 (.mem rdi 32), .sbb r13 (.mem rdi 40), .sbb r14 (.mem rdi 48),
   .sbb r15 (.mem rdi 56), .setc rax, .sub r8 (.mem rsi 0), .sbb r9 (.mem rsi 8), .sbb r10 (.mem rsi 16), .sbb r11 (.mem rsi 24),
   .sbb r12 (.mem rsi 32), .sbb r13 (.mem rsi 40), .sbb r14 (.mem rsi 48), .sbb r15 (.mem rsi 56), .setc rcx, .mov (.mem rdx 0) r8,
   .mov (.mem rdx 8) r9, .mov (.mem rdx 16) r10, .mov (.mem rdx 24) r11, .mov (.mem rdx 32) r12, .mov (.mem rdx 40) r13, .mov (.mem rdx 48) r14,
   .mov (.mem rdx 56) r15, .mov r8 (.mem rdx 64), .mov r9 (.mem rdx 72), .mov r10 (.mem rdx 80), .mov r11 (.mem rdx 88), .mov r12 (.mem rdx 96),
   .mov r13 (.mem rdx 104), .mov r14 (.mem rdx 112), .mov r15 (.mem rdx 120), .bt rax, .sbb r8 (.mem rdi 64), .sbb r9 (.mem rdi 72),
   .sbb r10 (.mem rdi 80), .sbb r11 (.mem rdi 88), .sbb r12 (.mem rdi 96), .sbb r13 (.mem rdi 104), .sbb r14 (.mem rdi 112),
   .sbb r15 (.mem rdi 120), .setc rax, .bt rcx, .sbb r8 (.mem rsi 64), .sbb r9 (.mem rsi 72), .sbb r10 (.mem rsi 80),
   .sbb r11 (.mem rsi 88), .sbb r12 (.mem rsi 96), .sbb r13 (.mem rsi 104), .sbb r14 (.mem rsi 112), .sbb r15 (.mem rsi 120), .setc rcx,
   .mov (.mem rdx 64) r8, .mov (.mem rdx 72) r9, .mov (.mem rdx 80) r10, .mov (.mem rdx 88) r11, .mov (.mem rdx 96) r12, .mov (.mem rdx 104) r13,
   .mov (.mem rdx 112) r14, .mov (.mem rdx 120) r15, .mov r8 (.mem rdx 128), .mov r9 (.mem rdx 136), .mov r10 (.mem rdx 144),
   .mov r11 (.mem rdx 152), .mov r12 (.mem rdx 160), .mov r13 (.mem rdx 168), .mov r14 (.mem rdx 176), .mov r15 (.mem rdx 184), .bt rax,
   .sbb r8 (.mem rdi 128), .sbb r9 (.mem rdi 136), .sbb r10 (.mem rdi 144), .sbb r11 (.mem rdi 152), .sbb r12 (.mem rdi 160),
   .sbb r13 (.mem rdi 168), .sbb r14 (.mem rdi 176), .sbb r15 (.mem rdi 184), .bt rcx, .sbb r8 (.mem rsi 128), .sbb r9 (.mem rsi 136),
   .sbb r10 (.mem rsi 144), .sbb r11 (.mem rsi 152), .sbb r12 (.mem rsi 160), .sbb r13 (.mem rsi 168), .sbb r14 (.mem rsi 176),
   .sbb r15 (.mem rsi 184), .mov (.mem rdx 128) r8, .mov (.mem rdx 136) r9, .mov (.mem rdx 144) r10, .mov (.mem rdx 152) r11,
   .mov (.mem rdx 160) r12, .mov (.mem rdx 168) r13, .mov (.mem rdx 176) r14, .mov (.mem rdx 184) r15, .pop r15, .pop r14, .pop r13,
   .pop r12, .ret]

end Secuer.X64.P751
