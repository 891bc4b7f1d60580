import Verif.Arm.Regs

/-!
# The addresses a function accesses (64-bit ARM)

As `Verif/X64/Trace.lean`: the sequence of the addresses read and written by an execution, and a check that it depends on the
pointers alone.
-/

namespace Secuer.Arm

open Secuer.X64 (Digit Tab Env aligned bit sumOf carryOf diffOf borrowOf)

/-- The addresses an instruction accesses (`false`: read, `true`: write).  The tables of constants are accessed at fixed addresses
that are part of the program and left out. -/
def accesses (s : St) : Instr → List (Bool × Digit)
  | .ldr _ b o => [(false, s.reg b + BitVec.ofNat 64 o)]
  | .ldp _ _ b o => [(false, s.reg b + BitVec.ofNat 64 o), (false, s.reg b + BitVec.ofNat 64 (o + 8))]
  | .str _ b o => [(true, s.reg b + BitVec.ofNat 64 o)]
  | .stp _ _ b o => [(true, s.reg b + BitVec.ofNat 64 o), (true, s.reg b + BitVec.ofNat 64 (o + 8))]
  | _ => []

/-- The addresses accessed by an execution, in order -/
def trace (E : Env) : List Instr → St → List (Bool × Digit)
  | [], _ => []
  | .ret :: _, _ => []
  | i :: is, s => accesses s i ++ match exec E s i with
    | some s' => trace E is s'
    | none => []

/-- The base register of the address -/
def Instr.base : Instr → Option Reg
  | .ldr _ b _ | .ldp _ _ b _ | .str _ b _ | .stp _ _ b _ => some b
  | _ => none

/-- The registers that depend on the pointers alone after an instruction; `none` if an address may depend on something else -/
def pubStep (pub : List Reg) (i : Instr) : Option (List Reg) :=
  match i with
  | .addi d a _ | .subi d a _ => some (if pub.contains a then d :: pub else pub.filter (· ≠ d))
  | _ => match i.base with
    | some b => if pub.contains b then some (pub.filter (fun r => !i.writes.contains r)) else none
    | none => some (pub.filter (fun r => !i.writes.contains r))

/-- All addresses of the program depend on the registers `pub` alone -/
def pubRun : List Reg → List Instr → Bool
  | _, [] => true
  | _, .ret :: _ => true
  | pub, i :: is => match pubStep pub i with
    | some pub' => pubRun pub' is
    | none => false

/-- The two states agree on the registers -/
def Agree (pub : List Reg) (s t : St) : Prop := ∀ r ∈ pub, s.reg r = t.reg r

theorem accesses_eq {pub : List Reg} {s t : St} (h : Agree pub s t) {i : Instr} (hb : ∀ b, i.base = some b → b ∈ pub) :
    accesses s i = accesses t i := by
  cases i with
  | ldr d b o => simp only [accesses, h b (hb b rfl)]
  | ldp d e b o => simp only [accesses, h b (hb b rfl)]
  | str x b o => simp only [accesses, h b (hb b rfl)]
  | stp x y b o => simp only [accesses, h b (hb b rfl)]
  | _ => rfl

theorem pubStep_sound {E E' : Env} {pub pub' : List Reg} {s t s' t' : St} {i : Instr} (h : Agree pub s t)
    (hp : pubStep pub i = some pub') (hs : exec E s i = some s') (ht : exec E' t i = some t') :
    accesses s i = accesses t i ∧ Agree pub' s' t' := by
  have gen : (match i.base with
      | some b => if pub.contains b then some (pub.filter (fun r => !i.writes.contains r)) else none
      | none => some (pub.filter (fun r => !i.writes.contains r))) = some pub' →
      accesses s i = accesses t i ∧ Agree pub' s' t' := by
    intro hp
    have ag : Agree (pub.filter (fun r => !i.writes.contains r)) s' t' := by
      intro q hq
      have hq := List.mem_filter.mp hq
      have hn : q ∉ i.writes := by simpa using hq.2
      rw [exec_keep hn hs, exec_keep hn ht, h q hq.1]
    cases hb : i.base with
    | none =>
      rw [hb] at hp
      cases hp
      exact ⟨accesses_eq h (fun b e => by rw [hb] at e; cases e), ag⟩
    | some b =>
      rw [hb] at hp
      by_cases hc : pub.contains b = true
      · simp only [hc, if_true] at hp
        cases hp
        exact ⟨accesses_eq h (fun c e => by rw [hb] at e; cases e; simpa using hc), ag⟩
      · simp only [hc] at hp
        cases hp
  have lin : ∀ (d a : Reg) (f : Digit → Digit), s' = s.setReg d (f (s.reg a)) → t' = t.setReg d (f (t.reg a)) →
      Agree (if pub.contains a then d :: pub else pub.filter (· ≠ d)) s' t' := by
    intro d a f e1 e2 q hq
    subst e1 e2
    simp only [St.setReg]
    by_cases hc : pub.contains a = true
    · rw [if_pos hc] at hq
      have ha : s.reg a = t.reg a := h a (by simpa using hc)
      rw [ha]
      split
      · rfl
      · rename_i hne
        exact h q ((List.mem_cons.mp hq).resolve_left hne)
    · rw [if_neg hc] at hq
      have hq := List.mem_filter.mp hq
      have hne : q ≠ d := by simpa using hq.2
      rw [if_neg hne, if_neg hne, h q hq.1]
  cases i with
  | addi d a k =>
    simp only [pubStep, Option.some.injEq] at hp
    subst hp
    cases hs; cases ht
    exact ⟨rfl, lin d a (· + BitVec.ofNat 64 k) rfl rfl⟩
  | subi d a k =>
    simp only [pubStep, Option.some.injEq] at hp
    subst hp
    cases hs; cases ht
    exact ⟨rfl, lin d a (· - BitVec.ofNat 64 k) rfl rfl⟩
  | _ => exact gen hp

/-- Two executions of an accepted program from states that agree on the pointers access the same addresses in the same order. -/
theorem trace_eq {E E' : Env} : ∀ {prog : List Instr} {pub : List Reg} {s t : St} {a b : St × Digit}, Agree pub s t →
    pubRun pub prog = true → run E prog s = some a → run E' prog t = some b → trace E prog s = trace E' prog t
  | [], _, _, _, _, _, _, _, hs, _ => by cases hs
  | i :: is, pub, s, t, a, b, h, hp, hs, ht => by
    by_cases hr : i = .ret
    · subst hr
      rfl
    · have hp' : (match pubStep pub i with | some pub' => pubRun pub' is | none => false) = true := by
        cases i <;> first | exact hp | exact absurd rfl hr
      have hs' : (exec E s i).bind (run E is) = some a := by
        cases i <;> first | exact hs | exact absurd rfl hr
      have ht' : (exec E' t i).bind (run E' is) = some b := by
        cases i <;> first | exact ht | exact absurd rfl hr
      obtain ⟨s', hs1, hs2⟩ := Option.bind_eq_some_iff.mp hs'
      obtain ⟨t', ht1, ht2⟩ := Option.bind_eq_some_iff.mp ht'
      cases hpp : pubStep pub i with
      | none => rw [hpp] at hp'; cases hp'
      | some pub' =>
        rw [hpp] at hp'
        obtain ⟨h1, h2⟩ := pubStep_sound h hpp hs1 ht1
        have e1 : trace E (i :: is) s = accesses s i ++ trace E is s' := by
          cases i <;> first | exact absurd rfl hr | (simp only [trace, hs1])
        have e2 : trace E' (i :: is) t = accesses t i ++ trace E' is t' := by
          cases i <;> first | exact absurd rfl hr | (simp only [trace, ht1])
        rw [e1, e2, h1, trace_eq h2 hp' hs2 ht2]

end Secuer.Arm
