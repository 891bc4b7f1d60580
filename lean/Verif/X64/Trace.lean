import Verif.X64.Model

/-!
# The addresses a function accesses

What an observer of the memory bus or the caches sees of an execution: the sequence of the addresses that are read and written.  (The
sequence of the instructions is the same in all executions, the functions have no branches; that the instructions take a time that
does not depend on their operands is a matter of the processor.)

`pubStep` follows which registers hold values that depend on the pointers alone.  If it accepts a program, two executions from
states with the same pointers access the same addresses in the same order.
-/

namespace Secuer.X64

/-- Reading an operand: the addresses accessed (`false`: read, `true`: write) -/
def Opd.accR (s : St) : Opd → List (Bool × Digit)
  | .mem b d => [(false, s.reg b + BitVec.ofNat 64 d)]
  | _ => []

/-- Writing to an operand -/
def Opd.accW (s : St) : Opd → List (Bool × Digit)
  | .mem b d => [(true, s.reg b + BitVec.ofNat 64 d)]
  | _ => []

/-- The addresses an instruction accesses; the tables of constants are accessed at fixed addresses that are part of the program
and left out -/
def accesses (s : St) : Instr → List (Bool × Digit)
  | .mov d o => o.accR s ++ d.accW s
  | .add d o | .adc d o | .sub d o | .sbb d o | .and d o | .xor d o | .adcx d o | .adox d o => d.accR s ++ o.accR s ++ d.accW s
  | .mulx _ _ o => o.accR s
  | .push _ => [(true, s.reg .rsp - 8)]
  | .pop _ => [(false, s.reg .rsp)]
  | .ret => [(false, s.reg .rsp)]
  | .setc _ => []
  | .bt _ => []

/-- The addresses accessed by an execution, in order -/
def trace (E : Env) : List Instr → St → List (Bool × Digit)
  | [], _ => []
  | .ret :: _, s => accesses s .ret
  | i :: is, s => accesses s i ++ match exec E s i with
    | some s' => trace E is s'
    | none => []

/-- The operand has no address or one that depends on the pointers alone -/
def Opd.okAddr (pub : List Reg) : Opd → Bool
  | .mem b _ => pub.contains b
  | _ => true

/-- The operand has a value that depends on the pointers alone -/
def Opd.isPub (pub : List Reg) : Opd → Bool
  | .reg r => pub.contains r
  | .imm _ => true
  | _ => false

/-- The registers left after a write to `d` of a value that depends on the pointers alone if `v` says so -/
def Opd.upd (pub : List Reg) (v : Bool) : Opd → List Reg
  | .reg r => if v then r :: pub else pub.filter (· ≠ r)
  | _ => pub

/-- The registers that depend on the pointers alone after an instruction; `none` if an address may depend on something else -/
def pubStep (pub : List Reg) : Instr → Option (List Reg)
  | .mov d o => if o.okAddr pub && d.okAddr pub then some (d.upd pub (o.isPub pub)) else none
  | .add d o | .sub d o =>
    if o.okAddr pub && d.okAddr pub then some (d.upd pub (o.isPub pub && d.isPub pub)) else none
  | .adc d o | .sbb d o | .and d o | .xor d o | .adcx d o | .adox d o =>
    if o.okAddr pub && d.okAddr pub then some (d.upd pub false) else none
  | .mulx hi lo o => if o.okAddr pub then some ((pub.filter (· ≠ lo)).filter (· ≠ hi)) else none
  | .push _ => if pub.contains .rsp then some pub else none
  | .pop r => if pub.contains .rsp then some (pub.filter (· ≠ r)) else none
  | .setc r => some (pub.filter (· ≠ r))
  | .bt _ => some pub
  | .ret => none

/-- All addresses of the program depend on the registers `pub` alone -/
def pubRun : List Reg → List Instr → Bool
  | _, [] => true
  | pub, .ret :: _ => pub.contains .rsp
  | pub, i :: is => match pubStep pub i with
    | some pub' => pubRun pub' is
    | none => false

/-- The two states agree on the registers -/
def Agree (pub : List Reg) (s t : St) : Prop := ∀ r ∈ pub, s.reg r = t.reg r

theorem accR_eq {pub : List Reg} {s t : St} (h : Agree pub s t) {o : Opd} (ho : o.okAddr pub = true) : o.accR s = o.accR t := by
  cases o with
  | mem b d =>
    have : b ∈ pub := by simpa [Opd.okAddr] using ho
    simp [Opd.accR, h b this]
  | _ => rfl

theorem accW_eq {pub : List Reg} {s t : St} (h : Agree pub s t) {o : Opd} (ho : o.okAddr pub = true) : o.accW s = o.accW t := by
  cases o with
  | mem b d =>
    have : b ∈ pub := by simpa [Opd.okAddr] using ho
    simp [Opd.accW, h b this]
  | _ => rfl

theorem store_reg {E : Env} {s s' : St} {a v : Digit} (h : store E s a v = some s') : s'.reg = s.reg := by
  unfold store at h
  split at h
  · cases h; rfl
  · cases h

theorem get_pub {E E' : Env} {pub : List Reg} {s t : St} (h : Agree pub s t) {o : Opd} (ho : o.isPub pub = true) {x y : Digit}
    (hx : get E s o = some x) (hy : get E' t o = some y) : x = y := by
  cases o with
  | reg r =>
    have : r ∈ pub := by simpa [Opd.isPub] using ho
    simp only [get, Option.some.injEq] at hx hy
    rw [← hx, ← hy, h r this]
  | imm v =>
    simp only [get, Option.some.injEq] at hx hy
    rw [← hx, ← hy]
  | mem b d => simp [Opd.isPub] at ho
  | tab a i => simp [Opd.isPub] at ho

theorem put_agree {E E' : Env} {pub : List Reg} {s t s' t' : St} (h : Agree pub s t) {d : Opd} {x y : Digit} {v : Bool}
    (hv : v = true → x = y) (hx : put E s x d = some s') (hy : put E' t y d = some t') : Agree (d.upd pub v) s' t' := by
  cases d with
  | reg r =>
    simp only [put, Option.some.injEq] at hx hy
    subst hx hy
    intro q hq
    simp only [Opd.upd] at hq
    simp only [St.setReg]
    by_cases e : q = r
    · cases v with
      | true => simp [e, hv rfl]
      | false => simp [e] at hq
    · simp only [e, if_false]
      cases v with
      | true =>
        rcases List.mem_cons.mp hq with hq | hq
        · exact absurd hq e
        · exact h q hq
      | false => exact h q (List.mem_filter.mp hq).1
  | imm _ => cases hx
  | mem b o =>
    intro q hq
    rw [store_reg hx, store_reg hy]
    exact h q hq
  | tab _ _ => cases hx

theorem pubStep_sound {E E' : Env} {pub pub' : List Reg} {s t s' t' : St} {i : Instr} (h : Agree pub s t)
    (hp : pubStep pub i = some pub') (hs : exec E s i = some s') (ht : exec E' t i = some t') :
    accesses s i = accesses t i ∧ Agree pub' s' t' := by
  have bin : ∀ {d o : Opd}, (o.okAddr pub && d.okAddr pub) = true →
      d.accR s ++ o.accR s ++ d.accW s = d.accR t ++ o.accR t ++ d.accW t := by
    intro d o ho
    obtain ⟨h1, h2⟩ := Bool.and_eq_true_iff.mp ho
    rw [accR_eq h h1, accR_eq h h2, accW_eq h h2]
  have fil : ∀ {P : List Reg} {a b : St} {r : Reg} (x y : Digit), Agree P a b →
      Agree (P.filter (· ≠ r)) (a.setReg r x) (b.setReg r y) := by
    intro P a b r x y hab q hq
    have hq := List.mem_filter.mp hq
    have e : q ≠ r := by simpa using hq.2
    simp [St.setReg, e, hab q hq.1]
  cases i with
  | mov d o =>
    simp only [pubStep] at hp
    by_cases ho : (o.okAddr pub && d.okAddr pub) = true
    · rw [if_pos ho] at hp; cases hp
      obtain ⟨h1, h2⟩ := Bool.and_eq_true_iff.mp ho
      refine ⟨by simp only [accesses]; rw [accR_eq h h1, accW_eq h h2], ?_⟩
      obtain ⟨x, hx, hs⟩ := Option.bind_eq_some_iff.mp hs
      obtain ⟨y, hy, ht⟩ := Option.bind_eq_some_iff.mp ht
      exact put_agree h (fun hv => get_pub h hv hx hy) hs ht
    · rw [if_neg ho] at hp; cases hp
  | add d o =>
    simp only [pubStep] at hp
    by_cases ho : (o.okAddr pub && d.okAddr pub) = true
    · rw [if_pos ho] at hp; cases hp
      refine ⟨bin ho, ?_⟩
      obtain ⟨x, hx, hs⟩ := Option.bind_eq_some_iff.mp hs
      obtain ⟨y, hy, hs⟩ := Option.bind_eq_some_iff.mp hs
      obtain ⟨u, hu, hs⟩ := Option.bind_eq_some_iff.mp hs
      obtain ⟨x', hx', ht⟩ := Option.bind_eq_some_iff.mp ht
      obtain ⟨y', hy', ht⟩ := Option.bind_eq_some_iff.mp ht
      obtain ⟨u', hu', ht⟩ := Option.bind_eq_some_iff.mp ht
      cases hs; cases ht
      refine (fun g : Agree _ u u' => g) (put_agree h (fun hv => ?_) hu hu')
      obtain ⟨h1, h2⟩ := Bool.and_eq_true_iff.mp hv
      rw [get_pub h h1 hy hy', get_pub h h2 hx hx']
    · rw [if_neg ho] at hp; cases hp
  | sub d o =>
    simp only [pubStep] at hp
    by_cases ho : (o.okAddr pub && d.okAddr pub) = true
    · rw [if_pos ho] at hp; cases hp
      refine ⟨bin ho, ?_⟩
      obtain ⟨x, hx, hs⟩ := Option.bind_eq_some_iff.mp hs
      obtain ⟨y, hy, hs⟩ := Option.bind_eq_some_iff.mp hs
      obtain ⟨u, hu, hs⟩ := Option.bind_eq_some_iff.mp hs
      obtain ⟨x', hx', ht⟩ := Option.bind_eq_some_iff.mp ht
      obtain ⟨y', hy', ht⟩ := Option.bind_eq_some_iff.mp ht
      obtain ⟨u', hu', ht⟩ := Option.bind_eq_some_iff.mp ht
      cases hs; cases ht
      refine (fun g : Agree _ u u' => g) (put_agree h (fun hv => ?_) hu hu')
      obtain ⟨h1, h2⟩ := Bool.and_eq_true_iff.mp hv
      rw [get_pub h h1 hy hy', get_pub h h2 hx hx']
    · rw [if_neg ho] at hp; cases hp
  | adc d o | sbb d o | adcx d o | adox d o =>
    simp only [pubStep] at hp
    by_cases ho : (o.okAddr pub && d.okAddr pub) = true
    · rw [if_pos ho] at hp; cases hp
      refine ⟨bin ho, ?_⟩
      obtain ⟨_, _, hs⟩ := Option.bind_eq_some_iff.mp hs
      obtain ⟨_, _, ht⟩ := Option.bind_eq_some_iff.mp ht
      obtain ⟨x, hx, hs⟩ := Option.bind_eq_some_iff.mp hs
      obtain ⟨y, hy, hs⟩ := Option.bind_eq_some_iff.mp hs
      obtain ⟨u, hu, hs⟩ := Option.bind_eq_some_iff.mp hs
      obtain ⟨x', hx', ht⟩ := Option.bind_eq_some_iff.mp ht
      obtain ⟨y', hy', ht⟩ := Option.bind_eq_some_iff.mp ht
      obtain ⟨u', hu', ht⟩ := Option.bind_eq_some_iff.mp ht
      cases hs; cases ht
      exact (fun g : Agree _ u u' => g) (put_agree h (fun hv => nomatch hv) hu hu')
    · rw [if_neg ho] at hp; cases hp
  | and d o | xor d o =>
    simp only [pubStep] at hp
    by_cases ho : (o.okAddr pub && d.okAddr pub) = true
    · rw [if_pos ho] at hp; cases hp
      refine ⟨bin ho, ?_⟩
      obtain ⟨x, hx, hs⟩ := Option.bind_eq_some_iff.mp hs
      obtain ⟨y, hy, hs⟩ := Option.bind_eq_some_iff.mp hs
      obtain ⟨u, hu, hs⟩ := Option.bind_eq_some_iff.mp hs
      obtain ⟨x', hx', ht⟩ := Option.bind_eq_some_iff.mp ht
      obtain ⟨y', hy', ht⟩ := Option.bind_eq_some_iff.mp ht
      obtain ⟨u', hu', ht⟩ := Option.bind_eq_some_iff.mp ht
      cases hs; cases ht
      exact (fun g : Agree _ u u' => g) (put_agree h (fun hv => nomatch hv) hu hu')
    · rw [if_neg ho] at hp; cases hp
  | mulx hi lo o =>
    simp only [pubStep] at hp
    by_cases ho : o.okAddr pub = true
    · rw [if_pos ho] at hp; cases hp
      refine ⟨accR_eq h ho, ?_⟩
      obtain ⟨x, hx, hs⟩ := Option.bind_eq_some_iff.mp hs
      obtain ⟨y, hy, ht⟩ := Option.bind_eq_some_iff.mp ht
      cases hs; cases ht
      exact fil _ _ (fil _ _ h)
    · rw [if_neg ho] at hp; cases hp
  | push r =>
    simp only [pubStep] at hp
    by_cases ho : pub.contains .rsp = true
    · rw [if_pos ho] at hp; cases hp
      have hr : s.reg .rsp = t.reg .rsp := h _ (by simpa using ho)
      refine ⟨by simp only [accesses, hr], ?_⟩
      intro q hq
      have e1 := store_reg hs
      have e2 := store_reg ht
      rw [e1, e2]
      simp only [St.setReg]
      split
      · rw [hr]
      · exact h q hq
    · rw [if_neg ho] at hp; cases hp
  | pop r =>
    simp only [pubStep] at hp
    by_cases ho : pub.contains .rsp = true
    · rw [if_pos ho] at hp; cases hp
      have hr : s.reg .rsp = t.reg .rsp := h _ (by simpa using ho)
      refine ⟨by simp only [accesses, hr], ?_⟩
      obtain ⟨x, hx, hs⟩ := Option.bind_eq_some_iff.mp hs
      obtain ⟨y, hy, ht⟩ := Option.bind_eq_some_iff.mp ht
      cases hs; cases ht
      refine fil _ _ ?_
      intro q hq
      simp only [St.setReg]
      split
      · rw [hr]
      · exact h q hq
    · rw [if_neg ho] at hp; cases hp
  | setc r =>
    cases hp
    obtain ⟨x, hx, hs⟩ := Option.bind_eq_some_iff.mp hs
    obtain ⟨y, hy, ht⟩ := Option.bind_eq_some_iff.mp ht
    cases hs; cases ht
    exact ⟨rfl, fil _ _ h⟩
  | bt r =>
    cases hp; cases hs; cases ht
    exact ⟨rfl, h⟩
  | ret => cases hp

/-- Two executions of an accepted program from states that agree on the pointers access the same addresses in the same order. -/
theorem trace_eq {E E' : Env} : ∀ {prog : List Instr} {pub : List Reg} {s t : St} {a b : St × Digit}, Agree pub s t →
    pubRun pub prog = true → run E prog s = some a → run E' prog t = some b → trace E prog s = trace E' prog t
  | [], _, _, _, _, _, _, _, hs, _ => by cases hs
  | i :: is, pub, s, t, a, b, h, hp, hs, ht => by
    by_cases hr : i = .ret
    · subst hr
      have : Reg.rsp ∈ pub := by simpa [pubRun] using hp
      simp only [trace, accesses, h _ this]
    · have hp' : (match pubStep pub i with | some pub' => pubRun pub' is | none => false) = true := by
        cases i <;> first | exact hp | exact absurd rfl hr
      have hs' : (exec E s i).bind (run E is) = some a := by
        cases i <;> first | exact hs | exact absurd rfl hr
      have ht' : (exec E' t i).bind (run E' is) = some b := by
        cases i <;> first | exact ht | exact absurd rfl hr
      obtain ⟨s', hs1, hs2⟩ := Option.bind_eq_some_iff.mp hs'
      obtain ⟨t', ht1, ht2⟩ := Option.bind_eq_some_iff.mp ht'
      cases hpp : pubStep pub i with
      | none => rw [hpp] at hp'; cases hp'
      | some pub' =>
        rw [hpp] at hp'
        obtain ⟨h1, h2⟩ := pubStep_sound h hpp hs1 ht1
        have e1 : trace E (i :: is) s = accesses s i ++ trace E is s' := by
          cases i <;> first | exact absurd rfl hr | (simp only [trace, hs1])
        have e2 : trace E' (i :: is) t = accesses t i ++ trace E' is t' := by
          cases i <;> first | exact absurd rfl hr | (simp only [trace, ht1])
        rw [e1, e2, h1, trace_eq h2 hp' hs2 ht2]

end Secuer.X64
