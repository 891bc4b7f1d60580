import Verif.Arm.Model

/-!
# Which registers a program uses

What follows from the text of a program about a register it does not write, or writes before it reads it, and about a load from
an address that is not accessible.
-/

namespace Secuer.Arm

open Secuer.X64 (Digit Env aligned sumOf carryOf diffOf borrowOf)

variable {E : Env}

/-- The registers an instruction writes -/
def Instr.writes : Instr → List Reg
  | .ldr d _ _ => [d]
  | .ldp d e _ _ => [d, e]
  | .lit d _ _ => [d]
  | .str _ _ _ => []
  | .stp _ _ _ _ => []
  | .addi d _ _ => [d]
  | .subi d _ _ => [d]
  | .addsi d _ _ => [d]
  | .adds d _ _ => [d]
  | .adcs d _ _ => [d]
  | .adc d _ _ => [d]
  | .subs d _ _ => [d]
  | .sbcs d _ _ => [d]
  | .sbc d _ _ => [d]
  | .sub d _ _ => [d]
  | .and d _ _ => [d]
  | .orr d _ _ _ => [d]
  | .lsl d _ _ => [d]
  | .mul d _ _ => [d]
  | .umulh d _ _ => [d]
  | .ret => []

/-- The registers of an operand -/
def Src.regs : Src → List Reg
  | .reg r => [r]
  | .xzr => []

/-- The registers an instruction reads -/
def Instr.reads : Instr → List Reg
  | .ldr _ b _ => [b]
  | .ldp _ _ b _ => [b]
  | .lit _ _ _ => []
  | .str x b _ => b :: x.regs
  | .stp x y b _ => b :: (x.regs ++ y.regs)
  | .addi _ a _ => [a]
  | .subi _ a _ => [a]
  | .addsi _ a _ => a.regs
  | .adds _ a b => a.regs ++ b.regs
  | .adcs _ a b => a.regs ++ b.regs
  | .adc _ a b => a.regs ++ b.regs
  | .subs _ a b => a.regs ++ b.regs
  | .sbcs _ a b => a.regs ++ b.regs
  | .sbc _ a b => a.regs ++ b.regs
  | .sub _ a b => a.regs ++ b.regs
  | .and _ a b => a.regs ++ b.regs
  | .orr _ a b _ => a.regs ++ b.regs
  | .lsl _ a _ => a.regs
  | .mul _ a b => a.regs ++ b.regs
  | .umulh _ a b => a.regs ++ b.regs
  | .ret => [.x30]

theorem setReg_ne {s : St} {r d : Reg} {v : Digit} (h : r ≠ d) : (s.setReg d v).reg r = s.reg r := if_neg h

theorem store_reg {s s' : St} {a v : Digit} (h : store E s a v = some s') : s'.reg = s.reg ∧ s'.c = s.c := by
  unfold store at h
  by_cases h2 : (aligned a && E.wr a) = true
  · rw [if_pos h2] at h; cases h; exact ⟨rfl, rfl⟩
  · rw [if_neg h2] at h; cases h

/-- An instruction changes no register but those it writes. -/
theorem exec_keep {s s' : St} {i : Instr} {r : Reg} (hr : r ∉ i.writes) (h : exec E s i = some s') : s'.reg r = s.reg r := by
  cases i <;> simp only [exec, Option.bind_eq_bind, Option.bind_eq_some_iff, Option.some.injEq, Instr.writes, List.mem_cons,
    List.not_mem_nil, or_false, not_or, reduceCtorEq] at h hr
  case ldr => obtain ⟨_, _, _, _, rfl⟩ := h; exact setReg_ne hr
  case ldp d e b o =>
    by_cases hd : d = e
    · rw [if_pos hd] at h; cases h
    · rw [if_neg hd] at h
      simp only [Option.bind_eq_some_iff, Option.some.injEq] at h
      obtain ⟨_, _, _, _, _, _, _, _, rfl⟩ := h
      rw [setReg_ne hr.2, setReg_ne hr.1]
  case lit => obtain ⟨_, _, rfl⟩ := h; exact setReg_ne hr
  case str => obtain ⟨_, _, h⟩ := h; rw [(store_reg h).1]
  case stp =>
    obtain ⟨_, _, _, h1, _, _, h2⟩ := h
    rw [(store_reg h2).1, (store_reg h1).1]
  case orr | lsl =>
    split at h
    · cases h; exact setReg_ne hr
    · cases h
  case adcs | adc | sbcs | sbc => obtain ⟨_, _, rfl⟩ := h; exact setReg_ne hr
  all_goals (cases h; exact setReg_ne hr)

/-- A program changes no register but those its instructions write. -/
theorem run_keep {r : Reg} : ∀ {prog : List Instr} {s s' : St} {a : Digit}, (∀ i ∈ prog, r ∉ i.writes) →
    run E prog s = some (s', a) → s'.reg r = s.reg r
  | [], _, _, _, _, h => by cases h
  | i :: is, s, s', a, hw, h => by
    by_cases hi : i = .ret
    · subst hi
      cases h
      rfl
    · have h' : (exec E s i).bind (run E is) = some (s', a) := by
        cases i <;> first | exact h | exact absurd rfl hi
      rw [Option.bind_eq_some_iff] at h'
      obtain ⟨t, h1, h2⟩ := h'
      rw [run_keep (fun j hj => hw j (List.mem_cons_of_mem _ hj)) h2, exec_keep (hw i (List.mem_cons_self ..)) h1]

/-! ## A register written before it is read -/

/-- The first instruction that writes the register does so before it is read. -/
def writesFirst (r : Reg) : List Instr → Bool
  | [] => false
  | i :: is => !(i.reads.contains r) && (i != .ret) && (i.writes.contains r || writesFirst r is)

theorem get_set {s : St} {r : Reg} {v : Digit} {x : Src} (h : r ∉ x.regs) : (s.setReg r v).get x = s.get x := by
  cases x with
  | reg q =>
    have : q ≠ r := fun e => h (by rw [e]; exact List.mem_singleton.mpr rfl)
    exact setReg_ne this
  | xzr => rfl

theorem addr_set {s : St} {r b : Reg} {v : Digit} (hb : r ≠ b) (o : ℕ) : addr (s.setReg r v) b o = addr s b o := by
  unfold addr
  by_cases h : b = .sp
  · subst h
    rw [setReg_ne hb.symm]
  · rw [if_neg (fun c => h c.1), if_neg (fun c => h c.1), setReg_ne hb.symm]

theorem setReg_comm {s : St} {r d : Reg} {v w : Digit} (h : d ≠ r) : (s.setReg r v).setReg d w = (s.setReg d w).setReg r v := by
  unfold St.setReg
  congr 1
  funext q
  dsimp only
  by_cases h1 : q = d
  · rw [if_pos h1, if_neg (by rw [h1]; exact h), if_pos h1]
  · rw [if_neg h1, if_neg h1]

theorem setReg_same {s : St} {r : Reg} {v w : Digit} : (s.setReg r v).setReg r w = s.setReg r w := by
  unfold St.setReg
  congr 1
  funext q
  dsimp only
  by_cases h1 : q = r
  · rw [if_pos h1, if_pos h1]
  · rw [if_neg h1, if_neg h1, if_neg h1]

theorem load_set {s : St} {r : Reg} {v a : Digit} : load E (s.setReg r v) a = load E s a := rfl

theorem store_set {s : St} {r : Reg} {v a w : Digit} :
    store E (s.setReg r v) a w = (store E s a w).map (fun t => t.setReg r v) := by
  unfold store
  by_cases h2 : (aligned a && E.wr a) = true
  · rw [if_pos h2, if_pos h2]; rfl
  · rw [if_neg h2, if_neg h2]; rfl

/-- The value of a register an instruction does not read matters only to that register, and not at all if it is written. -/
theorem exec_set {s : St} {i : Instr} {r : Reg} {v : Digit} (hr : r ∉ i.reads) :
    exec E (s.setReg r v) i = (exec E s i).map (fun t => if r ∈ i.writes then t else t.setReg r v) := by
  have one : ∀ (d : Reg) (w : Digit), (s.setReg r v).setReg d w =
      if r ∈ [d] then s.setReg d w else (s.setReg d w).setReg r v := by
    intro d w
    by_cases h : r = d
    · subst h
      rw [if_pos (List.mem_singleton.mpr rfl), setReg_same]
    · rw [if_neg (by rw [List.mem_singleton]; exact h), setReg_comm (Ne.symm h)]
  have oneC : ∀ (d : Reg) (w : Digit) (c : Bool), ((s.setReg r v).setReg d w).setC c =
      if r ∈ [d] then (s.setReg d w).setC c else ((s.setReg d w).setC c).setReg r v := by
    intro d w c
    rw [one]
    by_cases h : r ∈ [d]
    · rw [if_pos h, if_pos h]
    · rw [if_neg h, if_neg h]; rfl
  have hc : (s.setReg r v).c = s.c := rfl
  have fin : ∀ {β : Type} (o : Option β) (f g : β → Option St), (∀ x, f x = (g x).map (fun t => if r ∈ i.writes then t else t.setReg r v)) →
      o.bind f = (o.bind g).map (fun t => if r ∈ i.writes then t else t.setReg r v) := by
    intro β o f g h
    cases o with
    | none => rfl
    | some x => exact h x
  cases i with
  | ldr d b o =>
    have hb : r ≠ b := fun h => hr (by rw [h]; exact List.mem_singleton.mpr rfl)
    simp only [exec, addr_set hb, load_set, Option.bind_eq_bind]
    exact fin _ _ _ fun a => fin _ _ _ fun w => congrArg some (one d w)
  | ldp d e b o =>
    have hb : r ≠ b := fun h => hr (by rw [h]; exact List.mem_singleton.mpr rfl)
    have two : ∀ w x, ((s.setReg r v).setReg d w).setReg e x =
        if r ∈ [d, e] then (s.setReg d w).setReg e x else ((s.setReg d w).setReg e x).setReg r v := by
      intro w x
      by_cases h : r = e
      · subst h
        rw [if_pos (by simp)]
        by_cases h' : r = d
        · subst h'
          rw [setReg_same, setReg_same, setReg_same]
        · rw [setReg_comm (Ne.symm h'), setReg_same]
      · by_cases h' : r = d
        · subst h'
          rw [if_pos (by simp), setReg_same]
        · rw [if_neg (by simp [h, h']), setReg_comm (Ne.symm h'), setReg_comm (Ne.symm h)]
    by_cases hd : d = e
    · simp only [exec, if_pos hd, Option.map_none]
    · simp only [exec, if_neg hd, addr_set hb, load_set, Option.bind_eq_bind]
      exact fin _ _ _ fun a => fin _ _ _ fun w => fin _ _ _ fun a' => fin _ _ _ fun x => congrArg some (two w x)
  | lit d t j =>
    simp only [exec, Option.bind_eq_bind]
    exact fin _ _ _ fun w => congrArg some (one d w)
  | str x b o =>
    have hb : r ≠ b := fun h => hr (by rw [h]; exact List.mem_cons_self ..)
    have hx : r ∉ x.regs := fun h => hr (List.mem_cons_of_mem _ h)
    simp only [exec, addr_set hb, get_set hx, Option.bind_eq_bind]
    exact fin _ _ _ fun a => store_set
  | stp x y b o =>
    have hb : r ≠ b := fun h => hr (by rw [h]; exact List.mem_cons_self ..)
    have hx : r ∉ x.regs := fun h => hr (List.mem_cons_of_mem _ (List.mem_append_left _ h))
    have hy : r ∉ y.regs := fun h => hr (List.mem_cons_of_mem _ (List.mem_append_right _ h))
    simp only [exec, addr_set hb, get_set hx, get_set hy, Option.bind_eq_bind]
    refine fin _ _ _ fun a => ?_
    rw [store_set, Option.bind_map]
    exact fin _ _ _ fun t => fin _ _ _ fun a' => store_set
  | addi d a k | subi d a k =>
    have ha : r ≠ a := fun h => hr (by rw [h]; exact List.mem_singleton.mpr rfl)
    simp only [exec, setReg_ne (s := s) (v := v) ha.symm]
    exact congrArg some (one _ _)
  | addsi d a k =>
    have ha : r ∉ a.regs := hr
    simp only [exec, get_set ha]
    exact congrArg some (oneC _ _ _)
  | lsl d a k =>
    have ha : r ∉ a.regs := hr
    by_cases hk : k < 64
    · simp only [exec, get_set ha, if_pos hk]
      exact congrArg some (one _ _)
    · simp only [exec, Option.map_none, if_neg hk]
  | orr d a b k =>
    have ha : r ∉ a.regs := fun h => hr (List.mem_append_left _ h)
    have hb : r ∉ b.regs := fun h => hr (List.mem_append_right _ h)
    by_cases hk : k < 64
    · simp only [exec, get_set ha, get_set hb, if_pos hk]
      exact congrArg some (one _ _)
    · simp only [exec, Option.map_none, if_neg hk]
  | ret => rfl
  | sub d a b | and d a b | mul d a b | umulh d a b =>
    have ha : r ∉ a.regs := fun h => hr (List.mem_append_left _ h)
    have hb : r ∉ b.regs := fun h => hr (List.mem_append_right _ h)
    simp only [exec, get_set ha, get_set hb]
    exact congrArg some (one _ _)
  | adds d a b | subs d a b =>
    have ha : r ∉ a.regs := fun h => hr (List.mem_append_left _ h)
    have hb : r ∉ b.regs := fun h => hr (List.mem_append_right _ h)
    simp only [exec, get_set ha, get_set hb]
    exact congrArg some (oneC _ _ _)
  | adc d a b | sbc d a b =>
    have ha : r ∉ a.regs := fun h => hr (List.mem_append_left _ h)
    have hb : r ∉ b.regs := fun h => hr (List.mem_append_right _ h)
    simp only [exec, get_set ha, get_set hb, hc, Option.bind_eq_bind]
    exact fin _ _ _ fun c => congrArg some (one _ _)
  | adcs d a b | sbcs d a b =>
    have ha : r ∉ a.regs := fun h => hr (List.mem_append_left _ h)
    have hb : r ∉ b.regs := fun h => hr (List.mem_append_right _ h)
    simp only [exec, get_set ha, get_set hb, hc, Option.bind_eq_bind]
    exact fin _ _ _ fun c => congrArg some (oneC _ _ _)

/-- A program that writes a register before it reads it does the same whatever the register held at the start. -/
theorem run_set {r : Reg} {v : Digit} : ∀ {prog : List Instr} {s : St}, writesFirst r prog = true →
    run E prog (s.setReg r v) = run E prog s
  | [], _, h => by cases h
  | i :: is, s, h => by
    simp only [writesFirst, Bool.and_eq_true, Bool.or_eq_true, Bool.not_eq_true', bne_iff_ne, ne_eq, List.contains_iff_mem,
      ← Bool.not_eq_true] at h
    obtain ⟨⟨hr, hi⟩, hw⟩ := h
    have step : ∀ t, run E (i :: is) t = (exec E t i).bind (run E is) := by
      intro t
      cases i <;> first | rfl | exact absurd rfl hi
    rw [step, step, exec_set hr, Option.bind_map]
    congr 1
    funext t
    by_cases h' : r ∈ i.writes
    · simp only [Function.comp_def, if_pos h']
    · simp only [Function.comp_def, if_neg h']
      exact run_set (hw.resolve_left h')

/-! ## A load that is not permitted -/

/-- A load through a register, before anything has written that register -/
def loadsAt (r : Reg) (o : ℕ) : List Instr → Bool
  | [] => false
  | .ldp d e b k :: is => (b == r && k == o) || (!([d, e].contains r) && loadsAt r o is)
  | i :: is => (i != .ret) && !(i.writes.contains r) && loadsAt r o is

/-- A program fails if it loads from an address that is not accessible. -/
theorem run_load_none {r : Reg} {o : ℕ} : ∀ {prog : List Instr} {s : St}, loadsAt r o prog = true →
    E.rd (s.reg r + BitVec.ofNat 64 o) = false → run E prog s = none
  | [], _, h, _ => by cases h
  | i :: is, s, h, hn => by
    have step : i ≠ .ret → r ∉ i.writes → loadsAt r o is = true → run E (i :: is) s = none := by
      intro hi hw hl
      have e : run E (i :: is) s = (exec E s i).bind (run E is) := by
        cases i <;> first | rfl | exact absurd rfl hi
      rw [e]
      cases ht : exec E s i with
      | none => rfl
      | some t =>
        rw [Option.bind_some]
        exact run_load_none hl (by rw [exec_keep hw ht]; exact hn)
    cases i with
    | ldp d e b k =>
      simp only [loadsAt, Bool.or_eq_true, Bool.and_eq_true, beq_iff_eq, Bool.not_eq_true', List.contains_iff_mem,
        ← Bool.not_eq_true] at h
      rcases h with ⟨rfl, rfl⟩ | ⟨hw, hl⟩
      · show (exec E s (.ldp d e b k)).bind (run E is) = none
        have : exec E s (.ldp d e b k) = none := by
          simp only [exec]
          by_cases hd : d = e
          · rw [if_pos hd]
          · rw [if_neg hd]
            unfold addr
            by_cases hs : b = .sp ∧ (s.reg .sp).toNat % 16 ≠ 0
            · rw [if_pos hs]; rfl
            · rw [if_neg hs]
              simp only [Option.bind_eq_bind, Option.bind_some, load, hn, Bool.and_false, Bool.false_eq_true, if_false,
                Option.bind_none]
        rw [this]; rfl
      · exact step (by simp) hw hl
    | ret => simp [loadsAt] at h
    | _ =>
      simp only [loadsAt, Bool.and_eq_true, Bool.not_eq_true', bne_iff_ne, ne_eq, List.contains_iff_mem,
        ← Bool.not_eq_true] at h
      exact step h.1.1 h.1.2 h.2

/-! ## The words a program stores -/

/-- An instruction stores only through `r`, at offsets for which `ok` holds. -/
def Instr.storesOnly (r : Reg) (ok : ℕ → Bool) : Instr → Bool
  | .str _ b o => b == r && ok o
  | .stp _ _ b o => b == r && ok o && ok (o + 8)
  | _ => true

theorem store_mem {s s' : St} {a v b : Digit} (h : store E s a v = some s') (hb : b ≠ a) : s'.mem b = s.mem b := by
  unfold store at h
  by_cases h2 : (aligned a && E.wr a) = true
  · rw [if_pos h2] at h; cases h; exact if_neg hb
  · rw [if_neg h2] at h; cases h

theorem addr_some {s : St} {b : Reg} {o : ℕ} {a : Digit} (h : addr s b o = some a) : a = s.reg b + BitVec.ofNat 64 o := by
  unfold addr at h
  by_cases hs : b = .sp ∧ (s.reg .sp).toNat % 16 ≠ 0
  · rw [if_pos hs] at h; cases h
  · rw [if_neg hs] at h; cases h; rfl

theorem exec_mem {s s' : St} {i : Instr} {r : Reg} {ok : ℕ → Bool} {a : Digit} (hs : i.storesOnly r ok = true)
    (ha : ∀ o, ok o = true → a ≠ s.reg r + BitVec.ofNat 64 o) (h : exec E s i = some s') : s'.mem a = s.mem a := by
  cases i <;> simp only [exec, Option.bind_eq_bind, Option.bind_eq_some_iff, Option.some.injEq, reduceCtorEq] at h
  case ldr => obtain ⟨_, _, _, _, rfl⟩ := h; rfl
  case ldp d e b o =>
    by_cases hd : d = e
    · rw [if_pos hd] at h; cases h
    · rw [if_neg hd] at h
      simp only [Option.bind_eq_some_iff, Option.some.injEq] at h
      obtain ⟨_, _, _, _, _, _, _, _, rfl⟩ := h
      rfl
  case lit => obtain ⟨_, _, rfl⟩ := h; rfl
  case str x b o =>
    simp only [Instr.storesOnly, Bool.and_eq_true, beq_iff_eq] at hs
    obtain ⟨rfl, ho⟩ := hs
    obtain ⟨_, h1, h2⟩ := h
    exact store_mem h2 (addr_some h1 ▸ ha _ ho)
  case stp x y b o =>
    simp only [Instr.storesOnly, Bool.and_eq_true, beq_iff_eq] at hs
    obtain ⟨⟨rfl, ho⟩, ho'⟩ := hs
    obtain ⟨_, h1, t, h2, _, h3, h4⟩ := h
    rw [store_mem h4 (addr_some h3 ▸ ha _ ho'), store_mem h2 (addr_some h1 ▸ ha _ ho)]
  case orr | lsl =>
    split at h
    · cases h; rfl
    · cases h
  case adcs | adc | sbcs | sbc => obtain ⟨_, _, rfl⟩ := h; rfl
  all_goals (cases h; rfl)

/-- A program that stores only through one register, which it does not change, leaves all other words as they were. -/
theorem run_mem {r : Reg} {ok : ℕ → Bool} {a : Digit} : ∀ {prog : List Instr} {s s' : St} {b : Digit},
    (∀ i ∈ prog, r ∉ i.writes) → (∀ i ∈ prog, i.storesOnly r ok = true) →
    (∀ o, ok o = true → a ≠ s.reg r + BitVec.ofNat 64 o) → run E prog s = some (s', b) → s'.mem a = s.mem a
  | [], _, _, _, _, _, _, h => by cases h
  | i :: is, s, s', b, hw, hs, ha, h => by
    by_cases hi : i = .ret
    · subst hi
      cases h
      rfl
    · have h' : (exec E s i).bind (run E is) = some (s', b) := by
        cases i <;> first | exact h | exact absurd rfl hi
      rw [Option.bind_eq_some_iff] at h'
      obtain ⟨t, h1, h2⟩ := h'
      have hr := exec_keep (hw i (List.mem_cons_self ..)) h1
      rw [run_mem (fun j hj => hw j (List.mem_cons_of_mem _ hj)) (fun j hj => hs j (List.mem_cons_of_mem _ hj))
        (fun o ho => by rw [hr]; exact ha o ho) h2, exec_mem (hs i (List.mem_cons_self ..)) ha h1]

end Secuer.Arm
