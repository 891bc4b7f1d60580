import Verif.Arm.Sym
import Verif.X64.Claims

/-!
# Soundness of the checker for ARM code: states, memory and values
-/

namespace Secuer.Arm

open Secuer.X64 (Digit Tab Env Poly SVal Lay LayOK TabOK FlagHolds FlagDep lookup lookup_mem and_mod hits hits_of_eq maskVar
  maskVar_sound addr_aligned addr_toNat ofNat_add aligned bit bit_le sumOf carryOf diffOf borrowOf sum_toNat diff_toNat
  toNat_zero mask_toNat and_mask cond_some numOf numOf_lt comb_sound nums)

/-- The state is as described -/
structure Holds (ρ : ℕ → ℕ) (β : ℕ → Digit) (s : St) (σ : Sym) : Prop where
  one : ρ 0 = 1
  regs : ∀ r, (σ.reg r).Holds ρ β (s.reg r)
  cf : FlagHolds ρ s.c σ.core.cf
  mem : ∀ e ∈ σ.core.mem, e.2.Holds ρ β (s.mem (β e.1.1 + BitVec.ofNat 64 e.1.2))
  bnd : Poly.Bnd ρ σ.core.next σ.core.ubs
  eqs : ∀ p ∈ σ.core.eqs, Poly.eval ρ p = 0
  prods : ∀ e ∈ σ.prods, (ρ e.2 : ℤ) = Poly.eval ρ e.1 / 2 ^ 64

/-- The description mentions only variables that have been introduced -/
structure WF (L : Lay) (σ : Sym) : Prop where
  pos : 0 < σ.core.next
  len : σ.core.regs.length = 32
  regs : ∀ r, (σ.reg r).Dep σ.core.next
  cf : FlagDep σ.core.next σ.core.cf
  mem : ∀ e ∈ σ.core.mem, e.2.Dep σ.core.next
  rng : ∀ e ∈ σ.core.mem, e.1.2 < L.r e.1.1 ∧ e.1.2 % 8 = 0
  eqs : ∀ p ∈ σ.core.eqs, Poly.Dep σ.core.next p
  prods : ∀ e ∈ σ.prods, Poly.Dep σ.core.next e.1 ∧ e.2 < σ.core.next

/-- The memory outside of what may be written is the same -/
def Frame (L : Lay) (β : ℕ → Digit) (s s' : St) : Prop :=
  ∀ a, (∀ b o, o < L.w b → o % 8 = 0 → a ≠ β b + BitVec.ofNat 64 o) → s'.mem a = s.mem a

theorem Frame.refl {L : Lay} {β : ℕ → Digit} {s : St} : Frame L β s s := fun _ _ => rfl

theorem Frame.trans {L : Lay} {β : ℕ → Digit} {s s' s'' : St} (h : Frame L β s s') (h' : Frame L β s' s'') :
    Frame L β s s'' := fun a ha => (h' a ha).trans (h a ha)

variable {tabs : Tab → List ℕ} {L : Lay} {E : Env} {β : ℕ → Digit} {ρ : ℕ → ℕ} {s : St} {σ : Sym}

/-! ## Registers -/

def Reg.ofIdx : ℕ → Reg
  | 0 => .x0 | 1 => .x1 | 2 => .x2 | 3 => .x3 | 4 => .x4 | 5 => .x5 | 6 => .x6 | 7 => .x7 | 8 => .x8 | 9 => .x9 | 10 => .x10
  | 11 => .x11 | 12 => .x12 | 13 => .x13 | 14 => .x14 | 15 => .x15 | 16 => .x16 | 17 => .x17 | 18 => .x18 | 19 => .x19
  | 20 => .x20 | 21 => .x21 | 22 => .x22 | 23 => .x23 | 24 => .x24 | 25 => .x25 | 26 => .x26 | 27 => .x27 | 28 => .x28
  | 29 => .x29 | 30 => .x30 | _ => .sp

theorem Reg.ofIdx_idx (r : Reg) : Reg.ofIdx r.idx = r := by cases r <;> rfl

theorem Reg.idx_inj {r q : Reg} (h : r.idx = q.idx) : r = q := by
  rw [← Reg.ofIdx_idx r, h, Reg.ofIdx_idx]

theorem Reg.idx_lt (r : Reg) : r.idx < 32 := by cases r <;> decide

theorem reg_setReg (hl : σ.core.regs.length = 32) (r q : Reg) (v : SVal) :
    (σ.setReg r v).reg q = if q = r then v else σ.reg q := by
  unfold Sym.reg Sym.setReg
  dsimp only
  rw [List.getElem?_set]
  by_cases h : q = r
  · subst h
    rw [if_pos rfl, if_pos (by rw [hl]; exact q.idx_lt), if_pos rfl]; rfl
  · rw [if_neg (fun e => h (Reg.idx_inj e).symm), if_neg h]

theorem setReg_sound (hs : Holds ρ β s σ) (hw : WF L σ) {r : Reg} {v : SVal} {w : Digit} (hv : v.Holds ρ β w)
    (hd : v.Dep σ.core.next) : Holds ρ β (s.setReg r w) (σ.setReg r v) ∧ WF L (σ.setReg r v) := by
  refine ⟨⟨hs.one, ?_, hs.cf, hs.mem, hs.bnd, hs.eqs, hs.prods⟩, ⟨hw.pos, ?_, ?_, hw.cf, hw.mem, hw.rng, hw.eqs, hw.prods⟩⟩
  · intro q
    rw [reg_setReg hw.len]
    unfold St.setReg
    dsimp only
    by_cases h : q = r
    · rw [if_pos h, if_pos h]; exact hv
    · rw [if_neg h, if_neg h]; exact hs.regs q
  · unfold Sym.setReg; dsimp only; rw [List.length_set]; exact hw.len
  · intro q
    rw [reg_setReg hw.len]
    by_cases h : q = r
    · rw [if_pos h]; exact hd
    · rw [if_neg h]; exact hw.regs q

theorem setC_sound (hs : Holds ρ β s σ) (hw : WF L σ) {c : Bool} {p : Poly} (hc : (bit c : ℤ) = Poly.eval ρ p)
    (hd : Poly.Dep σ.core.next p) : Holds ρ β (s.setC c) (σ.setC (some p)) ∧ WF L (σ.setC (some p)) :=
  ⟨⟨hs.one, hs.regs, ⟨c, rfl, hc⟩, hs.mem, hs.bnd, hs.eqs, hs.prods⟩,
    ⟨hw.pos, hw.len, hw.regs, hd, hw.mem, hw.rng, hw.eqs, hw.prods⟩⟩

/-! ## Memory -/

theorem load_sound (hL : LayOK L E β) (hs : Holds ρ β s σ) (hw : WF L σ) {b o : ℕ} {v : SVal}
    (h : σ.load L b o = some v) :
    load E s (β b + BitVec.ofNat 64 o) = some (s.mem (β b + BitVec.ofNat 64 o)) ∧
      v.Holds ρ β (s.mem (β b + BitVec.ofNat 64 o)) ∧ v.Dep σ.core.next ∧ o < L.r b ∧ o % 8 = 0 := by
  unfold Sym.load at h
  obtain ⟨hc, h⟩ := cond_some h
  obtain ⟨h1, h2⟩ := (and_mod _ _).mp hc
  cases h
  refine ⟨?_, ?_, ?_, h1, h2⟩
  · unfold load
    rw [addr_aligned hL h1 h2, hL.rd b o h1 h2]; rfl
  · rcases lookup_mem σ.core.mem b o with e | e
    · rw [e]; trivial
    · exact hs.mem _ e
  · rcases lookup_mem σ.core.mem b o with e | e
    · rw [e]; trivial
    · exact hw.mem _ e

theorem store_sound (hL : LayOK L E β) (hs : Holds ρ β s σ) (hw : WF L σ) {b o : ℕ} {v : SVal} {w : Digit} {σ' : Sym}
    (h : σ.store L b o v = some σ') (hv : v.Holds ρ β w) (hd : v.Dep σ.core.next) :
    ∃ s', store E s (β b + BitVec.ofNat 64 o) w = some s' ∧ Holds ρ β s' σ' ∧ WF L σ' ∧ σ'.core.next = σ.core.next ∧
      Frame L β s s' ∧ s'.reg = s.reg := by
  unfold Sym.store at h
  obtain ⟨hc, h⟩ := cond_some h
  obtain ⟨h1, h2⟩ := (and_mod _ _).mp hc
  cases h
  have hr : o < L.r b := lt_of_lt_of_le h1 (hL.le b)
  refine ⟨s.setMem (β b + BitVec.ofNat 64 o) w, ?_, ⟨hs.one, hs.regs, hs.cf, ?_, hs.bnd, hs.eqs, hs.prods⟩,
    ⟨hw.pos, hw.len, hw.regs, hw.cf, ?_, ?_, hw.eqs, hw.prods⟩, rfl, ?_, rfl⟩
  · unfold store
    rw [addr_aligned hL hr h2, hL.wr b o h1 h2]; rfl
  · intro e he
    dsimp only at he
    rcases List.mem_cons.mp he with he | he
    · subst he
      unfold St.setMem
      dsimp only
      rw [if_pos rfl]; exact hv
    · obtain ⟨he, hh⟩ := List.mem_filter.mp he
      unfold St.setMem
      dsimp only
      rw [if_neg]
      · exact hs.mem e he
      · intro hc
        obtain ⟨r1, r2⟩ := hw.rng e he
        rw [hits_of_eq hL h1 h2 r1 r2 hc] at hh
        cases hh
  · intro e he
    dsimp only at he
    rcases List.mem_cons.mp he with he | he
    · subst he; exact hd
    · exact hw.mem e (List.mem_filter.mp he).1
  · intro e he
    dsimp only at he
    rcases List.mem_cons.mp he with he | he
    · subst he; exact ⟨hr, h2⟩
    · exact hw.rng e (List.mem_filter.mp he).1
  · intro a ha
    unfold St.setMem
    dsimp only
    rw [if_neg (ha b o h1 h2)]

/-! ## Operands -/

theorem addr_sound (h16 : (β 0).toNat % 16 = 0) (hs : Holds ρ β s σ) {r : Reg} {o b x : ℕ}
    (h : σ.addr r o = some (b, x)) :
    addr s r o = some (β b + BitVec.ofNat 64 x) ∧
      ∀ s' : St, s'.reg = s.reg → addr s' r (o + 8) = some (β b + BitVec.ofNat 64 (x + 8)) := by
  unfold Sym.addr at h
  have hr := hs.regs r
  cases hv : σ.reg r with
  | ptr b' x' =>
    rw [hv] at h hr
    dsimp only at h
    have hr : s.reg r = β b' + BitVec.ofNat 64 x' := hr
    cases hc : (r.idx == 31 && !(b' == 0 && x' % 16 == 0))
    · rw [hc, cond_false] at h
      cases h
      have key : ¬ (r = .sp ∧ (s.reg .sp).toNat % 16 ≠ 0) := by
        rintro ⟨rfl, hm⟩
        simp only [Reg.idx, beq_self_eq_true, Bool.true_and, Bool.not_eq_false', Bool.and_eq_true, beq_iff_eq] at hc
        obtain ⟨rfl, h2⟩ := hc
        rw [hr, BitVec.toNat_add, BitVec.toNat_ofNat] at hm
        omega
      refine ⟨?_, ?_⟩
      · unfold addr
        rw [if_neg key, hr, BitVec.add_assoc, ← ofNat_add]
      · intro s' e
        unfold addr
        rw [e, if_neg key, hr, BitVec.add_assoc, ← ofNat_add, ← Nat.add_assoc]
    · rw [hc, cond_true] at h; cases h
  | any => rw [hv] at h; cases h
  | poly p => rw [hv] at h; cases h
  | low p => rw [hv] at h; cases h

theorem val_sound (hs : Holds ρ β s σ) (hw : WF L σ) (a : Src) :
    (σ.val a).Holds ρ β (s.get a) ∧ (σ.val a).Dep σ.core.next := by
  cases a with
  | reg r => exact ⟨hs.regs r, hw.regs r⟩
  | xzr => exact ⟨rfl, Poly.Dep.nil _⟩

theorem get_sound (hs : Holds ρ β s σ) (hw : WF L σ) {a : Src} {p : Poly} (h : σ.get a = some p) :
    ((s.get a).toNat : ℤ) = Poly.eval ρ p ∧ Poly.Dep σ.core.next p := by
  obtain ⟨h1, h2⟩ := val_sound hs hw a
  unfold Sym.get at h
  cases hv : σ.val a with
  | poly q => rw [hv] at h h1 h2; cases h; exact ⟨h1, h2⟩
  | any => rw [hv] at h; cases h
  | ptr b o => rw [hv] at h; cases h
  | low p => rw [hv] at h; cases h

/-! ## New variables -/

/-- The description has become larger, the machine state is the same -/
structure Grow (L : Lay) (β : ℕ → Digit) (s : St) (ρ : ℕ → ℕ) (σ : Sym) (ρ' : ℕ → ℕ) (σ' : Sym) : Prop where
  holds : Holds ρ' β s σ'
  wf : WF L σ'
  same : ∀ i < σ.core.next, ρ' i = ρ i
  le : σ.core.next ≤ σ'.core.next

theorem Grow.refl (hs : Holds ρ β s σ) (hw : WF L σ) : Grow L β s ρ σ ρ σ := ⟨hs, hw, fun _ _ => rfl, le_refl _⟩

theorem Grow.dep {ρ' : ℕ → ℕ} {σ' : Sym} (hs : Holds ρ β s σ) (g : Grow L β s ρ σ ρ' σ') {p : Poly}
    (hd : Poly.Dep σ.core.next p) : Poly.eval ρ' p = Poly.eval ρ p ∧ Poly.Dep σ'.core.next p :=
  ⟨hd ρ' ρ g.holds.one hs.one g.same, hd.mono g.le⟩

theorem fresh_sound (hs : Holds ρ β s σ) (hw : WF L σ) {x u : ℕ} (hx : x ≤ u) :
    Grow L β s ρ σ (fun i => if i = σ.core.next then x else ρ i) (σ.fresh u) := by
  have h0 : (fun i => if i = σ.core.next then x else ρ i) 0 = 1 := by
    dsimp only; rw [if_neg (by have := hw.pos; omega)]; exact hs.one
  have hr : ∀ i < σ.core.next, (fun i => if i = σ.core.next then x else ρ i) i = ρ i := by
    intro i hi; dsimp only; rw [if_neg (by omega)]
  have hm : σ.core.next ≤ σ.core.next + 1 := by omega
  refine ⟨⟨h0, fun r => (hs.regs r).congr (hw.regs r) hs.one h0 hr, hs.cf.congr hw.cf hs.one h0 hr,
    fun e he => (hs.mem e he).congr (hw.mem e he) hs.one h0 hr, hs.bnd.fresh hx, ?_, ?_⟩, ?_, hr, hm⟩
  · intro p hp
    rw [hw.eqs p hp _ ρ h0 hs.one hr]; exact hs.eqs p hp
  · intro e he
    obtain ⟨d1, d2⟩ := hw.prods e he
    rw [d1 _ ρ h0 hs.one hr, if_neg (by omega)]; exact hs.prods e he
  · exact ⟨Nat.succ_pos _, hw.len, fun r => (hw.regs r).mono hm, hw.cf.mono hm,
      fun e he => (hw.mem e he).mono hm, hw.rng, fun p hp => (hw.eqs p hp).mono hm,
      fun e he => ⟨(hw.prods e he).1.mono hm, by have := (hw.prods e he).2; show e.2 < σ.core.next + 1; omega⟩⟩

/-- The new variable has the value given to it -/
theorem fresh_eval (hs : Holds ρ β s σ) (hw : WF L σ) (hn : σ.core.next < 65000) {x u : ℕ} (hx : x ≤ u) :
    Poly.eval (fun i => if i = σ.core.next then x else ρ i) (Poly.var σ.core.next) = x ∧
      Poly.Dep (σ.fresh u).core.next (Poly.var σ.core.next) := by
  have g := fresh_sound (L := L) hs hw hx
  refine ⟨?_, Poly.Dep.var (Nat.lt_succ_self _) (by omega)⟩
  rw [Poly.eval_var g.holds.one (by omega), if_pos rfl]

/-! ## Arithmetic -/

/-- Words and flags that are the values of polynomials after a step -/
structure Two (L : Lay) (β : ℕ → Digit) (s : St) (ρ : ℕ → ℕ) (σ σ' : Sym) (w v : Poly) (x : Digit) (c : Bool) : Prop where
  out : ∃ ρ', Grow L β s ρ σ ρ' σ' ∧ (x.toNat : ℤ) = Poly.eval ρ' w ∧ (bit c : ℤ) = Poly.eval ρ' v ∧
    Poly.Dep σ'.core.next w ∧ Poly.Dep σ'.core.next v

theorem addc_sound (hs : Holds ρ β s σ) (hw : WF L σ) (hn : σ.core.next < 65000) {p q b w v : Poly} {σ' : Sym} {x y : Digit}
    {c : Bool} (hx : (x.toNat : ℤ) = Poly.eval ρ p) (hy : (y.toNat : ℤ) = Poly.eval ρ q) (hc : (bit c : ℤ) = Poly.eval ρ b)
    (dx : Poly.Dep σ.core.next p) (dy : Poly.Dep σ.core.next q) (dc : Poly.Dep σ.core.next b)
    (h : σ.addc p q b = some (σ', w, v)) : Two L β s ρ σ σ' w v (sumOf x y c) (carryOf x y c) := by
  unfold Sym.addc at h
  dsimp only at h
  have key := sum_toNat x y c
  have hlt := (sumOf x y c).isLt
  have et : Poly.eval ρ (Poly.add (Poly.add p q) b) = x.toNat + y.toNat + bit c := by
    rw [Poly.eval_add, Poly.eval_add, hx, hy, hc]
  have dt := (dx.add dy).add dc
  cases hu : Poly.ub σ.core.next σ.core.ubs (Poly.add (Poly.add p q) b) with
  | none => rw [hu] at h; cases h
  | some u =>
    rw [hu] at h
    dsimp only at h
    have hub := Poly.ub_sound hs.one hs.bnd _ _ hu
    cases hd : decide (u < 2 ^ 64)
    · rw [hd, cond_false] at h
      cases h
      have g := fresh_sound (L := L) hs hw (bit_le (carryOf x y c))
      obtain ⟨e1, e2⟩ := fresh_eval (L := L) hs hw hn (bit_le (carryOf x y c))
      obtain ⟨t1, t2⟩ := g.dep hs dt
      refine ⟨_, g, ?_, e1.symm, t2.sub (e2.scale _), e2⟩
      rw [Poly.eval_sub, Poly.eval_scale, e1, t1, et, key]
    · rw [hd, cond_true] at h
      cases h
      have hu' := of_decide_eq_true hd
      have hb : carryOf x y c = false := by
        unfold carryOf
        rw [decide_eq_false_iff_not]; omega
      refine ⟨ρ, Grow.refl hs hw, ?_, ?_, dt, Poly.Dep.nil _⟩
      · rw [et, key, hb]; simp [bit]
      · rw [hb]; rfl

theorem isBit_sound (hs : Holds ρ β s σ) {p : Poly} (h : σ.isBit p = true) : Poly.eval ρ p ≤ 1 := by
  unfold Sym.isBit at h
  cases hu : Poly.ub σ.core.next σ.core.ubs p with
  | none => rw [hu] at h; cases h
  | some u =>
    rw [hu] at h
    have := Poly.ub_sound hs.one hs.bnd _ _ hu
    have := of_decide_eq_true h
    omega

theorem subc_sound (hs : Holds ρ β s σ) (hw : WF L σ) (hn : σ.core.next < 65000) {p q b w v : Poly} {σ' : Sym} {x y : Digit}
    {c : Bool} (hx : (x.toNat : ℤ) = Poly.eval ρ p) (hy : (y.toNat : ℤ) = Poly.eval ρ q) (hc : (bit c : ℤ) = Poly.eval ρ b)
    (dx : Poly.Dep σ.core.next p) (dy : Poly.Dep σ.core.next q) (dc : Poly.Dep σ.core.next b)
    (h : σ.subc p q b = some (σ', w, v)) : Two L β s ρ σ σ' w v (diffOf x y c) (borrowOf x y c) := by
  unfold Sym.subc at h
  dsimp only at h
  have key := diff_toNat x y c
  have hlt := (diffOf x y c).isLt
  have hb1 := bit_le (borrowOf x y c)
  have et : Poly.eval ρ (Poly.sub (Poly.sub p q) b) = x.toNat - y.toNat - bit c := by
    rw [Poly.eval_sub, Poly.eval_sub, hx, hy, hc]
  have dt := (dx.sub dy).sub dc
  cases hl : Poly.lb σ.core.next σ.core.ubs (Poly.sub (Poly.sub p q) b) with
  | none => rw [hl] at h; cases h
  | some l =>
    rw [hl] at h
    dsimp only at h
    have hlb := Poly.lb_sound hs.one hs.bnd _ _ hl
    by_cases hd : 0 ≤ l
    · rw [decide_eq_true hd, cond_true] at h
      cases h
      have h0 : bit (borrowOf x y c) = 0 := by omega
      refine ⟨ρ, Grow.refl hs hw, ?_, ?_, dt, Poly.Dep.nil _⟩
      · rw [et, key, h0]; simp
      · rw [h0]; rfl
    · rw [decide_eq_false hd, cond_false] at h
      cases h1 : (p.isEmpty && q.isEmpty)
      · rw [h1, cond_false] at h
        cases h2 : (p.isEmpty && b.isEmpty && σ.isBit q)
        · rw [h2, cond_false] at h
          cases h
          have g := fresh_sound (L := L) hs hw hb1
          obtain ⟨e1, e2⟩ := fresh_eval (L := L) hs hw hn hb1
          obtain ⟨t1, t2⟩ := g.dep hs dt
          refine ⟨_, g, ?_, e1.symm, t2.add (e2.scale _), e2⟩
          rw [Poly.eval_add, Poly.eval_scale, e1, t1, et, key]
        · rw [h2, cond_true] at h
          cases h
          rw [Bool.and_eq_true, Bool.and_eq_true, List.isEmpty_iff, List.isEmpty_iff] at h2
          obtain ⟨⟨rfl, rfl⟩, h2⟩ := h2
          have hq := isBit_sound hs h2
          have hx : (x.toNat : ℤ) = 0 := hx
          have hc : (bit c : ℤ) = 0 := hc
          refine ⟨ρ, Grow.refl hs hw, ?_, ?_, dy.scale _, dy⟩
          · rw [Poly.eval_scale, ← hy]; omega
          · rw [← hy]; omega
      · rw [h1, cond_true] at h
        cases h
        rw [Bool.and_eq_true, List.isEmpty_iff, List.isEmpty_iff] at h1
        obtain ⟨rfl, rfl⟩ := h1
        have hx := toNat_zero hx
        have hy := toNat_zero hy
        subst hx hy
        obtain ⟨m1, m2⟩ := mask_toNat c
        refine ⟨ρ, Grow.refl hs hw, ?_, ?_, dc.scale _, dc⟩
        · rw [Poly.eval_scale, ← hc, m1]
        · rw [m2, hc]

theorem find_mem {r : Poly} {v : ℕ} : ∀ {ps : List (Poly × ℕ)}, find r ps = some v → (r, v) ∈ ps
  | [], h => by cases h
  | (q, k) :: ps, h => by
    unfold find at h
    cases hq : (q == r)
    · rw [hq, cond_false] at h; exact List.mem_cons_of_mem _ (find_mem h)
    · rw [hq, cond_true] at h
      cases h
      rw [beq_iff_eq] at hq
      subst hq
      exact List.mem_cons_self ..

theorem high_sound (hs : Holds ρ β s σ) (hw : WF L σ) {r : Poly} {u m : ℕ} {σ' : Sym} {v : ℕ} (hm : Poly.eval ρ r = m)
    (hu : m / 2 ^ 64 ≤ u) (hd : Poly.Dep σ.core.next r) (h : σ.high r u = (σ', v)) :
    ∃ ρ', Grow L β s ρ σ ρ' σ' ∧ ρ' v = m / 2 ^ 64 ∧ v < σ'.core.next ∧ v ≤ σ.core.next := by
  unfold Sym.high at h
  cases hf : find r σ.prods with
  | some k =>
    rw [hf] at h
    cases h
    have := find_mem hf
    obtain ⟨-, d2⟩ := hw.prods _ this
    refine ⟨ρ, Grow.refl hs hw, ?_, d2, d2.le⟩
    have := hs.prods _ this
    dsimp only at this
    rw [hm] at this
    exact_mod_cast this
  | none =>
    rw [hf] at h
    cases h
    have g := fresh_sound (L := L) hs hw hu
    obtain ⟨t1, t2⟩ := g.dep hs hd
    refine ⟨_, ⟨⟨g.holds.one, g.holds.regs, g.holds.cf, g.holds.mem, g.holds.bnd, g.holds.eqs, ?_⟩,
      ⟨g.wf.pos, g.wf.len, g.wf.regs, g.wf.cf, g.wf.mem, g.wf.rng, g.wf.eqs, ?_⟩, g.same, g.le⟩, if_pos rfl,
      Nat.lt_succ_self _, le_refl _⟩
    · intro e he
      rcases List.mem_cons.mp he with he | he
      · subst he
        dsimp only at t1 ⊢
        rw [t1, hm, if_pos rfl]
        push_cast; rfl
      · exact g.holds.prods e he
    · intro e he
      rcases List.mem_cons.mp he with he | he
      · subst he; exact ⟨t2, Nat.lt_succ_self _⟩
      · exact g.wf.prods e he

theorem and_bits (x y : Digit) (hx : x.toNat ≤ 1) (hy : y.toNat ≤ 1) : (x &&& y).toNat = x.toNat * y.toNat := by
  rw [BitVec.toNat_and]
  have h1 : x.toNat = 0 ∨ x.toNat = 1 := by omega
  have h2 : y.toNat = 0 ∨ y.toNat = 1 := by omega
  rcases h1 with h1 | h1 <;> rcases h2 with h2 | h2 <;> rw [h1, h2] <;> rfl

theorem conj_sound (hs : Holds ρ β s σ) {p q r : Poly} {x y : Digit} (hx : (x.toNat : ℤ) = Poly.eval ρ p)
    (hy : (y.toNat : ℤ) = Poly.eval ρ q) (dx : Poly.Dep σ.core.next p) (dy : Poly.Dep σ.core.next q)
    (h : σ.conj p q = some r) : ((x &&& y).toNat : ℤ) = Poly.eval ρ r ∧ Poly.Dep σ.core.next r := by
  unfold Sym.conj at h
  cases hk : maskVar σ.core.next σ.core.ubs q with
  | some k =>
    rw [hk] at h
    dsimp only at h
    obtain ⟨k1, k2, k3, k4⟩ := maskVar_sound hs.bnd hs.one hk
    refine ⟨?_, dx.mul (Poly.Dep.var k4 k3) h⟩
    rw [Poly.eval_mul hs.one _ _ _ h, Poly.eval_var hs.one k3, ← hx]
    exact and_mask x y (ρ k) k2 (hy.trans k1)
  | none =>
    rw [hk] at h
    dsimp only at h
    cases hk' : maskVar σ.core.next σ.core.ubs p with
    | some k =>
      rw [hk'] at h
      dsimp only at h
      obtain ⟨k1, k2, k3, k4⟩ := maskVar_sound hs.bnd hs.one hk'
      refine ⟨?_, dy.mul (Poly.Dep.var k4 k3) h⟩
      rw [Poly.eval_mul hs.one _ _ _ h, Poly.eval_var hs.one k3, ← hy, BitVec.and_comm]
      exact and_mask y x (ρ k) k2 (hx.trans k1)
    | none =>
      rw [hk'] at h
      dsimp only at h
      obtain ⟨hb, h⟩ := cond_some h
      rw [Bool.and_eq_true] at hb
      have b1 := isBit_sound hs hb.1
      have b2 := isBit_sound hs hb.2
      refine ⟨?_, dx.mul dy h⟩
      rw [Poly.eval_mul hs.one _ _ _ h, ← hx, ← hy, and_bits x y (by omega) (by omega)]
      push_cast; rfl

/-! ## Naming words -/

/-- The word at a place -/
def Loc.word (E : Env) (s : St) : Loc → Option Digit
  | .reg r => some (s.reg r)
  | .mem r o => (addr s r o).bind fun a => load E s a

theorem at_sound (h16 : (β 0).toNat % 16 = 0) (hL : LayOK L E β) (hs : Holds ρ β s σ) (hw : WF L σ) {o : Loc} {p : Poly}
    (h : σ.at L o = some p) :
    ∃ w, o.word E s = some w ∧ (w.toNat : ℤ) = Poly.eval ρ p ∧ Poly.Dep σ.core.next p := by
  cases o with
  | reg r =>
    obtain ⟨h1, h2⟩ := get_sound hs hw (a := .reg r) h
    exact ⟨_, rfl, h1, h2⟩
  | mem r o =>
    unfold Sym.at at h
    dsimp only at h
    cases ha : σ.addr r o with
    | none => rw [ha] at h; cases h
    | some bx =>
      obtain ⟨b, x⟩ := bx
      rw [ha] at h
      dsimp only at h
      cases hl : σ.load L b x with
      | none => rw [hl] at h; cases h
      | some v =>
        rw [hl] at h
        obtain ⟨l1, l2, l3, -⟩ := load_sound hL hs hw hl
        cases v with
        | poly q =>
          cases h
          refine ⟨_, ?_, l2, l3⟩
          unfold Loc.word
          dsimp only
          rw [(addr_sound h16 hs ha).1]; exact l1
        | any => cases h
        | ptr b o => cases h
        | low p => cases h

theorem ats_sound (h16 : (β 0).toNat % 16 = 0) (hL : LayOK L E β) (hs : Holds ρ β s σ) (hw : WF L σ) :
    ∀ (os : List Loc) (ps : List Poly), σ.ats L os = some ps →
      ∃ ws, List.Forall₂ (fun o w => Loc.word E s o = some w) os ws ∧ Poly.eval ρ (Poly.horner ps) = numOf ws ∧
        (∀ p ∈ ps, Poly.Dep σ.core.next p) ∧ ps.length = os.length
  | [], ps, h => by
    cases h
    exact ⟨[], .nil, by simp [Poly.horner, numOf], by simp, rfl⟩
  | o :: os, ps, h => by
    unfold Sym.ats at h
    cases hp : σ.at L o with
    | none => rw [hp] at h; cases h
    | some p =>
      cases hq : σ.ats L os with
      | none => rw [hp, hq] at h; cases h
      | some qs =>
        rw [hp, hq] at h
        cases h
        obtain ⟨w, gw, ew, dw⟩ := at_sound h16 hL hs hw hp
        obtain ⟨ws, g, e, d, l⟩ := ats_sound h16 hL hs hw os qs hq
        refine ⟨w :: ws, .cons gw g, ?_, ?_, by simp [l]⟩
        · rw [Poly.eval_horner_cons, ← ew, e, numOf]; push_cast; ring
        · intro r hr
          rcases List.mem_cons.mp hr with hr | hr
          · subst hr; exact dw
          · exact d r hr

theorem forall₂_unique {os : List Loc} {ws ws' : List Digit} (h : List.Forall₂ (fun o w => Loc.word E s o = some w) os ws)
    (h' : List.Forall₂ (fun o w => Loc.word E s o = some w) os ws') : ws = ws' := by
  induction h generalizing ws' with
  | nil => cases h'; rfl
  | cons a _ ih =>
    cases h' with
    | cons b c => rw [ih c, Option.some.inj (a.symm.trans b)]

theorem rename_sound (h16 : (β 0).toNat % 16 = 0) (hs : Holds ρ β s σ) (hw : WF L σ) {o : Loc} {v : SVal} {w : Digit} {σ' : Sym}
    (h : σ.rename L v o = some σ') (hg : o.word E s = some w) (hv : v.Holds ρ β w) (hd : v.Dep σ.core.next) :
    Holds ρ β s σ' ∧ WF L σ' ∧ σ'.core.next = σ.core.next := by
  cases o with
  | reg r =>
    cases h
    cases hg
    obtain ⟨a, b⟩ := setReg_sound hs hw (r := r) hv hd
    have e : s.setReg r (s.reg r) = s := by
      unfold St.setReg
      have : (fun q => if q = r then s.reg r else s.reg q) = s.reg := by
        funext q
        by_cases h : q = r
        · rw [if_pos h, h]
        · rw [if_neg h]
      rw [this]
    rw [e] at a
    exact ⟨a, b, rfl⟩
  | mem r d =>
    unfold Sym.rename at h
    dsimp only at h
    cases ha : σ.addr r d with
    | none => rw [ha] at h; cases h
    | some bx =>
      obtain ⟨b, x⟩ := bx
      rw [ha] at h
      dsimp only at h
      obtain ⟨hc, h⟩ := cond_some h
      obtain ⟨h1, h2⟩ := (and_mod _ _).mp hc
      cases h
      have hw' : w = s.mem (β b + BitVec.ofNat 64 x) := by
        unfold Loc.word at hg
        dsimp only at hg
        rw [(addr_sound h16 hs ha).1] at hg
        have hg : load E s (β b + BitVec.ofNat 64 x) = some w := hg
        unfold load at hg
        split at hg
        · exact (Option.some.inj hg).symm
        · cases hg
      refine ⟨⟨hs.one, hs.regs, hs.cf, ?_, hs.bnd, hs.eqs, hs.prods⟩,
        ⟨hw.pos, hw.len, hw.regs, hw.cf, ?_, ?_, hw.eqs, hw.prods⟩, rfl⟩
      · intro e he
        dsimp only at he
        rcases List.mem_cons.mp he with he | he
        · subst he; rw [hw'] at hv; exact hv
        · exact hs.mem e (List.mem_filter.mp he).1
      · intro e he
        dsimp only at he
        rcases List.mem_cons.mp he with he | he
        · subst he; exact hd
        · exact hw.mem e (List.mem_filter.mp he).1
      · intro e he
        dsimp only at he
        rcases List.mem_cons.mp he with he | he
        · subst he; exact ⟨h1, h2⟩
        · exact hw.rng e (List.mem_filter.mp he).1

theorem renames_sound (h16 : (β 0).toNat % 16 = 0) {s : St} :
    ∀ (os : List Loc) (ws : List Digit) (σ σ' : Sym) (ρ : ℕ → ℕ) (u : ℕ), Holds ρ β s σ → WF L σ →
      List.Forall₂ (fun o w => Loc.word E s o = some w) os ws → numOf ws ≤ u → σ.core.next + os.length < 65536 →
      σ.renames L u os = some σ' → ∃ ρ', Grow L β s ρ σ ρ' σ'
  | [], ws, σ, σ', ρ, u, hs, hw, _, _, _, h => by
    cases h
    exact ⟨ρ, Grow.refl hs hw⟩
  | o :: os, ws, σ, σ', ρ, u, hs, hw, hg, hu, hn, h => by
    cases hg with
    | cons g gs =>
      rename_i w ws
      rw [List.length_cons] at hn
      unfold Sym.renames at h
      have hwu : w.toNat ≤ Nat.min u (2 ^ 64 - 1) := by
        rw [numOf] at hu
        have := w.isLt
        exact Nat.le_min.mpr ⟨by omega, by omega⟩
      have hus : numOf ws ≤ u / 2 ^ 64 := by
        rw [numOf] at hu
        rw [Nat.le_div_iff_mul_le (by norm_num)]; omega
      have gr := fresh_sound (L := L) hs hw hwu
      have hv : (SVal.poly (Poly.var σ.core.next)).Holds (fun i => if i = σ.core.next then w.toNat else ρ i) β w := by
        show (w.toNat : ℤ) = _
        rw [Poly.eval_var gr.holds.one (by omega), if_pos rfl]
      cases hren : (σ.fresh (Nat.min u (2 ^ 64 - 1))).rename L (.poly (Poly.var σ.core.next)) o with
      | none => rw [hren] at h; cases h
      | some σ1 =>
        rw [hren] at h
        dsimp only at h
        obtain ⟨a, b, c⟩ := rename_sound h16 gr.holds gr.wf hren g hv (Poly.Dep.var (Nat.lt_succ_self _) (by omega))
        have c' : σ1.core.next = σ.core.next + 1 := c
        obtain ⟨ρ2, g2⟩ := renames_sound h16 os ws σ1 σ' _ (u / 2 ^ 64) a b gs hus (by omega) h
        exact ⟨ρ2, g2.holds, g2.wf, fun i hi => (g2.same i (by omega)).trans (gr.same i hi), by have := g2.le; omega⟩

theorem addEq_sound {ρ' : ℕ → ℕ} {σ' : Sym} (g : Grow L β s ρ σ ρ' σ') {p : Poly} (hp : Poly.eval ρ' p = 0)
    (hd : Poly.Dep σ'.core.next p) : Grow L β s ρ σ ρ' (σ'.addEq p) := by
  refine ⟨⟨g.holds.one, g.holds.regs, g.holds.cf, g.holds.mem, g.holds.bnd, ?_, g.holds.prods⟩,
    ⟨g.wf.pos, g.wf.len, g.wf.regs, g.wf.cf, g.wf.mem, g.wf.rng, ?_, g.wf.prods⟩, g.same, g.le⟩
  · intro q hq
    rcases List.mem_cons.mp hq with hq | hq
    · subst hq; exact hp
    · exact g.holds.eqs q hq
  · intro q hq
    rcases List.mem_cons.mp hq with hq | hq
    · subst hq; exact hd
    · exact g.wf.eqs q hq

theorem nameAs_sound (h16 : (β 0).toNat % 16 = 0) (hL : LayOK L E β) (hs : Holds ρ β s σ) (hw : WF L σ)
    (hn : σ.core.next < 65000) {locs : List Loc} {ws : List Digit} {P : Poly} {u : ℕ} {σ' : Sym} (hlen : locs.length < 500)
    (g : List.Forall₂ (fun o w => Loc.word E s o = some w) locs ws) (hu : numOf ws ≤ u) (hd : Poly.Dep σ.core.next P)
    (he : Poly.eval ρ P = numOf ws) (h : σ.nameAs L locs P u = some σ') : ∃ ρ', Grow L β s ρ σ ρ' σ' := by
  unfold Sym.nameAs at h
  cases hren : σ.renames L u locs with
  | none => rw [hren] at h; cases h
  | some σ1 =>
    rw [hren] at h
    dsimp only at h
    cases hys : σ1.ats L locs with
    | none => rw [hys] at h; cases h
    | some ys =>
      rw [hys] at h
      cases h
      obtain ⟨ρ1, gr⟩ := renames_sound h16 locs ws σ σ1 ρ u hs hw g hu (by omega) hren
      obtain ⟨ws', g', ew', dw', -⟩ := ats_sound h16 hL gr.holds gr.wf locs ys hys
      have := forall₂_unique g g'
      subst this
      obtain ⟨t1, t2⟩ := gr.dep hs hd
      refine ⟨ρ1, addEq_sound gr ?_ ((Poly.Dep.horner dw').sub t2)⟩
      rw [Poly.eval_sub, ew', t1, he]; ring

theorem hint_sound (h16 : (β 0).toNat % 16 = 0) (hL : LayOK L E β) (hs : Holds ρ β s σ) (hw : WF L σ)
    (hn : σ.core.next < 65000) {i : Hint} {σ' : Sym} (h : σ.hint L i = some σ') : ∃ ρ', Grow L β s ρ σ ρ' σ' := by
  cases i with
  | name e locs use =>
    unfold Sym.hint at h
    dsimp only at h
    cases hps : (bif Nat.blt locs.length 500 then σ.ats L locs else none) with
    | none => rw [hps] at h; cases h
    | some ps =>
      rw [hps] at h
      dsimp only at h
      obtain ⟨hb, hps⟩ := cond_some hps
      have hlen : locs.length < 500 := Nat.blt_eq.mp hb
      obtain ⟨ws, g, ew, dw, lw⟩ := ats_sound h16 hL hs hw locs ps hps
      have lws : ws.length = locs.length := g.length_eq.symm
      have hnum := numOf_lt ws
      rw [lws] at hnum
      cases e with
      | false =>
        rw [cond_false] at h
        exact nameAs_sound h16 hL hs hw hn hlen g (by omega) (Poly.Dep.horner dw) ew h
      | true =>
        rw [cond_true] at h
        generalize hP : Poly.dropMod (2 ^ (64 * locs.length)) (Poly.add (Poly.horner ps) (σ.core.comb use)) = P at h
        cases hu : Poly.ub σ.core.next σ.core.ubs P with
        | none => rw [hu] at h; cases h
        | some u =>
          cases hl : Poly.lb σ.core.next σ.core.ubs P with
          | none => rw [hu, hl] at h; cases h
          | some l =>
            rw [hu, hl] at h
            dsimp only at h
            obtain ⟨hc, h⟩ := cond_some h
            rw [Bool.and_eq_true, decide_eq_true_eq, decide_eq_true_eq] at hc
            have b1 := Poly.ub_sound hs.one hs.bnd _ _ hu
            have b2 := Poly.lb_sound hs.one hs.bnd _ _ hl
            obtain ⟨k, hk⟩ := Poly.eval_dropMod ρ (2 ^ (64 * locs.length)) (Poly.add (Poly.horner ps) (σ.core.comb use))
            rw [hP, Poly.eval_add, comb_sound hs.eqs, add_zero, ew] at hk
            have hM : (0 : ℤ) < 2 ^ (64 * locs.length) := by positivity
            have e0 : Poly.eval ρ P = numOf ws := by
              have hnum' : (numOf ws : ℤ) < 2 ^ (64 * locs.length) := by exact_mod_cast hnum
              have hnn : (0 : ℤ) ≤ numOf ws := by positivity
              have h1 : Poly.eval ρ P % 2 ^ (64 * locs.length) = Poly.eval ρ P := Int.emod_eq_of_lt (by omega) (by omega)
              have h2 : (numOf ws : ℤ) % 2 ^ (64 * locs.length) = numOf ws := Int.emod_eq_of_lt hnn hnum'
              rw [hk, Int.add_mul_emod_self_left, h1] at h2
              rw [h2, hk]
            exact nameAs_sound h16 hL hs hw hn hlen g (by omega) (Poly.dep_of_bounds _ _ _ hu hl) e0 h
  | times i vs =>
    unfold Sym.hint at h
    dsimp only at h
    obtain ⟨hb, h⟩ := cond_some h
    rw [List.all_eq_true] at hb
    have hv : ∀ v ∈ vs, v < σ.core.next := fun v hv => Nat.blt_eq.mp (hb v hv)
    cases hm : Poly.mul ((σ.core.eqs.reverse[i]?).getD []) (nums vs) with
    | none => rw [hm] at h; cases h
    | some r =>
      rw [hm] at h
      cases h
      have h0 : Poly.eval ρ ((σ.core.eqs.reverse[i]?).getD []) = 0 ∧
          Poly.Dep σ.core.next ((σ.core.eqs.reverse[i]?).getD []) := by
        cases h : σ.core.eqs.reverse[i]? with
        | none => exact ⟨rfl, Poly.Dep.nil _⟩
        | some p =>
          have := List.mem_reverse.mp (List.mem_of_getElem? h)
          exact ⟨hs.eqs p this, hw.eqs p this⟩
      refine ⟨ρ, addEq_sound (Grow.refl hs hw) ?_ ?_⟩
      · rw [Poly.eval_mul hs.one _ _ _ hm, h0.1, zero_mul]
      · refine h0.2.mul (Poly.Dep.horner ?_) hm
        intro q hq
        obtain ⟨v, m, rfl⟩ := List.mem_map.mp hq
        have := hv v m
        exact Poly.Dep.var this (by omega)

end Secuer.Arm
