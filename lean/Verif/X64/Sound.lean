import Verif.X64.PolySound

/-!
# Soundness of the checker

What the checker finds is true of every execution.
-/

namespace Secuer.X64

/-! ## What a symbolic state says -/

/-- The word is as described -/
def SVal.Holds (ρ : ℕ → ℕ) (β : ℕ → Digit) (w : Digit) : SVal → Prop
  | .any => True
  | .poly p => (w.toNat : ℤ) = Poly.eval ρ p
  | .ptr b o => w = β b + BitVec.ofNat 64 o
  | .low p => (bit (w.getLsbD 0) : ℤ) = Poly.eval ρ p

def SVal.Dep (n : ℕ) : SVal → Prop
  | .poly p => Poly.Dep n p
  | .low p => Poly.Dep n p
  | _ => True

/-- The flag is as described -/
def FlagHolds (ρ : ℕ → ℕ) (c : Option Bool) : Option Poly → Prop
  | none => True
  | some p => ∃ b, c = some b ∧ (bit b : ℤ) = Poly.eval ρ p

def FlagDep (n : ℕ) : Option Poly → Prop
  | none => True
  | some p => Poly.Dep n p

/-- The sizes of the areas -/
def Lay.r (L : Lay) (b : ℕ) : ℕ := (L.rsz[b]?).getD 0

def Lay.w (L : Lay) (b : ℕ) : ℕ := (L.wsz[b]?).getD 0

/-- The areas are at `β`: aligned, within the address space, accessible, and not overlapping except as allowed -/
structure LayOK (L : Lay) (E : Env) (β : ℕ → Digit) : Prop where
  align : ∀ b, (β b).toNat % 8 = 0
  room : ∀ b, (β b).toNat + L.r b ≤ 2 ^ 64
  le : ∀ b, L.w b ≤ L.r b
  rd : ∀ b o, o < L.r b → o % 8 = 0 → E.rd (β b + BitVec.ofNat 64 o) = true
  wr : ∀ b o, o < L.w b → o % 8 = 0 → E.wr (β b + BitVec.ofNat 64 o) = true
  sep : ∀ x y o o', x ≠ y → o' < L.r x → o < L.w y → o % 8 = 0 → o' % 8 = 0 →
    β x + BitVec.ofNat 64 o' = β y + BitVec.ofNat 64 o → ∃ t ∈ L.al, t.1 = x ∧ t.2.1 = y ∧ o' = o + t.2.2

/-- The state is as described -/
structure Holds (L : Lay) (ρ : ℕ → ℕ) (β : ℕ → Digit) (s : St) (σ : Sym) : Prop where
  one : ρ 0 = 1
  regs : ∀ r, (σ.reg r).Holds ρ β (s.reg r)
  cf : FlagHolds ρ s.cf σ.cf
  of : FlagHolds ρ s.of σ.of
  mem : ∀ e ∈ σ.mem, e.2.Holds ρ β (s.mem (β e.1.1 + BitVec.ofNat 64 e.1.2))
  bnd : Poly.Bnd ρ σ.next σ.ubs
  eqs : ∀ p ∈ σ.eqs, Poly.eval ρ p = 0

/-- The description mentions only variables that have been introduced -/
structure WF (L : Lay) (σ : Sym) : Prop where
  pos : 0 < σ.next
  len : σ.regs.length = 16
  regs : ∀ r, (σ.reg r).Dep σ.next
  cf : FlagDep σ.next σ.cf
  of : FlagDep σ.next σ.of
  mem : ∀ e ∈ σ.mem, e.2.Dep σ.next
  rng : ∀ e ∈ σ.mem, e.1.2 < L.r e.1.1 ∧ e.1.2 % 8 = 0
  eqs : ∀ p ∈ σ.eqs, Poly.Dep σ.next p

/-- The memory outside of what may be written is the same -/
def Frame (L : Lay) (β : ℕ → Digit) (s s' : St) : Prop :=
  ∀ a, (∀ b o, o < L.w b → o % 8 = 0 → a ≠ β b + BitVec.ofNat 64 o) → s'.mem a = s.mem a

theorem Frame.rfl {L : Lay} {β : ℕ → Digit} {s : St} : Frame L β s s := fun _ _ => Eq.refl _

theorem Frame.trans {L : Lay} {β : ℕ → Digit} {s s' s'' : St} (h : Frame L β s s') (h' : Frame L β s' s'') :
    Frame L β s s'' := fun a ha => (h' a ha).trans (h a ha)

/-- The tables of the environment -/
def TabOK (tabs : Tab → List ℕ) (E : Env) : Prop := ∀ t, (E.tab t).map (·.toNat) = tabs t

section

variable {tabs : Tab → List ℕ} {L : Lay} {E : Env} {β : ℕ → Digit} {ρ : ℕ → ℕ} {s : St} {σ : Sym}

theorem SVal.Holds.congr {ρ' : ℕ → ℕ} {n : ℕ} {v : SVal} {w : Digit} (h : v.Holds ρ β w) (hd : v.Dep n) (h0 : ρ 0 = 1)
    (h0' : ρ' 0 = 1) (hr : ∀ i < n, ρ' i = ρ i) : v.Holds ρ' β w := by
  cases v with
  | any => trivial
  | poly p => exact h.trans (hd ρ ρ' h0 h0' fun i hi => (hr i hi).symm)
  | ptr b o => exact h
  | low p => exact h.trans (hd ρ ρ' h0 h0' fun i hi => (hr i hi).symm)

theorem FlagHolds.congr {ρ' : ℕ → ℕ} {n : ℕ} {v : Option Poly} {w : Option Bool} (h : FlagHolds ρ w v) (hd : FlagDep n v)
    (h0 : ρ 0 = 1) (h0' : ρ' 0 = 1) (hr : ∀ i < n, ρ' i = ρ i) : FlagHolds ρ' w v := by
  cases v with
  | none => trivial
  | some p =>
    obtain ⟨b, hb, e⟩ := h
    exact ⟨b, hb, e.trans (hd ρ ρ' h0 h0' fun i hi => (hr i hi).symm)⟩

theorem SVal.Dep.mono {n m : ℕ} {v : SVal} (h : v.Dep n) (hm : n ≤ m) : v.Dep m := by
  cases v with
  | any => trivial
  | poly p => exact Poly.Dep.mono h hm
  | ptr b o => trivial
  | low p => exact Poly.Dep.mono h hm

theorem FlagDep.mono {n m : ℕ} {v : Option Poly} (h : FlagDep n v) (hm : n ≤ m) : FlagDep m v := by
  cases v with
  | none => trivial
  | some p => exact Poly.Dep.mono h hm

/-! ## Registers -/

theorem Reg.idx_inj {r q : Reg} (h : r.idx = q.idx) : r = q := by
  cases r <;> cases q <;> first | rfl | (exact absurd h (by decide))

theorem Reg.idx_lt (r : Reg) : r.idx < 16 := by cases r <;> decide

theorem reg_setReg (hl : σ.regs.length = 16) (r q : Reg) (v : SVal) :
    (σ.setReg r v).reg q = if q = r then v else σ.reg q := by
  unfold Sym.reg Sym.setReg
  dsimp only
  rw [List.getElem?_set]
  by_cases h : q = r
  · subst h
    rw [if_pos (Eq.refl _), if_pos (by rw [hl]; exact q.idx_lt), if_pos (Eq.refl _)]; rfl
  · rw [if_neg (fun e => h (Reg.idx_inj e).symm), if_neg h]

theorem setReg_sound (hs : Holds L ρ β s σ) (hw : WF L σ) {r : Reg} {v : SVal} {w : Digit} (hv : v.Holds ρ β w)
    (hd : v.Dep σ.next) : Holds L ρ β (s.setReg r w) (σ.setReg r v) ∧ WF L (σ.setReg r v) := by
  refine ⟨⟨hs.one, ?_, hs.cf, hs.of, hs.mem, hs.bnd, hs.eqs⟩, ⟨hw.pos, ?_, ?_, hw.cf, hw.of, hw.mem, hw.rng, hw.eqs⟩⟩
  · intro q
    rw [reg_setReg hw.len]
    unfold St.setReg
    dsimp only
    by_cases h : q = r
    · rw [if_pos h, if_pos h]; exact hv
    · rw [if_neg h, if_neg h]; exact hs.regs q
  · unfold Sym.setReg; dsimp only; rw [List.length_set]; exact hw.len
  · intro q
    rw [reg_setReg hw.len]
    by_cases h : q = r
    · rw [if_pos h]; exact hd
    · rw [if_neg h]; exact hw.regs q

/-! ## Memory -/

theorem addr_toNat (hL : LayOK L E β) {b o : ℕ} (ho : o < L.r b) : (β b + BitVec.ofNat 64 o).toNat = (β b).toNat + o := by
  have := hL.room b
  rw [BitVec.toNat_add, BitVec.toNat_ofNat]
  omega

theorem addr_aligned (hL : LayOK L E β) {b o : ℕ} (ho : o < L.r b) (h8 : o % 8 = 0) :
    aligned (β b + BitVec.ofNat 64 o) = true := by
  unfold aligned
  rw [addr_toNat hL ho]
  have := hL.align b
  simp only [decide_eq_true_eq]
  omega

theorem lookup_mem (m : List ((ℕ × ℕ) × SVal)) (b o : ℕ) : lookup m b o = .any ∨ ((b, o), lookup m b o) ∈ m := by
  induction m with
  | nil => left; rfl
  | cons e m ih =>
    obtain ⟨⟨b', o'⟩, v⟩ := e
    unfold lookup
    cases h : (b == b' && o == o')
    · rw [cond_false]
      rcases ih with ih | ih
      · left; exact ih
      · right; exact List.mem_cons_of_mem _ ih
    · rw [cond_true]
      right
      simp only [Bool.and_eq_true, beq_iff_eq] at h
      rw [h.1, h.2]; exact List.mem_cons_self

theorem and_mod (o n : ℕ) : (Nat.blt o n && o % 8 == 0) = true ↔ o < n ∧ o % 8 = 0 := by
  rw [Bool.and_eq_true, Nat.blt_eq, beq_iff_eq]

theorem load_sound (hL : LayOK L E β) (hs : Holds L ρ β s σ) (hw : WF L σ) {b o : ℕ} {v : SVal}
    (h : σ.load L b o = some v) :
    load E s (β b + BitVec.ofNat 64 o) = some (s.mem (β b + BitVec.ofNat 64 o)) ∧
      v.Holds ρ β (s.mem (β b + BitVec.ofNat 64 o)) ∧ v.Dep σ.next ∧ o < L.r b ∧ o % 8 = 0 := by
  unfold Sym.load at h
  cases hc : (Nat.blt o ((L.rsz[b]?).getD 0) && o % 8 == 0)
  · rw [hc, cond_false] at h; cases h
  · rw [hc, cond_true] at h
    obtain ⟨h1, h2⟩ := (and_mod _ _).mp hc
    cases h
    refine ⟨?_, ?_, ?_, h1, h2⟩
    · unfold load
      rw [addr_aligned hL h1 h2, hL.rd b o h1 h2]; rfl
    · rcases lookup_mem σ.mem b o with e | e
      · rw [e]; trivial
      · exact hs.mem _ e
    · rcases lookup_mem σ.mem b o with e | e
      · rw [e]; trivial
      · exact hw.mem _ e

theorem hits_of_eq (hL : LayOK L E β) {y o x o' : ℕ} (ho : o < L.w y) (h8 : o % 8 = 0) (ho' : o' < L.r x) (h8' : o' % 8 = 0)
    (h : β x + BitVec.ofNat 64 o' = β y + BitVec.ofNat 64 o) : hits L y o x o' = true := by
  unfold hits
  by_cases hxy : x = y
  · subst hxy
    have e : (x == x) = true := by simp
    rw [e, cond_true]
    have h1 := addr_toNat hL ho'
    have h2 := addr_toNat hL (lt_of_lt_of_le ho (hL.le x))
    rw [h] at h1
    rw [beq_iff_eq]; omega
  · have e : (x == y) = false := by simpa using hxy
    rw [e, cond_false]
    obtain ⟨t, ht, a, b, c⟩ := hL.sep x y o o' hxy ho' ho h8 h8' h
    rw [List.any_eq_true]
    exact ⟨t, ht, by simp [a, b, c]⟩

theorem store_sound (hL : LayOK L E β) (hs : Holds L ρ β s σ) (hw : WF L σ) {b o : ℕ} {v : SVal} {w : Digit} {σ' : Sym}
    (h : σ.store L b o v = some σ') (hv : v.Holds ρ β w) (hd : v.Dep σ.next) :
    ∃ s', store E s (β b + BitVec.ofNat 64 o) w = some s' ∧ Holds L ρ β s' σ' ∧ WF L σ' ∧ σ'.next = σ.next ∧
      Frame L β s s' := by
  unfold Sym.store at h
  cases hc : (Nat.blt o ((L.wsz[b]?).getD 0) && o % 8 == 0)
  · rw [hc, cond_false] at h; cases h
  · rw [hc, cond_true] at h
    obtain ⟨h1, h2⟩ := (and_mod _ _).mp hc
    cases h
    have hr : o < L.r b := lt_of_lt_of_le h1 (hL.le b)
    refine ⟨s.setMem (β b + BitVec.ofNat 64 o) w, ?_, ⟨hs.one, hs.regs, hs.cf, hs.of, ?_, hs.bnd, hs.eqs⟩,
      ⟨hw.pos, hw.len, hw.regs, hw.cf, hw.of, ?_, ?_, hw.eqs⟩, rfl, ?_⟩
    · unfold store
      rw [addr_aligned hL hr h2, hL.wr b o h1 h2]; rfl
    · intro e he
      dsimp only at he
      rcases List.mem_cons.mp he with he | he
      · subst he
        unfold St.setMem
        dsimp only
        rw [if_pos (Eq.refl _)]; exact hv
      · obtain ⟨he, hh⟩ := List.mem_filter.mp he
        unfold St.setMem
        dsimp only
        rw [if_neg]
        · exact hs.mem e he
        · intro hc
          obtain ⟨r1, r2⟩ := hw.rng e he
          rw [hits_of_eq hL h1 h2 r1 r2 hc] at hh
          cases hh
    · intro e he
      dsimp only at he
      rcases List.mem_cons.mp he with he | he
      · subst he; exact hd
      · exact hw.mem e (List.mem_filter.mp he).1
    · intro e he
      dsimp only at he
      rcases List.mem_cons.mp he with he | he
      · subst he; exact ⟨hr, h2⟩
      · exact hw.rng e (List.mem_filter.mp he).1
    · intro a ha
      unfold St.setMem
      dsimp only
      rw [if_neg (ha b o h1 h2)]

/-! ## Operands -/

theorem ofNat_add (a b : ℕ) : BitVec.ofNat 64 (a + b) = BitVec.ofNat 64 a + BitVec.ofNat 64 b := by
  apply BitVec.eq_of_toNat_eq; simp

theorem get_sound (hT : TabOK tabs E) (hL : LayOK L E β) (hs : Holds L ρ β s σ) (hw : WF L σ) {o : Opd} {v : SVal}
    (h : σ.get tabs L o = some v) : ∃ w, get E s o = some w ∧ v.Holds ρ β w ∧ v.Dep σ.next := by
  cases o with
  | reg r =>
    cases h
    exact ⟨_, rfl, hs.regs r, hw.regs r⟩
  | imm x =>
    cases h
    exact ⟨_, rfl, (Poly.eval_const hs.one _).symm, Poly.Dep.const _ _⟩
  | mem r d =>
    unfold Sym.get at h
    dsimp only at h
    have hr := hs.regs r
    cases hv : σ.reg r with
    | ptr b o =>
      rw [hv] at h hr
      have hr : s.reg r = β b + BitVec.ofNat 64 o := hr
      obtain ⟨h1, h2, h3, _⟩ := load_sound hL hs hw h
      refine ⟨_, ?_, h2, h3⟩
      unfold get
      dsimp only
      rw [hr, BitVec.add_assoc, ← ofNat_add]; exact h1
    | any => rw [hv] at h; cases h
    | poly p => rw [hv] at h; cases h
    | low p => rw [hv] at h; cases h
  | tab t i =>
    unfold Sym.get at h
    dsimp only at h
    cases hv : (tabs t)[i]? with
    | none => rw [hv] at h; cases h
    | some x =>
      rw [hv] at h
      cases h
      rw [← hT t, List.getElem?_map] at hv
      cases hw : (E.tab t)[i]? with
      | none => rw [hw] at hv; cases hv
      | some w =>
        rw [hw] at hv
        cases hv
        exact ⟨w, hw, (Poly.eval_const hs.one _).symm, Poly.Dep.const _ _⟩

theorem put_sound (hL : LayOK L E β) (hs : Holds L ρ β s σ) (hw : WF L σ) {d : Opd} {v : SVal} {w : Digit} {σ' : Sym}
    (h : σ.put L v d = some σ') (hv : v.Holds ρ β w) (hd : v.Dep σ.next) :
    ∃ s', put E s w d = some s' ∧ Holds L ρ β s' σ' ∧ WF L σ' ∧ σ'.next = σ.next ∧ Frame L β s s' := by
  cases d with
  | reg r =>
    cases h
    obtain ⟨a, b⟩ := setReg_sound hs hw (r := r) hv hd
    exact ⟨_, rfl, a, b, rfl, fun _ _ => rfl⟩
  | imm x => cases h
  | tab t i => cases h
  | mem r d =>
    unfold Sym.put at h
    dsimp only at h
    have hr := hs.regs r
    cases hv' : σ.reg r with
    | ptr b o =>
      rw [hv'] at h hr
      have hr : s.reg r = β b + BitVec.ofNat 64 o := hr
      obtain ⟨s', h1, h2⟩ := store_sound hL hs hw h hv hd
      refine ⟨s', ?_, h2⟩
      unfold put
      dsimp only
      rw [hr, BitVec.add_assoc, ← ofNat_add]; exact h1
    | any => rw [hv'] at h; cases h
    | poly p => rw [hv'] at h; cases h
    | low p => rw [hv'] at h; cases h

theorem getP_sound (hT : TabOK tabs E) (hL : LayOK L E β) (hs : Holds L ρ β s σ) (hw : WF L σ) {o : Opd} {p : Poly}
    (h : σ.getP tabs L o = some p) :
    ∃ w, get E s o = some w ∧ (w.toNat : ℤ) = Poly.eval ρ p ∧ Poly.Dep σ.next p := by
  unfold Sym.getP at h
  cases hg : σ.get tabs L o with
  | none => rw [hg] at h; cases h
  | some v =>
    rw [hg] at h
    cases v with
    | poly q => cases h; exact get_sound hT hL hs hw hg
    | any => cases h
    | ptr b o => cases h
    | low p => cases h

/-! ## New variables -/

theorem fresh_sound (hs : Holds L ρ β s σ) (hw : WF L σ) {x u : ℕ} (hx : x ≤ u) :
    Holds L (fun i => if i = σ.next then x else ρ i) β s (σ.fresh u) ∧ WF L (σ.fresh u) := by
  have h0 : (fun i => if i = σ.next then x else ρ i) 0 = 1 := by
    dsimp only; rw [if_neg (by have := hw.pos; omega)]; exact hs.one
  have hr : ∀ i < σ.next, (fun i => if i = σ.next then x else ρ i) i = ρ i := by
    intro i hi; dsimp only; rw [if_neg (by omega)]
  refine ⟨⟨h0, fun r => (hs.regs r).congr (hw.regs r) hs.one h0 hr, hs.cf.congr hw.cf hs.one h0 hr,
    hs.of.congr hw.of hs.one h0 hr, fun e he => (hs.mem e he).congr (hw.mem e he) hs.one h0 hr, hs.bnd.fresh hx, ?_⟩, ?_⟩
  · intro p hp
    rw [hw.eqs p hp _ ρ h0 hs.one hr]; exact hs.eqs p hp
  · have hm : σ.next ≤ σ.next + 1 := by omega
    exact ⟨Nat.succ_pos _, hw.len, fun r => (hw.regs r).mono hm, hw.cf.mono hm, hw.of.mono hm,
      fun e he => (hw.mem e he).mono hm, hw.rng, fun p hp => (hw.eqs p hp).mono hm⟩

theorem flags_sound (hs : Holds L ρ β s σ) (hw : WF L σ) {c o : Option Bool} {p q : Option Poly} (hc : FlagHolds ρ c p)
    (ho : FlagHolds ρ o q) (dc : FlagDep σ.next p) (dq : FlagDep σ.next q) :
    Holds L ρ β { s with cf := c, of := o } { σ with cf := p, of := q } ∧ WF L { σ with cf := p, of := q } :=
  ⟨⟨hs.one, hs.regs, hc, ho, hs.mem, hs.bnd, hs.eqs⟩, ⟨hw.pos, hw.len, hw.regs, dc, dq, hw.mem, hw.rng, hw.eqs⟩⟩

/-! ## Arithmetic -/

theorem bit_le (c : Bool) : bit c ≤ 1 := by cases c <;> decide

theorem sum_toNat (x y : Digit) (c : Bool) :
    ((sumOf x y c).toNat : ℤ) = x.toNat + y.toNat + bit c - 2 ^ 64 * bit (carryOf x y c) := by
  have hx := x.isLt
  have hy := y.isLt
  have hc := bit_le c
  unfold sumOf carryOf
  have e : (x + y + BitVec.ofNat 64 (bit c)).toNat = (x.toNat + y.toNat + bit c) % 2 ^ 64 := by
    rw [BitVec.toNat_add, BitVec.toNat_add, BitVec.toNat_ofNat]; omega
  rw [e]
  by_cases h : 2 ^ 64 ≤ x.toNat + y.toNat + bit c
  · rw [decide_eq_true h]
    have : bit true = 1 := rfl
    rw [this]; omega
  · rw [decide_eq_false h]
    have : bit false = 0 := rfl
    rw [this]; omega

theorem diff_toNat (x y : Digit) (c : Bool) :
    ((diffOf x y c).toNat : ℤ) = x.toNat - y.toNat - bit c + 2 ^ 64 * bit (borrowOf x y c) := by
  have hx := x.isLt
  have hy := y.isLt
  have hc := bit_le c
  unfold diffOf borrowOf
  have e : (x - y - BitVec.ofNat 64 (bit c)).toNat = (2 ^ 64 + 2 ^ 64 + x.toNat - y.toNat - bit c) % 2 ^ 64 := by
    rw [BitVec.toNat_sub, BitVec.toNat_sub, BitVec.toNat_ofNat]; omega
  rw [e]
  by_cases h : x.toNat < y.toNat + bit c
  · rw [decide_eq_true h]
    have : bit true = 1 := rfl
    rw [this]; omega
  · rw [decide_eq_false h]
    have : bit false = 0 := rfl
    rw [this]; omega

/-- The execution of an instruction agrees with a step of the checker -/
def StepOK (L : Lay) (β : ℕ → Digit) (ρ : ℕ → ℕ) (s : St) (σ : Sym) (r : Option St) (σ' : Sym) : Prop :=
  ∃ ρ' s', r = some s' ∧ Holds L ρ' β s' σ' ∧ WF L σ' ∧ (∀ i < σ.next, ρ' i = ρ i) ∧ σ.next ≤ σ'.next ∧ Frame L β s s'

theorem addc_sound (hT : TabOK tabs E) (hL : LayOK L E β) (hs : Holds L ρ β s σ) (hw : WF L σ) (hn : σ.next < 65000)
    {d o : Opd} {pc v : Poly} {σ' : Sym} {c : Bool} (hc : (bit c : ℤ) = Poly.eval ρ pc) (hd : Poly.Dep σ.next pc)
    (h : σ.addc tabs L d o pc = some (σ', v)) :
    ∃ ρ' x y s', get E s d = some x ∧ get E s o = some y ∧ put E s (sumOf x y c) d = some s' ∧ Holds L ρ' β s' σ' ∧
      WF L σ' ∧ (∀ i < σ.next, ρ' i = ρ i) ∧ σ.next ≤ σ'.next ∧ Frame L β s s' ∧
      (bit (carryOf x y c) : ℤ) = Poly.eval ρ' v ∧ Poly.Dep σ'.next v := by
  unfold Sym.addc at h
  cases hp : σ.getP tabs L d with
  | none => rw [hp] at h; cases h
  | some p =>
    cases hq : σ.getP tabs L o with
    | none => rw [hp, hq] at h; cases h
    | some q =>
      rw [hp, hq] at h
      dsimp only at h
      obtain ⟨x, gx, ex, dx⟩ := getP_sound hT hL hs hw hp
      obtain ⟨y, gy, ey, dy⟩ := getP_sound hT hL hs hw hq
      obtain ⟨hs1, hw1⟩ := fresh_sound hs hw (bit_le (carryOf x y c))
      set ρ' : ℕ → ℕ := fun i => if i = σ.next then bit (carryOf x y c) else ρ i with hρ'
      have hr : ∀ i < σ.next, ρ' i = ρ i := by
        intro i hi; rw [hρ']; dsimp only; rw [if_neg (by omega)]
      have ev : Poly.eval ρ' (Poly.var σ.next) = bit (carryOf x y c) := by
        rw [Poly.eval_var hs1.one (by omega), hρ']; dsimp only; rw [if_pos (Eq.refl _)]
      cases hput : (σ.fresh 1).put L
          (.poly (Poly.sub (Poly.add (Poly.add p q) pc) (Poly.scale (2 ^ 64) (Poly.var σ.next)))) d with
      | none => rw [hput] at h; cases h
      | some σ'' =>
        rw [hput] at h
        cases h
        have hm : σ.next ≤ (σ.fresh 1).next := Nat.le_succ _
        have dv : Poly.Dep (σ.fresh 1).next (Poly.var σ.next) := Poly.Dep.var (Nat.lt_succ_self _) (by omega)
        have hv : (SVal.poly (Poly.sub (Poly.add (Poly.add p q) pc)
            (Poly.scale (2 ^ 64) (Poly.var σ.next)))).Holds ρ' β (sumOf x y c) := by
          show ((sumOf x y c).toNat : ℤ) = _
          rw [Poly.eval_sub, Poly.eval_add, Poly.eval_add, Poly.eval_scale, ev, dx ρ' ρ hs1.one hs.one hr,
            dy ρ' ρ hs1.one hs.one hr, hd ρ' ρ hs1.one hs.one hr, ← ex, ← ey, ← hc]
          exact sum_toNat x y c
        obtain ⟨s', h1, h2, h3, h4, h5⟩ := put_sound hL hs1 hw1 hput hv
          ((((dx.mono hm).add (dy.mono hm)).add (hd.mono hm)).sub (dv.scale _))
        exact ⟨ρ', x, y, s', gx, gy, h1, h2, h3, hr, by rw [h4]; exact hm, h5, ev.symm, by rw [h4]; exact dv⟩

theorem subc_sound (hT : TabOK tabs E) (hL : LayOK L E β) (hs : Holds L ρ β s σ) (hw : WF L σ) (hn : σ.next < 65000)
    {d o : Opd} {pc v : Poly} {σ' : Sym} {c : Bool} (hc : (bit c : ℤ) = Poly.eval ρ pc) (hd : Poly.Dep σ.next pc)
    (h : σ.subc tabs L d o pc = some (σ', v)) :
    ∃ ρ' x y s', get E s d = some x ∧ get E s o = some y ∧ put E s (diffOf x y c) d = some s' ∧ Holds L ρ' β s' σ' ∧
      WF L σ' ∧ (∀ i < σ.next, ρ' i = ρ i) ∧ σ.next ≤ σ'.next ∧ Frame L β s s' ∧
      (bit (borrowOf x y c) : ℤ) = Poly.eval ρ' v ∧ Poly.Dep σ'.next v := by
  unfold Sym.subc at h
  cases hp : σ.getP tabs L d with
  | none => rw [hp] at h; cases h
  | some p =>
    cases hq : σ.getP tabs L o with
    | none => rw [hp, hq] at h; cases h
    | some q =>
      rw [hp, hq] at h
      dsimp only at h
      obtain ⟨x, gx, ex, dx⟩ := getP_sound hT hL hs hw hp
      obtain ⟨y, gy, ey, dy⟩ := getP_sound hT hL hs hw hq
      obtain ⟨hs1, hw1⟩ := fresh_sound hs hw (bit_le (borrowOf x y c))
      set ρ' : ℕ → ℕ := fun i => if i = σ.next then bit (borrowOf x y c) else ρ i with hρ'
      have hr : ∀ i < σ.next, ρ' i = ρ i := by
        intro i hi; rw [hρ']; dsimp only; rw [if_neg (by omega)]
      have ev : Poly.eval ρ' (Poly.var σ.next) = bit (borrowOf x y c) := by
        rw [Poly.eval_var hs1.one (by omega), hρ']; dsimp only; rw [if_pos (Eq.refl _)]
      cases hput : (σ.fresh 1).put L
          (.poly (Poly.add (Poly.sub (Poly.sub p q) pc) (Poly.scale (2 ^ 64) (Poly.var σ.next)))) d with
      | none => rw [hput] at h; cases h
      | some σ'' =>
        rw [hput] at h
        cases h
        have hm : σ.next ≤ (σ.fresh 1).next := Nat.le_succ _
        have dv : Poly.Dep (σ.fresh 1).next (Poly.var σ.next) := Poly.Dep.var (Nat.lt_succ_self _) (by omega)
        have hv : (SVal.poly (Poly.add (Poly.sub (Poly.sub p q) pc)
            (Poly.scale (2 ^ 64) (Poly.var σ.next)))).Holds ρ' β (diffOf x y c) := by
          show ((diffOf x y c).toNat : ℤ) = _
          rw [Poly.eval_add, Poly.eval_sub, Poly.eval_sub, Poly.eval_scale, ev, dx ρ' ρ hs1.one hs.one hr,
            dy ρ' ρ hs1.one hs.one hr, hd ρ' ρ hs1.one hs.one hr, ← ex, ← ey, ← hc]
          exact diff_toNat x y c
        obtain ⟨s', h1, h2, h3, h4, h5⟩ := put_sound hL hs1 hw1 hput hv
          ((((dx.mono hm).sub (dy.mono hm)).sub (hd.mono hm)).add (dv.scale _))
        exact ⟨ρ', x, y, s', gx, gy, h1, h2, h3, hr, by rw [h4]; exact hm, h5, ev.symm, by rw [h4]; exact dv⟩

theorem toNat_zero {x : Digit} (h : (x.toNat : ℤ) = 0) : x = 0#64 := by
  apply BitVec.eq_of_toNat_eq
  have : x.toNat = 0 := by exact_mod_cast h
  rw [this]; rfl

theorem mask_toNat (c : Bool) : ((diffOf 0#64 0#64 c).toNat : ℤ) = (2 ^ 64 - 1) * bit c ∧ borrowOf 0#64 0#64 c = c := by
  cases c <;> exact ⟨by decide, by decide⟩

theorem subcMask_sound (hT : TabOK tabs E) (hL : LayOK L E β) (hs : Holds L ρ β s σ) (hw : WF L σ) (hn : σ.next < 65000)
    {d o : Opd} {pc v : Poly} {σ' : Sym} {c : Bool} (hc : (bit c : ℤ) = Poly.eval ρ pc) (hd : Poly.Dep σ.next pc)
    (h : σ.subcMask tabs L d o pc = some (σ', v)) :
    ∃ ρ' x y s', get E s d = some x ∧ get E s o = some y ∧ put E s (diffOf x y c) d = some s' ∧ Holds L ρ' β s' σ' ∧
      WF L σ' ∧ (∀ i < σ.next, ρ' i = ρ i) ∧ σ.next ≤ σ'.next ∧ Frame L β s s' ∧
      (bit (borrowOf x y c) : ℤ) = Poly.eval ρ' v ∧ Poly.Dep σ'.next v := by
  unfold Sym.subcMask at h
  split at h
  · rename_i hp hq
    obtain ⟨x, gx, ex, -⟩ := getP_sound hT hL hs hw hp
    obtain ⟨y, gy, ey, -⟩ := getP_sound hT hL hs hw hq
    have hx := toNat_zero ex
    have hy := toNat_zero ey
    subst hx hy
    cases hput : σ.put L (.poly (Poly.scale (2 ^ 64 - 1) pc)) d with
    | none => rw [hput] at h; cases h
    | some σ'' =>
      rw [hput] at h
      cases h
      obtain ⟨m1, m2⟩ := mask_toNat c
      have hv : (SVal.poly (Poly.scale (2 ^ 64 - 1) pc)).Holds ρ β (diffOf 0#64 0#64 c) := by
        show ((diffOf 0#64 0#64 c).toNat : ℤ) = _
        rw [Poly.eval_scale, ← hc, m1]
      obtain ⟨s', h1, h2, h3, h4, h5⟩ := put_sound hL hs hw hput hv (hd.scale _)
      exact ⟨ρ, _, _, s', gx, gy, h1, h2, h3, fun _ _ => Eq.refl _, by rw [h4], h5, by rw [m2]; exact hc, by rw [h4]; exact hd⟩
  · exact subc_sound hT hL hs hw hn hc hd h

/-! ## Naming words -/

/-- The number with the given words -/
def numOf : List Digit → ℕ
  | [] => 0
  | w :: ws => w.toNat + 2 ^ 64 * numOf ws

theorem numOf_lt : ∀ ws : List Digit, numOf ws < 2 ^ (64 * ws.length)
  | [] => by simp [numOf]
  | w :: ws => by
    have ih := numOf_lt ws
    have hw := w.isLt
    rw [numOf, List.length_cons, Nat.mul_add, Nat.mul_one, Nat.pow_add]
    nlinarith

theorem getPs_sound (hT : TabOK tabs E) (hL : LayOK L E β) (hs : Holds L ρ β s σ) (hw : WF L σ) :
    ∀ (os : List Opd) (ps : List Poly), σ.getPs tabs L os = some ps →
      ∃ ws, List.Forall₂ (fun o w => get E s o = some w) os ws ∧ Poly.eval ρ (Poly.horner ps) = numOf ws ∧
        (∀ p ∈ ps, Poly.Dep σ.next p) ∧ ps.length = os.length
  | [], ps, h => by
    cases h
    exact ⟨[], .nil, by simp [Poly.horner, numOf], by simp, rfl⟩
  | o :: os, ps, h => by
    unfold Sym.getPs at h
    cases hp : σ.getP tabs L o with
    | none => rw [hp] at h; cases h
    | some p =>
      cases hq : σ.getPs tabs L os with
      | none => rw [hp, hq] at h; cases h
      | some qs =>
        rw [hp, hq] at h
        cases h
        obtain ⟨w, gw, ew, dw⟩ := getP_sound hT hL hs hw hp
        obtain ⟨ws, g, e, d, l⟩ := getPs_sound hT hL hs hw os qs hq
        refine ⟨w :: ws, .cons gw g, ?_, ?_, by simp [l]⟩
        · rw [Poly.eval_horner_cons, ← ew, e, numOf]; push_cast; ring
        · intro r hr
          rcases List.mem_cons.mp hr with hr | hr
          · subst hr; exact dw
          · exact d r hr

theorem forall₂_unique {os : List Opd} {ws ws' : List Digit} (h : List.Forall₂ (fun o w => get E s o = some w) os ws)
    (h' : List.Forall₂ (fun o w => get E s o = some w) os ws') : ws = ws' := by
  induction h generalizing ws' with
  | nil => cases h'; rfl
  | cons a _ ih =>
    cases h' with
    | cons b c => rw [ih c, Option.some.inj (a.symm.trans b)]

theorem rename_sound (hL : LayOK L E β) (hs : Holds L ρ β s σ) (hw : WF L σ) {o : Opd} {v : SVal} {w : Digit} {σ' : Sym}
    (h : σ.rename L v o = some σ') (hg : get E s o = some w) (hv : v.Holds ρ β w) (hd : v.Dep σ.next) :
    Holds L ρ β s σ' ∧ WF L σ' ∧ σ'.next = σ.next := by
  cases o with
  | reg r =>
    cases h
    cases hg
    obtain ⟨a, b⟩ := setReg_sound hs hw (r := r) hv hd
    have e : s.setReg r (s.reg r) = s := by
      unfold St.setReg
      have : (fun q => if q = r then s.reg r else s.reg q) = s.reg := by
        funext q
        by_cases h : q = r
        · rw [if_pos h, h]
        · rw [if_neg h]
      rw [this]
    rw [e] at a
    exact ⟨a, b, rfl⟩
  | imm x => cases h
  | tab t i => cases h
  | mem r d =>
    unfold Sym.rename at h
    dsimp only at h
    have hr := hs.regs r
    cases hv' : σ.reg r with
    | ptr b o =>
      rw [hv'] at h hr
      have hr : s.reg r = β b + BitVec.ofNat 64 o := hr
      dsimp only at h
      cases hc : (Nat.blt (o + d) ((L.rsz[b]?).getD 0) && (o + d) % 8 == 0)
      · rw [hc, cond_false] at h; cases h
      · rw [hc, cond_true] at h
        obtain ⟨h1, h2⟩ := (and_mod _ _).mp hc
        cases h
        have hw' : w = s.mem (β b + BitVec.ofNat 64 (o + d)) := by
          unfold get load at hg
          dsimp only at hg
          rw [hr, BitVec.add_assoc, ← ofNat_add] at hg
          split at hg
          · exact (Option.some.inj hg).symm
          · cases hg
        refine ⟨⟨hs.one, hs.regs, hs.cf, hs.of, ?_, hs.bnd, hs.eqs⟩,
          ⟨hw.pos, hw.len, hw.regs, hw.cf, hw.of, ?_, ?_, hw.eqs⟩, rfl⟩
        · intro e he
          dsimp only at he
          rcases List.mem_cons.mp he with he | he
          · subst he; rw [hw'] at hv; exact hv
          · exact hs.mem e (List.mem_filter.mp he).1
        · intro e he
          dsimp only at he
          rcases List.mem_cons.mp he with he | he
          · subst he; exact hd
          · exact hw.mem e (List.mem_filter.mp he).1
        · intro e he
          dsimp only at he
          rcases List.mem_cons.mp he with he | he
          · subst he; exact ⟨h1, h2⟩
          · exact hw.rng e (List.mem_filter.mp he).1
    | any => rw [hv'] at h; cases h
    | poly p => rw [hv'] at h; cases h
    | low p => rw [hv'] at h; cases h

theorem renames_sound (hL : LayOK L E β) {s : St} :
    ∀ (os : List Opd) (ws : List Digit) (σ σ' : Sym) (ρ : ℕ → ℕ) (u : ℕ), Holds L ρ β s σ → WF L σ →
      List.Forall₂ (fun o w => get E s o = some w) os ws → numOf ws ≤ u → σ.next + os.length < 65536 →
      σ.renames L u os = some σ' →
      ∃ ρ', Holds L ρ' β s σ' ∧ WF L σ' ∧ (∀ i < σ.next, ρ' i = ρ i) ∧ σ.next ≤ σ'.next
  | [], ws, σ, σ', ρ, u, hs, hw, _, _, _, h => by
    cases h
    exact ⟨ρ, hs, hw, fun _ _ => Eq.refl _, le_refl _⟩
  | o :: os, ws, σ, σ', ρ, u, hs, hw, hg, hu, hn, h => by
    cases hg with
    | cons g gs =>
      rename_i w ws
      rw [List.length_cons] at hn
      unfold Sym.renames at h
      have hwu : w.toNat ≤ Nat.min u (2 ^ 64 - 1) := by
        rw [numOf] at hu
        have := w.isLt
        exact Nat.le_min.mpr ⟨by omega, by omega⟩
      have hus : numOf ws ≤ u / 2 ^ 64 := by
        rw [numOf] at hu
        rw [Nat.le_div_iff_mul_le (by norm_num)]; omega
      obtain ⟨hs1, hw1⟩ := fresh_sound hs hw hwu
      set ρ1 : ℕ → ℕ := fun i => if i = σ.next then w.toNat else ρ i with hρ1
      have hr : ∀ i < σ.next, ρ1 i = ρ i := by
        intro i hi; rw [hρ1]; dsimp only; rw [if_neg (by omega)]
      have hv : (SVal.poly (Poly.var σ.next)).Holds ρ1 β w := by
        show (w.toNat : ℤ) = _
        rw [Poly.eval_var hs1.one (by omega), hρ1]; dsimp only; rw [if_pos (Eq.refl _)]
      cases hren : (σ.fresh (Nat.min u (2 ^ 64 - 1))).rename L (.poly (Poly.var σ.next)) o with
      | none => rw [hren] at h; cases h
      | some σ1 =>
        rw [hren] at h
        dsimp only at h
        obtain ⟨a, b, c⟩ := rename_sound hL hs1 hw1 hren g hv (Poly.Dep.var (Nat.lt_succ_self _) (by omega))
        have c' : σ1.next = σ.next + 1 := c
        obtain ⟨ρ2, a2, b2, c2, d2⟩ := renames_sound hL os ws σ1 σ' ρ1 (u / 2 ^ 64) a b gs hus (by omega) h
        exact ⟨ρ2, a2, b2, fun i hi => (c2 i (by omega)).trans (hr i hi), by omega⟩

end

end Secuer.X64
