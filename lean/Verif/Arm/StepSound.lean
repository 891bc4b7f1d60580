import Verif.Arm.Sound

/-!
# Soundness of the checker for ARM code: steps and runs
-/

namespace Secuer.Arm

open Secuer.X64 (Digit Tab Env Poly SVal Lay LayOK TabOK FlagHolds FlagDep maskVar maskVar_sound ofNat_add bit bit_le sumOf
  carryOf diffOf borrowOf sum_toNat cond_some allMod_sound)

variable {tabs : Tab → List ℕ} {L : Lay} {E : Env} {β : ℕ → Digit} {ρ : ℕ → ℕ} {s : St} {σ : Sym}

/-- The execution of an instruction agrees with a step of the checker -/
def StepOK (L : Lay) (β : ℕ → Digit) (ρ : ℕ → ℕ) (s : St) (σ : Sym) (r : Option St) (σ' : Sym) : Prop :=
  ∃ ρ' s', r = some s' ∧ Holds ρ' β s' σ' ∧ WF L σ' ∧ (∀ i < σ.core.next, ρ' i = ρ i) ∧ σ.core.next ≤ σ'.core.next ∧
    Frame L β s s'

/-- New variables, then a register -/
theorem StepOK.reg {ρ' : ℕ → ℕ} {σ' : Sym} (g : Grow L β s ρ σ ρ' σ') {d : Reg} {v : SVal} {w : Digit} (hv : v.Holds ρ' β w)
    (hd : v.Dep σ'.core.next) : StepOK L β ρ s σ (some (s.setReg d w)) (σ'.setReg d v) := by
  obtain ⟨a, b⟩ := setReg_sound g.holds g.wf (r := d) hv hd
  exact ⟨ρ', _, rfl, a, b, g.same, g.le, fun _ _ => rfl⟩

/-- New variables, then a register and the flag -/
theorem StepOK.regC {ρ' : ℕ → ℕ} {σ' : Sym} (g : Grow L β s ρ σ ρ' σ') {d : Reg} {v : SVal} {w : Digit} {c : Bool} {p : Poly}
    (hv : v.Holds ρ' β w) (hd : v.Dep σ'.core.next) (hc : (bit c : ℤ) = Poly.eval ρ' p) (dc : Poly.Dep σ'.core.next p) :
    StepOK L β ρ s σ (some ((s.setReg d w).setC c)) ((σ'.setReg d v).setC (some p)) := by
  obtain ⟨a, b⟩ := setReg_sound g.holds g.wf (r := d) hv hd
  obtain ⟨a', b'⟩ := setC_sound a b hc dc
  exact ⟨ρ', _, rfl, a', b', g.same, g.le, fun _ _ => rfl⟩

theorem bit_not (c : Bool) : (bit (!c) : ℤ) = 1 - bit c := by cases c <;> rfl

theorem doAdd_sound (hs : Holds ρ β s σ) (hw : WF L σ) (hn : σ.core.next < 65000) {f : Bool} {d : Reg} {a b : Src} {pc : Poly}
    {σ' : Sym} {c : Bool} (hc : (bit c : ℤ) = Poly.eval ρ pc) (dc : Poly.Dep σ.core.next pc)
    (h : σ.doAdd f d a b pc = some σ') :
    StepOK L β ρ s σ (some (if f then (s.setReg d (sumOf (s.get a) (s.get b) c)).setC (carryOf (s.get a) (s.get b) c)
      else s.setReg d (sumOf (s.get a) (s.get b) c))) σ' := by
  unfold Sym.doAdd at h
  cases hp : σ.get a with
  | none => rw [hp] at h; cases h
  | some p =>
    cases hq : σ.get b with
    | none => rw [hp, hq] at h; cases h
    | some q =>
      rw [hp, hq] at h
      dsimp only at h
      obtain ⟨ex, dx⟩ := get_sound hs hw hp
      obtain ⟨ey, dy⟩ := get_sound hs hw hq
      cases ha : σ.addc p q pc with
      | none => rw [ha] at h; cases h
      | some t =>
        obtain ⟨σ1, w, v⟩ := t
        rw [ha] at h
        dsimp only at h
        obtain ⟨ρ', g, e1, e2, d1, d2⟩ := (addc_sound (L := L) hs hw hn ex ey hc dx dy dc ha).out
        cases f with
        | true =>
          rw [cond_true] at h
          cases h
          exact StepOK.regC g e1 d1 e2 d2
        | false =>
          rw [cond_false] at h
          cases h
          exact StepOK.reg g e1 d1

theorem doSub_sound (hs : Holds ρ β s σ) (hw : WF L σ) (hn : σ.core.next < 65000) {f : Bool} {d : Reg} {a b : Src} {pc : Poly}
    {σ' : Sym} {c : Bool} (hc : (bit c : ℤ) = Poly.eval ρ pc) (dc : Poly.Dep σ.core.next pc)
    (h : σ.doSub f d a b pc = some σ') :
    StepOK L β ρ s σ (some (if f then (s.setReg d (diffOf (s.get a) (s.get b) c)).setC (!borrowOf (s.get a) (s.get b) c)
      else s.setReg d (diffOf (s.get a) (s.get b) c))) σ' := by
  unfold Sym.doSub at h
  cases hp : σ.get a with
  | none => rw [hp] at h; cases h
  | some p =>
    cases hq : σ.get b with
    | none => rw [hp, hq] at h; cases h
    | some q =>
      rw [hp, hq] at h
      dsimp only at h
      obtain ⟨ex, dx⟩ := get_sound hs hw hp
      obtain ⟨ey, dy⟩ := get_sound hs hw hq
      cases ha : σ.subc p q pc with
      | none => rw [ha] at h; cases h
      | some t =>
        obtain ⟨σ1, w, v⟩ := t
        rw [ha] at h
        dsimp only at h
        obtain ⟨ρ', g, e1, e2, d1, d2⟩ := (subc_sound (L := L) hs hw hn ex ey hc dx dy dc ha).out
        cases f with
        | true =>
          rw [cond_true] at h
          cases h
          refine StepOK.regC g e1 d1 ?_ ((Poly.Dep.const _ _).sub d2)
          rw [bit_not, Poly.eval_sub, Poly.eval_const g.holds.one, e2]
        | false =>
          rw [cond_false] at h
          cases h
          exact StepOK.reg g e1 d1

theorem carry_sound (hs : Holds ρ β s σ) (hw : WF L σ) {p : Poly} (h : σ.core.cf = some p) :
    ∃ c, s.c = some c ∧ (bit c : ℤ) = Poly.eval ρ p ∧ Poly.Dep σ.core.next p ∧
      (bit (!c) : ℤ) = Poly.eval ρ (Poly.sub (Poly.const 1) p) ∧ Poly.Dep σ.core.next (Poly.sub (Poly.const 1) p) := by
  have fc := hs.cf
  have dc := hw.cf
  rw [h] at fc dc
  obtain ⟨b, hb, eb⟩ := fc
  exact ⟨b, hb, eb, dc, by rw [bit_not, Poly.eval_sub, Poly.eval_const hs.one, eb], (Poly.Dep.const _ _).sub dc⟩

theorem mulHigh_sound (hs : Holds ρ β s σ) (hw : WF L σ) (hn : σ.core.next < 65000) {a b : Src} {p q r : Poly} {σ' : Sym}
    {v : ℕ} (hp : σ.get a = some p) (hq : σ.get b = some q) (hr : Poly.mul p q = some r)
    (h : σ.high r (2 ^ 64 - 2) = (σ', v)) :
    ∃ ρ', Grow L β s ρ σ ρ' σ' ∧ ρ' v = (s.get a).toNat * (s.get b).toNat / 2 ^ 64 ∧ v < σ'.core.next ∧ v < 65536 ∧
      Poly.eval ρ' r = ((s.get a).toNat * (s.get b).toNat : ℕ) ∧ Poly.Dep σ'.core.next r := by
  obtain ⟨ex, dx⟩ := get_sound hs hw hp
  obtain ⟨ey, dy⟩ := get_sound hs hw hq
  have hx := (s.get a).isLt
  have hy := (s.get b).isLt
  have dr := dx.mul dy hr
  have er : Poly.eval ρ r = ((s.get a).toNat * (s.get b).toNat : ℕ) := by
    rw [Poly.eval_mul hs.one _ _ _ hr, ← ex, ← ey]; push_cast; rfl
  have hlt : (s.get a).toNat * (s.get b).toNat / 2 ^ 64 ≤ 2 ^ 64 - 2 := by
    have h1 : (s.get a).toNat * (s.get b).toNat ≤ (2 ^ 64 - 1) * (2 ^ 64 - 1) := Nat.mul_le_mul (by omega) (by omega)
    have h2 : (s.get a).toNat * (s.get b).toNat < 2 ^ 64 * (2 ^ 64 - 1) := lt_of_le_of_lt h1 (by norm_num)
    have := Nat.div_lt_of_lt_mul h2
    omega
  obtain ⟨ρ', g, e1, e2, e3⟩ := high_sound hs hw er hlt dr h
  obtain ⟨t1, t2⟩ := g.dep hs dr
  exact ⟨ρ', g, e1, e2, by omega, by rw [t1, er], t2⟩

theorem exec_sound (h16 : (β 0).toNat % 16 = 0) (hT : TabOK tabs E) (hL : LayOK L E β) (hs : Holds ρ β s σ) (hw : WF L σ)
    (hn : σ.core.next < 65000) {i : Instr} {σ' : Sym} (h : σ.exec tabs L i = some σ') :
    StepOK L β ρ s σ (exec E s i) σ' := by
  have gr := Grow.refl (L := L) hs hw
  cases i with
  | ldr d b o =>
    unfold Sym.exec at h
    dsimp only at h
    cases ha : σ.addr b o with
    | none => rw [ha] at h; cases h
    | some yx =>
      obtain ⟨y, x⟩ := yx
      rw [ha] at h
      dsimp only at h
      cases hl : σ.load L y x with
      | none => rw [hl] at h; cases h
      | some v =>
        rw [hl] at h
        cases h
        obtain ⟨l1, l2, l3, -⟩ := load_sound hL hs hw hl
        have hx : exec E s (.ldr d b o) = some (s.setReg d (s.mem (β y + BitVec.ofNat 64 x))) := by
          unfold exec; dsimp only; rw [(addr_sound h16 hs ha).1]; dsimp only [bind, Option.bind]; rw [l1]
        rw [hx]
        exact StepOK.reg gr l2 l3
  | ldp d e b o =>
    unfold Sym.exec at h
    dsimp only at h
    cases hde : (d.idx == e.idx)
    · rw [hde, cond_false] at h
      have hne : d ≠ e := by
        rintro rfl
        simp at hde
      cases ha : σ.addr b o with
      | none => rw [ha] at h; cases h
      | some yx =>
        obtain ⟨y, x⟩ := yx
        rw [ha] at h
        dsimp only at h
        cases hl : σ.load L y x with
        | none => rw [hl] at h; cases h
        | some v =>
          cases hl' : σ.load L y (x + 8) with
          | none => rw [hl, hl'] at h; cases h
          | some w =>
            rw [hl, hl'] at h
            cases h
            obtain ⟨l1, l2, l3, -⟩ := load_sound hL hs hw hl
            obtain ⟨m1, m2, m3, -⟩ := load_sound hL hs hw hl'
            have hx : exec E s (.ldp d e b o) = some ((s.setReg d (s.mem (β y + BitVec.ofNat 64 x))).setReg e
                (s.mem (β y + BitVec.ofNat 64 (x + 8)))) := by
              unfold exec
              dsimp only
              rw [if_neg hne, (addr_sound h16 hs ha).1, (addr_sound h16 hs ha).2 s rfl]
              dsimp only [bind, Option.bind]
              rw [l1, m1]
            rw [hx]
            obtain ⟨a, b⟩ := setReg_sound hs hw (r := d) l2 l3
            obtain ⟨a', b'⟩ := setReg_sound a b (r := e) m2 m3
            exact ⟨ρ, _, rfl, a', b', fun _ _ => rfl, le_refl _, fun _ _ => rfl⟩
    · rw [hde, cond_true] at h; cases h
  | lit d t i =>
    unfold Sym.exec at h
    dsimp only at h
    cases hv : (tabs t)[i]? with
    | none => rw [hv] at h; cases h
    | some x =>
      rw [hv] at h
      cases h
      rw [← hT t, List.getElem?_map] at hv
      cases hw' : (E.tab t)[i]? with
      | none => rw [hw'] at hv; cases hv
      | some w =>
        rw [hw'] at hv
        cases hv
        have hx : exec E s (.lit d t i) = some (s.setReg d w) := by
          unfold exec; dsimp only; rw [hw']; rfl
        rw [hx]
        exact StepOK.reg gr (Poly.eval_const hs.one _).symm (Poly.Dep.const _ _)
  | str a b o =>
    unfold Sym.exec at h
    dsimp only at h
    cases ha : σ.addr b o with
    | none => rw [ha] at h; cases h
    | some yx =>
      obtain ⟨y, x⟩ := yx
      rw [ha] at h
      dsimp only at h
      obtain ⟨v1, v2⟩ := val_sound hs hw a
      obtain ⟨s', e1, e2, e3, e4, e5, -⟩ := store_sound hL hs hw h v1 v2
      have hx : exec E s (.str a b o) = some s' := by
        unfold exec; dsimp only; rw [(addr_sound h16 hs ha).1]; exact e1
      rw [hx]
      exact ⟨ρ, s', rfl, e2, e3, fun _ _ => rfl, by rw [e4], e5⟩
  | stp a a' b o =>
    unfold Sym.exec at h
    dsimp only at h
    cases ha : σ.addr b o with
    | none => rw [ha] at h; cases h
    | some yx =>
      obtain ⟨y, x⟩ := yx
      rw [ha] at h
      dsimp only at h
      cases hst : σ.store L y x (σ.val a) with
      | none => rw [hst] at h; cases h
      | some σ1 =>
        rw [hst] at h
        dsimp only at h
        obtain ⟨v1, v2⟩ := val_sound hs hw a
        obtain ⟨w1, w2⟩ := val_sound hs hw a'
        obtain ⟨s1, e1, e2, e3, e4, e5, e6⟩ := store_sound hL hs hw hst v1 v2
        obtain ⟨s2, f1, f2, f3, f4, f5, -⟩ := store_sound hL e2 e3 h w1 (by rw [e4]; exact w2)
        have hx : exec E s (.stp a a' b o) = some s2 := by
          unfold exec
          dsimp only
          rw [(addr_sound h16 hs ha).1, (addr_sound h16 hs ha).2 s rfl]
          dsimp only [bind, Option.bind]
          rw [e1]
          exact f1
        rw [hx]
        exact ⟨ρ, s2, rfl, f2, f3, fun _ _ => rfl, by rw [f4, e4], e5.trans f5⟩
  | addi d a k =>
    unfold Sym.exec at h
    dsimp only at h
    have hr := hs.regs a
    cases hv : σ.reg a with
    | ptr b x =>
      rw [hv] at h hr
      cases h
      have hr : s.reg a = β b + BitVec.ofNat 64 x := hr
      refine StepOK.reg gr (w := s.reg a + BitVec.ofNat 64 k) ?_ trivial
      show s.reg a + BitVec.ofNat 64 k = β b + BitVec.ofNat 64 (x + k)
      rw [hr, BitVec.add_assoc, ← ofNat_add]
    | any => rw [hv] at h; cases h
    | poly p => rw [hv] at h; cases h
    | low p => rw [hv] at h; cases h
  | subi d a k =>
    unfold Sym.exec at h
    dsimp only at h
    have hr := hs.regs a
    cases hv : σ.reg a with
    | ptr b x =>
      rw [hv] at h hr
      dsimp only at h
      obtain ⟨hk, h⟩ := cond_some h
      have hk := Nat.le_of_ble_eq_true hk
      cases h
      have hr : s.reg a = β b + BitVec.ofNat 64 x := hr
      refine StepOK.reg gr (w := s.reg a - BitVec.ofNat 64 k) ?_ trivial
      show s.reg a - BitVec.ofNat 64 k = β b + BitVec.ofNat 64 (x - k)
      have e2 : x = (x - k) + k := by omega
      rw [hr]
      conv_lhs => rw [e2]
      rw [ofNat_add, ← BitVec.add_assoc, BitVec.add_sub_cancel]
    | any => rw [hv] at h; cases h
    | poly p => rw [hv] at h; cases h
    | low p => rw [hv] at h; cases h
  | addsi d a k =>
    unfold Sym.exec at h
    dsimp only at h
    obtain ⟨hk, h⟩ := cond_some h
    rw [beq_iff_eq] at hk
    subst hk
    cases hp : σ.get a with
    | none => rw [hp] at h; cases h
    | some p =>
      rw [hp] at h
      dsimp only at h
      cases hm : maskVar σ.core.next σ.core.ubs p with
      | none => rw [hm] at h; cases h
      | some v =>
        rw [hm] at h
        cases h
        obtain ⟨ex, -⟩ := get_sound hs hw hp
        obtain ⟨k1, k2, k3, k4⟩ := maskVar_sound hs.bnd hs.one hm
        rw [k1] at ex
        have key := sum_toNat (s.get a) (BitVec.ofNat 64 1) false
        have hlt := (sumOf (s.get a) (BitVec.ofNat 64 1) false).isLt
        have hb := bit_le (carryOf (s.get a) (BitVec.ofNat 64 1) false)
        have e1 : ((BitVec.ofNat 64 1).toNat : ℤ) = 1 := rfl
        have e2 : (bit false : ℤ) = 0 := rfl
        rw [e1, e2] at key
        have ev : Poly.eval ρ (Poly.var v) = ρ v := Poly.eval_var hs.one k3
        refine StepOK.regC gr ?_ ((Poly.Dep.const _ _).sub (Poly.Dep.var k4 k3)) ?_ (Poly.Dep.var k4 k3)
        · show ((sumOf (s.get a) (BitVec.ofNat 64 1) false).toNat : ℤ) = _
          rw [Poly.eval_sub, Poly.eval_const hs.one, ev]; omega
        · rw [ev]; omega
  | adds d a b => exact doAdd_sound hs hw hn (c := false) rfl (Poly.Dep.nil _) h
  | adcs d a b =>
    unfold Sym.exec at h
    dsimp only at h
    cases hc : σ.core.cf with
    | none => rw [hc] at h; cases h
    | some p =>
      rw [hc] at h
      obtain ⟨c, c1, c2, c3, -, -⟩ := carry_sound hs hw hc
      have := doAdd_sound hs hw hn c2 c3 h
      unfold exec
      dsimp only
      rw [c1]
      exact this
  | adc d a b =>
    unfold Sym.exec at h
    dsimp only at h
    cases hc : σ.core.cf with
    | none => rw [hc] at h; cases h
    | some p =>
      rw [hc] at h
      obtain ⟨c, c1, c2, c3, -, -⟩ := carry_sound hs hw hc
      have := doAdd_sound hs hw hn c2 c3 h
      unfold exec
      dsimp only
      rw [c1]
      exact this
  | subs d a b => exact doSub_sound hs hw hn (c := false) rfl (Poly.Dep.nil _) h
  | sbcs d a b =>
    unfold Sym.exec at h
    dsimp only at h
    cases hc : σ.core.cf with
    | none => rw [hc] at h; cases h
    | some p =>
      rw [hc] at h
      obtain ⟨c, c1, -, -, c2, c3⟩ := carry_sound hs hw hc
      have := doSub_sound hs hw hn c2 c3 h
      unfold exec
      dsimp only
      rw [c1]
      exact this
  | sbc d a b =>
    unfold Sym.exec at h
    dsimp only at h
    cases hc : σ.core.cf with
    | none => rw [hc] at h; cases h
    | some p =>
      rw [hc] at h
      obtain ⟨c, c1, -, -, c2, c3⟩ := carry_sound hs hw hc
      have := doSub_sound hs hw hn c2 c3 h
      unfold exec
      dsimp only
      rw [c1]
      exact this
  | sub d a b => exact doSub_sound hs hw hn (f := false) (c := false) rfl (Poly.Dep.nil _) h
  | and d a b =>
    unfold Sym.exec at h
    dsimp only at h
    cases hp : σ.get a with
    | none => rw [hp] at h; cases h
    | some p =>
      cases hq : σ.get b with
      | none => rw [hp, hq] at h; cases h
      | some q =>
        rw [hp, hq] at h
        dsimp only at h
        cases hr : σ.conj p q with
        | none => rw [hr] at h; cases h
        | some r =>
          rw [hr] at h
          cases h
          obtain ⟨ex, dx⟩ := get_sound hs hw hp
          obtain ⟨ey, dy⟩ := get_sound hs hw hq
          obtain ⟨e, de⟩ := conj_sound hs ex ey dx dy hr
          exact StepOK.reg gr e de
  | orr d a b k =>
    unfold Sym.exec at h
    dsimp only at h
    cases hp : σ.get a with
    | none => rw [hp] at h; cases h
    | some p =>
      cases hq : σ.get b with
      | none => rw [hp, hq] at h; cases h
      | some q =>
        rw [hp, hq] at h
        dsimp only at h
        obtain ⟨hc, h⟩ := cond_some h
        rw [Bool.and_eq_true, Bool.and_eq_true, Nat.blt_eq, Nat.blt_eq] at hc
        obtain ⟨⟨k0, k1⟩, hm⟩ := hc
        obtain ⟨ex, dx⟩ := get_sound hs hw hp
        obtain ⟨ey, dy⟩ := get_sound hs hw hq
        cases hh : σ.high (Poly.scale (2 ^ (64 - k)) q) (2 ^ (64 - k) - 1) with
        | mk σ1 v =>
          rw [hh] at h
          cases h
          have hy := (s.get b).isLt
          have hpow : 2 ^ 64 = 2 ^ (64 - k) * 2 ^ k := by rw [← Nat.pow_add]; congr 1; omega
          have hpp : 0 < 2 ^ (64 - k) := Nat.pow_pos (by norm_num)
          have hdiv : 2 ^ (64 - k) * (s.get b).toNat / 2 ^ 64 = (s.get b).toNat / 2 ^ k := by
            rw [hpow, Nat.mul_div_mul_left _ _ hpp]
          have hlt : (s.get b).toNat / 2 ^ k < 2 ^ (64 - k) := by
            rw [Nat.div_lt_iff_lt_mul (by positivity), ← hpow]; exact hy
          obtain ⟨ρ', g, e1, e2, e3⟩ := high_sound hs hw (m := 2 ^ (64 - k) * (s.get b).toNat)
            (by rw [Poly.eval_scale, ← ey]; push_cast; rfl) (by rw [hdiv]; omega) (dy.scale _) hh
          obtain ⟨t1, t2⟩ := g.dep hs dx
          have hx : exec E s (.orr d a b k) = some (s.setReg d (s.get a ||| (s.get b >>> k))) := by
            unfold exec; dsimp only; rw [if_pos k1]
          rw [hx]
          refine StepOK.reg g ?_ (t2.add (Poly.Dep.var e2 (by omega)))
          show ((s.get a ||| (s.get b >>> k)).toNat : ℤ) = _
          rw [Poly.eval_add, t1, ← ex, Poly.eval_var g.holds.one (by omega), e1, hdiv, BitVec.toNat_or,
            BitVec.toNat_ushiftRight, Nat.shiftRight_eq_div_pow]
          have hdvd : (2 ^ (64 - k) : ℤ) ∣ ((s.get a).toNat : ℤ) := by
            rw [ex]; exact allMod_sound ρ _ _ hm
          have hdvd : 2 ^ (64 - k) ∣ (s.get a).toNat := by exact_mod_cast hdvd
          obtain ⟨z, hz⟩ := hdvd
          rw [hz, ← Nat.two_pow_add_eq_or_of_lt hlt]
          push_cast; rfl
  | lsl d a k =>
    unfold Sym.exec at h
    dsimp only at h
    cases hp : σ.get a with
    | none => rw [hp] at h; cases h
    | some p =>
      rw [hp] at h
      dsimp only at h
      obtain ⟨hc, h⟩ := cond_some h
      have hk := Nat.blt_eq.mp hc
      obtain ⟨ex, dx⟩ := get_sound hs hw hp
      cases hh : σ.high (Poly.scale (2 ^ k) p) (2 ^ k - 1) with
      | mk σ1 v =>
        rw [hh] at h
        cases h
        have hx := (s.get a).isLt
        have hpp : 0 < 2 ^ k := Nat.pow_pos (by norm_num)
        have er : Poly.eval ρ (Poly.scale (2 ^ k) p) = (2 ^ k * (s.get a).toNat : ℕ) := by
          rw [Poly.eval_scale, ← ex]; push_cast; rfl
        have hlt : 2 ^ k * (s.get a).toNat / 2 ^ 64 < 2 ^ k := by
          rw [Nat.div_lt_iff_lt_mul (by norm_num)]
          exact Nat.mul_lt_mul_of_pos_left hx hpp
        obtain ⟨ρ', g, e1, e2, e3⟩ := high_sound hs hw er (by omega) (dx.scale _) hh
        obtain ⟨t1, t2⟩ := g.dep hs (dx.scale (2 ^ k))
        have hx : exec E s (.lsl d a k) = some (s.setReg d (s.get a <<< k)) := by
          unfold exec; dsimp only; rw [if_pos hk]
        rw [hx]
        refine StepOK.reg g ?_ (t2.sub ((Poly.Dep.var e2 (by omega)).scale _))
        show ((s.get a <<< k).toNat : ℤ) = _
        rw [Poly.eval_sub, t1, er, Poly.eval_scale, Poly.eval_var g.holds.one (by omega), e1, BitVec.toNat_shiftLeft,
          Nat.shiftLeft_eq, Nat.mul_comm (s.get a).toNat]
        have := Nat.div_add_mod (2 ^ k * (s.get a).toNat) (2 ^ 64)
        omega
  | mul d a b =>
    unfold Sym.exec at h
    dsimp only at h
    cases hp : σ.get a with
    | none => rw [hp] at h; cases h
    | some p =>
      cases hq : σ.get b with
      | none => rw [hp, hq] at h; cases h
      | some q =>
        rw [hp, hq] at h
        dsimp only at h
        cases hr : Poly.mul p q with
        | none => rw [hr] at h; cases h
        | some r =>
          rw [hr] at h
          dsimp only at h
          cases hh : σ.high r (2 ^ 64 - 2) with
          | mk σ1 v =>
            rw [hh] at h
            cases h
            obtain ⟨ρ', g, e1, e2, e3, e4, e5⟩ := mulHigh_sound hs hw hn hp hq hr hh
            refine StepOK.reg g (w := BitVec.ofNat 64 ((s.get a).toNat * (s.get b).toNat)) ?_
              (e5.sub ((Poly.Dep.var e2 e3).scale _))
            show ((BitVec.ofNat 64 ((s.get a).toNat * (s.get b).toNat)).toNat : ℤ) = _
            rw [Poly.eval_sub, Poly.eval_scale, Poly.eval_var g.holds.one e3, e1, e4, BitVec.toNat_ofNat]
            generalize (s.get a).toNat * (s.get b).toNat = m
            omega
  | umulh d a b =>
    unfold Sym.exec at h
    dsimp only at h
    cases hp : σ.get a with
    | none => rw [hp] at h; cases h
    | some p =>
      cases hq : σ.get b with
      | none => rw [hp, hq] at h; cases h
      | some q =>
        rw [hp, hq] at h
        dsimp only at h
        cases hr : Poly.mul p q with
        | none => rw [hr] at h; cases h
        | some r =>
          rw [hr] at h
          dsimp only at h
          cases hh : σ.high r (2 ^ 64 - 2) with
          | mk σ1 v =>
            rw [hh] at h
            cases h
            obtain ⟨ρ', g, e1, e2, e3, e4, e5⟩ := mulHigh_sound hs hw hn hp hq hr hh
            refine StepOK.reg g (w := BitVec.ofNat 64 ((s.get a).toNat * (s.get b).toNat / 2 ^ 64)) ?_ (Poly.Dep.var e2 e3)
            show ((BitVec.ofNat 64 ((s.get a).toNat * (s.get b).toNat / 2 ^ 64)).toNat : ℤ) = _
            rw [Poly.eval_var g.holds.one e3, e1, BitVec.toNat_ofNat]
            have hx := (s.get a).isLt
            have hy := (s.get b).isLt
            have hlt : (s.get a).toNat * (s.get b).toNat / 2 ^ 64 < 2 ^ 64 := by
              rw [Nat.div_lt_iff_lt_mul (by norm_num)]
              exact Nat.mul_lt_mul'' hx hy
            rw [Nat.mod_eq_of_lt hlt]
  | ret => cases h

theorem run_cons {i : Instr} {is : List Instr} {s' : St} (h : exec E s i = some s') :
    run E (i :: is) s = run E is s' := by
  have hi : i = .ret → False := by rintro rfl; cases h
  rw [run, h]
  · rfl
  · exact hi

/-- What the checker finds is true of the execution of the program -/
theorem symRun_sound (h16 : (β 0).toNat % 16 = 0) (hT : TabOK tabs E) (hL : LayOK L E β) :
    ∀ (is : List Item) (ρ : ℕ → ℕ) (s : St) (σ σ' : Sym), Holds ρ β s σ → WF L σ → symRun tabs L is σ = some σ' →
      ∃ ρ' s', run E (strip is) s = some (s', s'.reg .x30) ∧ Holds ρ' β s' σ' ∧ (∀ i < σ.core.next, ρ' i = ρ i) ∧
        Frame L β s s'
  | [], ρ, s, σ, σ', _, _, h => by cases h
  | .hint i :: is, ρ, s, σ, σ', hs, hw, h => by
    have h' : (match bif Nat.blt σ.core.next 65000 then σ.hint L i else none with
        | some σ' => symRun tabs L is σ'
        | none => none) = some σ' := h
    cases hst : (bif Nat.blt σ.core.next 65000 then σ.hint L i else none) with
    | none => rw [hst] at h'; cases h'
    | some σ1 =>
      rw [hst] at h'
      dsimp only at h'
      obtain ⟨hb, hst⟩ := cond_some hst
      obtain ⟨ρ1, g⟩ := hint_sound h16 hL hs hw (Nat.blt_eq.mp hb) hst
      obtain ⟨ρ2, s2, e2, a2, c2, f2⟩ := symRun_sound h16 hT hL is ρ1 s σ1 σ' g.holds g.wf h'
      exact ⟨ρ2, s2, e2, a2, fun i hi => (c2 i (by have := g.le; omega)).trans (g.same i hi), f2⟩
  | .ins i :: is, ρ, s, σ, σ', hs, hw, h => by
    by_cases hi : i = .ret
    · subst hi
      have h : some σ = some σ' := h
      cases h
      exact ⟨ρ, s, rfl, hs, fun _ _ => rfl, Frame.refl⟩
    · have h' : (match bif Nat.blt σ.core.next 65000 then σ.exec tabs L i else none with
          | some σ' => symRun tabs L is σ'
          | none => none) = some σ' := by
        unfold symRun at h
        split at h
        · rename_i heq; cases heq
        · rename_i heq
          cases heq
          exact absurd rfl hi
        · rename_i heq
          cases heq
          exact h
        · rename_i heq; cases heq
      cases hst : (bif Nat.blt σ.core.next 65000 then σ.exec tabs L i else none) with
      | none => rw [hst] at h'; cases h'
      | some σ1 =>
        rw [hst] at h'
        dsimp only at h'
        obtain ⟨hb, hst⟩ := cond_some hst
        obtain ⟨ρ1, s1, e1, a1, b1, c1, d1, f1⟩ := exec_sound h16 hT hL hs hw (Nat.blt_eq.mp hb) hst
        obtain ⟨ρ2, s2, e2, a2, c2, f2⟩ := symRun_sound h16 hT hL is ρ1 s1 σ1 σ' a1 b1 h'
        exact ⟨ρ2, s2, (run_cons e1).trans e2, a2, fun i hi => (c2 i (by omega)).trans (c1 i hi), f1.trans f2⟩

theorem strip_append : ∀ (hs : List Hint) (is : List Item), strip (hs.map .hint ++ is) = strip is
  | [], _ => rfl
  | _ :: hs, is => strip_append hs is

theorem strip_weave : ∀ (is : List Instr) (k : ℕ) (hs : List (ℕ × List Hint)), strip (weave k is hs) = is
  | [], k, hs => by cases hs <;> rfl
  | i :: is, k, [] => by
    have : weave k (i :: is) [] = .ins i :: weave (k + 1) is [] := rfl
    rw [this, strip, strip_weave is]
  | i :: is, k, (j, h) :: hs => by
    unfold weave
    cases (k == j)
    · rw [cond_false, strip, strip_weave is]
    · rw [cond_true, strip_append, strip, strip_weave is]

end Secuer.Arm
