import Verif.X64.Sound
import Verif.X64.Check

/-!
# Soundness of the checker: steps and runs
-/

namespace Secuer.X64

variable {tabs : Tab → List ℕ} {L : Lay} {E : Env} {β : ℕ → Digit} {ρ : ℕ → ℕ} {s : St} {σ : Sym}

theorem bit_false_nil (ρ : ℕ → ℕ) : (bit false : ℤ) = Poly.eval ρ [] := rfl

theorem StepOK.flags {r : Option St} {σ' : Sym} {p q : Option Poly} {f g : St → Option Bool}
    (h : ∃ ρ' s', r = some s' ∧ Holds L ρ' β s' σ' ∧ WF L σ' ∧ (∀ i < σ.next, ρ' i = ρ i) ∧ σ.next ≤ σ'.next ∧
      Frame L β s s' ∧ FlagHolds ρ' (f s') p ∧ FlagHolds ρ' (g s') q ∧ FlagDep σ'.next p ∧ FlagDep σ'.next q) :
    StepOK L β ρ s σ (r.bind fun s' => some { s' with cf := f s', of := g s' }) { σ' with cf := p, of := q } := by
  obtain ⟨ρ', s', h1, h2, h3, h4, h5, h6, h7, h8, h9, h10⟩ := h
  obtain ⟨a, b⟩ := flags_sound h2 h3 h7 h8 h9 h10
  exact ⟨ρ', { s' with cf := f s', of := g s' }, by rw [h1]; rfl, a, b, h4, h5, h6⟩

theorem execAdd_eq {d o : Opd} {c : Bool} {x y : Digit} (hx : get E s d = some x) (hy : get E s o = some y) :
    execAdd E s d o c = (put E s (sumOf x y c) d).bind fun s' =>
      some { s' with cf := some (carryOf x y c), of := some (overOf x y c) } := by
  unfold execAdd
  rw [hx, hy]; rfl

theorem execSub_eq {d o : Opd} {c : Bool} {x y : Digit} (hx : get E s d = some x) (hy : get E s o = some y) :
    execSub E s d o c = (put E s (diffOf x y c) d).bind fun s' =>
      some { s' with cf := some (borrowOf x y c), of := some (underOf x y c) } := by
  unfold execSub
  rw [hx, hy]; rfl

theorem execBits_eq {f : Digit → Digit → Digit} {d o : Opd} {x y : Digit} (hx : get E s d = some x)
    (hy : get E s o = some y) :
    execBits E f s d o = (put E s (f x y) d).bind fun s' => some { s' with cf := some false, of := some false } := by
  unfold execBits
  rw [hx, hy]; rfl

theorem execAdd_sound (hT : TabOK tabs E) (hL : LayOK L E β) (hs : Holds L ρ β s σ) (hw : WF L σ) (hn : σ.next < 65000)
    {d o : Opd} {pc v : Poly} {σ' : Sym} {c : Bool} (hc : (bit c : ℤ) = Poly.eval ρ pc) (hd : Poly.Dep σ.next pc)
    (h : σ.addc tabs L d o pc = some (σ', v)) :
    StepOK L β ρ s σ (execAdd E s d o c) { σ' with cf := some v, of := none } := by
  obtain ⟨ρ', x, y, s', gx, gy, hp, h1, h2, h3, h4, h5, h6, h7⟩ := addc_sound hT hL hs hw hn hc hd h
  rw [execAdd_eq gx gy]
  exact StepOK.flags (f := fun _ => some (carryOf x y c)) (g := fun _ => some (overOf x y c))
    ⟨ρ', s', hp, h1, h2, h3, h4, h5, ⟨_, rfl, h6⟩, trivial, h7, trivial⟩

theorem execSub_sound (hT : TabOK tabs E) (hL : LayOK L E β) (hs : Holds L ρ β s σ) (hw : WF L σ) (hn : σ.next < 65000)
    {d o : Opd} {pc v : Poly} {σ' : Sym} {c : Bool} (hc : (bit c : ℤ) = Poly.eval ρ pc) (hd : Poly.Dep σ.next pc)
    (h : σ.subcMask tabs L d o pc = some (σ', v)) :
    StepOK L β ρ s σ (execSub E s d o c) { σ' with cf := some v, of := none } := by
  obtain ⟨ρ', x, y, s', gx, gy, hp, h1, h2, h3, h4, h5, h6, h7⟩ := subcMask_sound hT hL hs hw hn hc hd h
  rw [execSub_eq gx gy]
  exact StepOK.flags (f := fun _ => some (borrowOf x y c)) (g := fun _ => some (underOf x y c))
    ⟨ρ', s', hp, h1, h2, h3, h4, h5, ⟨_, rfl, h6⟩, trivial, h7, trivial⟩

/-- Adding an immediate to a pointer -/
theorem addPtr_sound (hT : TabOK tabs E) (hL : LayOK L E β) (hs : Holds L ρ β s σ) (hw : WF L σ)
    {d : Opd} {b x : ℕ} {v : Digit} {σ' : Sym} (hg : σ.get tabs L d = some (.ptr b x))
    (h : σ.put L (.ptr b (x + v.toNat)) d = some σ') :
    StepOK L β ρ s σ (execAdd E s d (.imm v) false) { σ' with cf := none, of := none } := by
  obtain ⟨w, gw, ew, -⟩ := get_sound hT hL hs hw hg
  have ew : w = β b + BitVec.ofNat 64 x := ew
  have hv : (SVal.ptr b (x + v.toNat)).Holds ρ β (sumOf w v false) := by
    show sumOf w v false = β b + BitVec.ofNat 64 (x + v.toNat)
    unfold sumOf
    have e : BitVec.ofNat 64 (bit false) = 0#64 := rfl
    rw [e, BitVec.add_zero, ew, ofNat_add, BitVec.add_assoc, BitVec.ofNat_toNat, BitVec.setWidth_eq]
  obtain ⟨s', h1, h2, h3, h4, h5⟩ := put_sound hL hs hw h hv trivial
  rw [execAdd_eq gw (show get E s (.imm v) = some v from rfl)]
  exact StepOK.flags (f := fun _ => some (carryOf w v false)) (g := fun _ => some (overOf w v false))
    ⟨ρ, s', h1, h2, h3, fun _ _ => rfl, by rw [h4], h5, trivial, trivial, trivial, trivial⟩

/-- Subtracting an immediate from a pointer -/
theorem subPtr_sound (hT : TabOK tabs E) (hL : LayOK L E β) (hs : Holds L ρ β s σ) (hw : WF L σ)
    {d : Opd} {b x : ℕ} {v : Digit} {σ' : Sym} (hg : σ.get tabs L d = some (.ptr b x)) (hle : v.toNat ≤ x)
    (h : σ.put L (.ptr b (x - v.toNat)) d = some σ') :
    StepOK L β ρ s σ (execSub E s d (.imm v) false) { σ' with cf := none, of := none } := by
  obtain ⟨w, gw, ew, -⟩ := get_sound hT hL hs hw hg
  have ew : w = β b + BitVec.ofNat 64 x := ew
  have hv : (SVal.ptr b (x - v.toNat)).Holds ρ β (diffOf w v false) := by
    show diffOf w v false = β b + BitVec.ofNat 64 (x - v.toNat)
    unfold diffOf
    have e : BitVec.ofNat 64 (bit false) = 0#64 := rfl
    have e2 : x = (x - v.toNat) + v.toNat := by omega
    rw [e, BitVec.sub_zero, ew]
    conv_lhs => rw [e2]
    rw [ofNat_add, BitVec.ofNat_toNat, BitVec.setWidth_eq, ← BitVec.add_assoc, BitVec.add_sub_cancel]
  obtain ⟨s', h1, h2, h3, h4, h5⟩ := put_sound hL hs hw h hv trivial
  rw [execSub_eq gw (show get E s (.imm v) = some v from rfl)]
  exact StepOK.flags (f := fun _ => some (borrowOf w v false)) (g := fun _ => some (underOf w v false))
    ⟨ρ, s', h1, h2, h3, fun _ _ => rfl, by rw [h4], h5, trivial, trivial, trivial, trivial⟩

theorem maskVar_sound (hb : Poly.Bnd ρ σ.next σ.ubs) (h0 : ρ 0 = 1) {m : Poly} {k : ℕ}
    (h : maskVar σ.next σ.ubs m = some k) :
    Poly.eval ρ m = (2 ^ 64 - 1) * ρ k ∧ ρ k ≤ 1 ∧ k < 65536 ∧ k < σ.next := by
  unfold maskVar at h
  split at h
  · rename_i k' c
    cases hc : (c == 2 ^ 64 - 1 && Nat.blt k' 65536)
    · rw [hc, cond_false] at h; cases h
    · rw [hc, cond_true] at h
      rw [Bool.and_eq_true, beq_iff_eq, Nat.blt_eq] at hc
      cases hu : Poly.ubVar σ.next σ.ubs k' with
      | none => rw [hu] at h; cases h
      | some u =>
        rw [hu] at h
        dsimp only at h
        cases hl : Nat.ble u 1
        · rw [hl, cond_false] at h; cases h
        · rw [hl, cond_true] at h
          cases h
          refine ⟨?_, (hb _ _ hu).trans (Nat.le_of_ble_eq_true hl), hc.2, Poly.ubVar_lt hu⟩
          rw [Poly.eval_cons, Poly.eval_nil, Poly.evalKey_lt h0 hc.2, hc.1, add_zero]
  · cases h

theorem and_mask (x m : Digit) (b : ℕ) (hb : b ≤ 1) (hm : (m.toNat : ℤ) = (2 ^ 64 - 1) * b) :
    ((x &&& m).toNat : ℤ) = x.toNat * b := by
  have : b = 0 ∨ b = 1 := by omega
  rcases this with rfl | rfl
  · have : m = 0#64 := toNat_zero (by rw [hm]; simp)
    subst this; simp
  · have : m = BitVec.allOnes 64 := by
      apply BitVec.eq_of_toNat_eq
      rw [BitVec.toNat_allOnes]
      push_cast at hm
      omega
    subst this; rw [BitVec.and_allOnes]; simp

theorem and_sound (hT : TabOK tabs E) (hL : LayOK L E β) (hs : Holds L ρ β s σ) (hw : WF L σ)
    {d o : Opd} {p m r : Poly} {k : ℕ} {σ' : Sym} (hp : σ.getP tabs L d = some p) (hm : σ.getP tabs L o = some m)
    (hk : maskVar σ.next σ.ubs m = some k) (hr : Poly.mul p (Poly.var k) = some r) (h : σ.put L (.poly r) d = some σ') :
    StepOK L β ρ s σ (execBits E (· &&& ·) s d o) { σ' with cf := some [], of := some [] } := by
  obtain ⟨x, gx, ex, dx⟩ := getP_sound hT hL hs hw hp
  obtain ⟨y, gy, ey, dy⟩ := getP_sound hT hL hs hw hm
  obtain ⟨k1, k2, k3, k4⟩ := maskVar_sound hs.bnd hs.one hk
  have hv : (SVal.poly r).Holds ρ β (x &&& y) := by
    show ((x &&& y).toNat : ℤ) = _
    rw [Poly.eval_mul hs.one _ _ _ hr, Poly.eval_var hs.one k3, ← ex]
    exact and_mask x y (ρ k) k2 (ey.trans k1)
  obtain ⟨s', h1, h2, h3, h4, h5⟩ := put_sound hL hs hw h hv (dx.mul (Poly.Dep.var k4 k3) hr)
  rw [execBits_eq gx gy]
  exact StepOK.flags (f := fun _ => some false) (g := fun _ => some false)
    ⟨ρ, s', h1, h2, h3, fun _ _ => rfl, by rw [h4], h5, ⟨_, rfl, rfl⟩, ⟨_, rfl, rfl⟩, Poly.Dep.nil _, Poly.Dep.nil _⟩

theorem mulx_sound (hT : TabOK tabs E) (hL : LayOK L E β) (hs : Holds L ρ β s σ) (hw : WF L σ) (hn : σ.next < 65000)
    {hi lo : Reg} {o : Opd} {p q r : Poly} (hp : σ.reg .rdx = .poly p) (hq : σ.getP tabs L o = some q)
    (hr : Poly.mul p q = some r) :
    StepOK L β ρ s σ (exec E s (.mulx hi lo o))
      (((σ.fresh (2 ^ 64 - 1)).setReg lo (.poly (Poly.sub r (Poly.scale (2 ^ 64) (Poly.var σ.next))))).setReg hi
        (.poly (Poly.var σ.next))) := by
  obtain ⟨y, gy, ey, dy⟩ := getP_sound hT hL hs hw hq
  have ex := hs.regs .rdx
  have dx := hw.regs .rdx
  rw [hp] at ex dx
  have ex : ((s.reg .rdx).toNat : ℤ) = Poly.eval ρ p := ex
  have dx : Poly.Dep σ.next p := dx
  have hx := (s.reg .rdx).isLt
  have hy := y.isLt
  set m := (s.reg .rdx).toNat * y.toNat with hm
  have hlt : m / 2 ^ 64 < 2 ^ 64 := by
    rw [Nat.div_lt_iff_lt_mul (by norm_num), hm]
    exact Nat.mul_lt_mul'' hx hy
  obtain ⟨hs1, hw1⟩ := fresh_sound hs hw (x := m / 2 ^ 64) (u := 2 ^ 64 - 1) (by omega)
  set ρ' : ℕ → ℕ := fun i => if i = σ.next then m / 2 ^ 64 else ρ i with hρ'
  have hrr : ∀ i < σ.next, ρ' i = ρ i := by
    intro i hi; rw [hρ']; dsimp only; rw [if_neg (by omega)]
  have ev : Poly.eval ρ' (Poly.var σ.next) = (m / 2 ^ 64 : ℕ) := by
    rw [Poly.eval_var hs1.one (by omega), hρ']; dsimp only; rw [if_pos (Eq.refl _)]
  have hmm : σ.next ≤ (σ.fresh (2 ^ 64 - 1)).next := Nat.le_succ _
  have dv : Poly.Dep (σ.fresh (2 ^ 64 - 1)).next (Poly.var σ.next) := Poly.Dep.var (Nat.lt_succ_self _) (by omega)
  have dr : Poly.Dep σ.next r := dx.mul dy hr
  have h1 : (SVal.poly (Poly.sub r (Poly.scale (2 ^ 64) (Poly.var σ.next)))).Holds ρ' β (BitVec.ofNat 64 m) := by
    show ((BitVec.ofNat 64 m).toNat : ℤ) = _
    rw [Poly.eval_sub, Poly.eval_scale, ev, dr ρ' ρ hs1.one hs.one hrr, Poly.eval_mul hs.one _ _ _ hr, ← ex, ← ey,
      BitVec.toNat_ofNat]
    have := Nat.div_add_mod m (2 ^ 64)
    have e : ((s.reg .rdx).toNat : ℤ) * (y.toNat : ℤ) = (m : ℤ) := by rw [hm]; push_cast; ring
    rw [e]; omega
  have h2 : (SVal.poly (Poly.var σ.next)).Holds ρ' β (BitVec.ofNat 64 (m / 2 ^ 64)) := by
    show ((BitVec.ofNat 64 (m / 2 ^ 64)).toNat : ℤ) = _
    rw [ev, BitVec.toNat_ofNat, Nat.mod_eq_of_lt hlt]
  obtain ⟨a, b⟩ := setReg_sound hs1 hw1 (r := lo) h1 ((dr.mono hmm).sub (dv.scale _))
  obtain ⟨a2, b2⟩ := setReg_sound a b (r := hi) h2 dv
  refine ⟨ρ', _, ?_, a2, b2, hrr, hmm, fun _ _ => rfl⟩
  unfold exec
  dsimp only
  rw [gy]; rfl

theorem push_sound (hL : LayOK L E β) (hs : Holds L ρ β s σ) (hw : WF L σ) {r : Reg} {b o : ℕ}
    (hp : σ.reg .rsp = .ptr b o) (h8 : 8 ≤ o) {σ' : Sym}
    (h : (σ.setReg .rsp (.ptr b (o - 8))).store L b (o - 8) (σ.reg r) = some σ') :
    StepOK L β ρ s σ (exec E s (.push r)) σ' := by
  have ep := hs.regs .rsp
  rw [hp] at ep
  have ep : s.reg .rsp = β b + BitVec.ofNat 64 o := ep
  have e8 : s.reg .rsp - 8 = β b + BitVec.ofNat 64 (o - 8) := by
    have e2 : o = (o - 8) + 8 := by omega
    rw [ep]
    conv_lhs => rw [e2]
    rw [ofNat_add, ← BitVec.add_assoc]
    exact BitVec.add_sub_cancel _ _
  obtain ⟨a, c⟩ := setReg_sound hs hw (r := .rsp) (v := .ptr b (o - 8)) (w := s.reg .rsp - 8) e8 trivial
  obtain ⟨s', h1, h2, h3, h4, h5⟩ := store_sound hL a c h (hs.regs r) (hw.regs r)
  refine ⟨ρ, s', ?_, h2, h3, fun _ _ => rfl, by rw [h4]; exact le_refl _, fun x hx => h5 x hx⟩
  unfold exec
  dsimp only
  have e : (s.setReg .rsp (s.reg .rsp - 8)).reg .rsp = s.reg .rsp - 8 := by
    unfold St.setReg; dsimp only; rw [if_pos rfl]
  rw [e, e8]
  rw [e8] at h1
  exact h1

theorem pop_sound (hL : LayOK L E β) (hs : Holds L ρ β s σ) (hw : WF L σ) {r : Reg} {b o : ℕ} {v : SVal}
    (hp : σ.reg .rsp = .ptr b o) (h : σ.load L b o = some v) :
    StepOK L β ρ s σ (exec E s (.pop r)) ((σ.setReg .rsp (.ptr b (o + 8))).setReg r v) := by
  have ep := hs.regs .rsp
  rw [hp] at ep
  have ep : s.reg .rsp = β b + BitVec.ofNat 64 o := ep
  have e8 : s.reg .rsp + 8 = β b + BitVec.ofNat 64 (o + 8) := by
    rw [ep, ofNat_add, ← BitVec.add_assoc]; rfl
  obtain ⟨h1, h2, h3, -⟩ := load_sound hL hs hw h
  obtain ⟨a, c⟩ := setReg_sound hs hw (r := .rsp) (v := .ptr b (o + 8)) (w := s.reg .rsp + 8) e8 trivial
  obtain ⟨a2, c2⟩ := setReg_sound a c (r := r) h2 h3
  refine ⟨ρ, _, ?_, a2, c2, fun _ _ => rfl, le_refl _, fun _ _ => rfl⟩
  unfold exec
  dsimp only
  rw [ep, h1, ← ep]; rfl

theorem setc_bit (x : Digit) (c : Bool) :
    ((x &&& ~~~ 0xFF#64) ||| BitVec.ofNat 64 (bit c)).getLsbD 0 = c := by
  cases c <;> simp [bit]

theorem horner_top (ρ : ℕ → ℕ) : ∀ (ls : List Poly) (r : Poly) (N : ℤ), Poly.eval ρ (Poly.horner ls) = N →
    Poly.eval ρ (Poly.horner (ls ++ [r])) = N + 2 ^ (64 * ls.length) * Poly.eval ρ r
  | [], r, N, h => by
    rw [← h, List.nil_append, Poly.eval_horner_cons]
    simp [Poly.horner]
  | p :: ls, r, N, h => by
    rw [List.cons_append, Poly.eval_horner_cons, horner_top ρ ls r _ rfl, ← h, Poly.eval_horner_cons, List.length_cons,
      Nat.mul_add, pow_add]
    ring

theorem small_sum {x y : Digit} {c : Bool} (h : x.toNat + y.toNat + bit c < 2 ^ 63) :
    (sumOf x y c).toNat = x.toNat + y.toNat + bit c ∧ carryOf x y c = false ∧ overOf x y c = false := by
  have hcar : carryOf x y c = false := by
    unfold carryOf; rw [decide_eq_false]; omega
  have hsum : (sumOf x y c).toNat = x.toNat + y.toNat + bit c := by
    have := sum_toNat x y c
    rw [hcar] at this
    have e : bit false = 0 := rfl
    rw [e] at this
    omega
  refine ⟨hsum, hcar, ?_⟩
  unfold overOf
  have hx : x.msb = false := by rw [BitVec.msb_eq_false_iff_two_mul_lt]; omega
  have hz : (sumOf x y c).msb = false := by rw [BitVec.msb_eq_false_iff_two_mul_lt, hsum]; omega
  rw [hx, hz]; simp

theorem top_sound (hT : TabOK tabs E) (hL : LayOK L E β) (hs : Holds L ρ β s σ) (hw : WF L σ)
    {d o : Opd} {lows : List Opd} {c p q : Poly} {ls : List Poly} {σ' : Sym} {u : ℤ} (hc : σ.cf = some c)
    (hls : σ.getPs tabs L lows = some ls) (hp : σ.getP tabs L d = some p) (hq : σ.getP tabs L o = some q)
    (hu : Poly.ub σ.next σ.ubs (Poly.horner (ls ++ [Poly.add (Poly.add p q) c])) = some u)
    (hlt : u < 2 ^ (64 * ls.length + 63)) (h : σ.put L (.poly (Poly.add (Poly.add p q) c)) d = some σ') :
    StepOK L β ρ s σ (exec E s (.adc d o)) { σ' with cf := some [], of := some [] } := by
  have fc := hs.cf
  have dc := hw.cf
  rw [hc] at fc dc
  obtain ⟨b, hb, eb⟩ := fc
  have dc : Poly.Dep σ.next c := dc
  obtain ⟨x, gx, ex, dx⟩ := getP_sound hT hL hs hw hp
  obtain ⟨y, gy, ey, dy⟩ := getP_sound hT hL hs hw hq
  obtain ⟨ws, -, ew, -, lw⟩ := getPs_sound hT hL hs hw lows ls hls
  have hsum : Poly.eval ρ (Poly.add (Poly.add p q) c) = (x.toNat + y.toNat + bit b : ℕ) := by
    rw [Poly.eval_add, Poly.eval_add, ← ex, ← ey, ← eb]; push_cast; ring
  have h1 := Poly.ub_sound hs.one hs.bnd _ _ hu
  rw [horner_top ρ ls _ _ ew, hsum] at h1
  have h2 : (2 : ℤ) ^ (64 * ls.length) * (x.toNat + y.toNat + bit b : ℕ) < 2 ^ (64 * ls.length) * 2 ^ 63 := by
    rw [← pow_add]
    have : (0 : ℤ) ≤ (numOf ws : ℤ) := Int.natCast_nonneg _
    linarith
  have h3 : x.toNat + y.toNat + bit b < 2 ^ 63 := by
    have := lt_of_mul_lt_mul_left h2 (by positivity)
    exact_mod_cast this
  obtain ⟨s1, s2, s3⟩ := small_sum h3
  have hv : (SVal.poly (Poly.add (Poly.add p q) c)).Holds ρ β (sumOf x y b) := by
    show ((sumOf x y b).toNat : ℤ) = _
    rw [hsum, s1]
  obtain ⟨s', k1, k2, k3, k4, k5⟩ := put_sound hL hs hw h hv ((dx.add dy).add dc)
  have e : exec E s (.adc d o) = execAdd E s d o b := by
    unfold exec; dsimp only; rw [hb]; rfl
  rw [e, execAdd_eq gx gy]
  exact StepOK.flags (f := fun _ => some (carryOf x y b)) (g := fun _ => some (overOf x y b))
    ⟨ρ, s', k1, k2, k3, fun _ _ => rfl, by rw [k4], k5, ⟨_, by rw [s2], rfl⟩, ⟨_, by rw [s3], rfl⟩, Poly.Dep.nil _,
      Poly.Dep.nil _⟩

theorem comb_sound {ρ : ℕ → ℕ} {σ : Sym} (he : ∀ p ∈ σ.eqs, Poly.eval ρ p = 0) :
    ∀ ws : List (ℕ × ℕ), Poly.eval ρ (σ.comb ws) = 0
  | [] => rfl
  | (i, e) :: ws => by
    rw [Sym.comb, Poly.eval_add, comb_sound he ws, Poly.eval_scale]
    have : Poly.eval ρ ((σ.eqs.reverse[i % 1000]?).getD []) = 0 := by
      cases h : σ.eqs.reverse[i % 1000]? with
      | none => rfl
      | some p => exact he p (List.mem_reverse.mp (List.mem_of_getElem? h))
    rw [this]; ring

/-- A hint: the machine state stays the same -/
theorem name_sound (hT : TabOK tabs E) (hL : LayOK L E β) (hs : Holds L ρ β s σ) (hw : WF L σ) (hn : σ.next < 65000)
    {e : Bool} {locs : List Opd} {use : List (ℕ × ℕ)} {σ' : Sym} (h : step tabs L σ (.name e locs use) = some σ') :
    StepOK L β ρ s σ (some s) σ' := by
  unfold step at h
  dsimp only at h
  cases hb : Nat.blt locs.length 500
  · rw [hb, cond_false] at h; cases h
  rw [hb, cond_true] at h
  have hlen : locs.length < 500 := Nat.blt_eq.mp hb
  cases hps : σ.getPs tabs L locs with
  | none => rw [hps] at h; cases h
  | some ps =>
    rw [hps] at h
    dsimp only at h
    obtain ⟨ws, g, ew, dw, lw⟩ := getPs_sound hT hL hs hw locs ps hps
    have lws : ws.length = locs.length := g.length_eq.symm
    have hnum := numOf_lt ws
    rw [lws] at hnum
    -- the rest is the same in both cases
    have key : ∀ (u : ℕ) (P : Poly) (σ1 : Sym) (ys : List Poly), numOf ws ≤ u → Poly.Dep σ.next P →
        Poly.eval ρ P = numOf ws → σ.renames L u locs = some σ1 → σ1.getPs tabs L locs = some ys →
        StepOK L β ρ s σ (some s) { σ1 with eqs := Poly.sub (Poly.horner ys) P :: σ1.eqs } := by
      intro u P σ1 ys hu hd he hren hys
      obtain ⟨ρ1, a, b, c, d⟩ := renames_sound hL locs ws σ σ1 ρ u hs hw g hu (by omega) hren
      obtain ⟨ws', g', ew', dw', -⟩ := getPs_sound hT hL a b locs ys hys
      have := forall₂_unique g g'
      subst this
      refine ⟨ρ1, s, rfl, ⟨a.one, a.regs, a.cf, a.of, a.mem, a.bnd, ?_⟩,
        ⟨b.pos, b.len, b.regs, b.cf, b.of, b.mem, b.rng, ?_⟩, c, d, Frame.rfl⟩
      · intro p hp
        rcases List.mem_cons.mp hp with hp | hp
        · subst hp
          rw [Poly.eval_sub, ew', hd ρ1 ρ a.one hs.one c, he]; ring
        · exact a.eqs p hp
      · intro p hp
        rcases List.mem_cons.mp hp with hp | hp
        · subst hp
          exact (Poly.Dep.horner dw').sub (hd.mono d)
        · exact b.eqs p hp
    cases e with
    | false =>
      rw [cond_false] at h
      cases hren : σ.renames L (2 ^ (64 * locs.length) - 1) locs with
      | none => rw [hren] at h; cases h
      | some σ1 =>
        rw [hren] at h
        dsimp only at h
        cases hys : σ1.getPs tabs L locs with
        | none => rw [hys] at h; cases h
        | some ys =>
          rw [hys] at h
          cases h
          exact key _ _ σ1 ys (by omega) (Poly.Dep.horner dw) ew hren hys
    | true =>
      rw [cond_true] at h
      cases hu : Poly.ub σ.next σ.ubs (Poly.dropMod (2 ^ (64 * locs.length)) (Poly.add (Poly.horner ps) (σ.comb use))) with
      | none => rw [hu] at h; cases h
      | some u =>
        cases hl : Poly.lb σ.next σ.ubs (Poly.dropMod (2 ^ (64 * locs.length)) (Poly.add (Poly.horner ps) (σ.comb use))) with
        | none => rw [hu, hl] at h; cases h
        | some l =>
          rw [hu, hl] at h
          dsimp only at h
          cases hc : (decide (0 ≤ l) && decide (u < 2 ^ (64 * locs.length)))
          · rw [hc, cond_false] at h; cases h
          · rw [hc, cond_true] at h
            rw [Bool.and_eq_true, decide_eq_true_eq, decide_eq_true_eq] at hc
            cases hren : σ.renames L u.toNat locs with
            | none => rw [hren] at h; cases h
            | some σ1 =>
              rw [hren] at h
              dsimp only at h
              cases hys : σ1.getPs tabs L locs with
              | none => rw [hys] at h; cases h
              | some ys =>
                rw [hys] at h
                cases h
                have b1 := Poly.ub_sound hs.one hs.bnd _ _ hu
                have b2 := Poly.lb_sound hs.one hs.bnd _ _ hl
                obtain ⟨k, hk⟩ := Poly.eval_dropMod ρ (2 ^ (64 * locs.length)) (Poly.add (Poly.horner ps) (σ.comb use))
                rw [Poly.eval_add, comb_sound hs.eqs, add_zero, ew] at hk
                have hnum' : (numOf ws : ℤ) < 2 ^ (64 * locs.length) := by exact_mod_cast hnum
                have hpos : (0 : ℤ) < 2 ^ (64 * locs.length) := by positivity
                have hnn : (0 : ℤ) ≤ (numOf ws : ℤ) := Int.natCast_nonneg _
                have hk0 : k = 0 := by
                  have h1 : (2 : ℤ) ^ (64 * locs.length) * k < 2 ^ (64 * locs.length) * 1 := by linarith [hc.1]
                  have h2 : (2 : ℤ) ^ (64 * locs.length) * (-1) < 2 ^ (64 * locs.length) * k := by linarith [hc.2]
                  have h3 := lt_of_mul_lt_mul_left h1 hpos.le
                  have h4 := lt_of_mul_lt_mul_left h2 hpos.le
                  omega
                rw [hk0, mul_zero, add_zero] at hk
                refine key _ _ σ1 ys ?_ (Poly.dep_of_bounds _ _ _ hu hl) hk.symm hren hys
                rw [← hk] at b1
                omega

/-- An equation times a number -/
theorem times_sound (hs : Holds L ρ β s σ) (hw : WF L σ) (hn : σ.next < 65000) {i : ℕ} {vs : List ℕ} {σ' : Sym}
    (h : step tabs L σ (.times i vs) = some σ') : StepOK L β ρ s σ (some s) σ' := by
  unfold step at h
  dsimp only at h
  cases hb : vs.all fun v => Nat.blt v σ.next
  · rw [hb, cond_false] at h; cases h
  rw [hb, cond_true] at h
  rw [List.all_eq_true] at hb
  have hv : ∀ v ∈ vs, v < σ.next := fun v hv => Nat.blt_eq.mp (hb v hv)
  cases hm : Poly.mul ((σ.eqs.reverse[i]?).getD []) (nums vs) with
  | none => rw [hm] at h; cases h
  | some r =>
    rw [hm] at h
    cases h
    have h0 : Poly.eval ρ ((σ.eqs.reverse[i]?).getD []) = 0 ∧ Poly.Dep σ.next ((σ.eqs.reverse[i]?).getD []) := by
      cases h : σ.eqs.reverse[i]? with
      | none => exact ⟨rfl, Poly.Dep.nil _⟩
      | some p =>
        have := List.mem_reverse.mp (List.mem_of_getElem? h)
        exact ⟨hs.eqs p this, hw.eqs p this⟩
    refine ⟨ρ, s, rfl, ⟨hs.one, hs.regs, hs.cf, hs.of, hs.mem, hs.bnd, ?_⟩,
      ⟨hw.pos, hw.len, hw.regs, hw.cf, hw.of, hw.mem, hw.rng, ?_⟩, fun _ _ => rfl, le_refl _, Frame.rfl⟩
    · intro p hp
      rcases List.mem_cons.mp hp with hp | hp
      · subst hp
        rw [Poly.eval_mul hs.one _ _ _ hm, h0.1, zero_mul]
      · exact hs.eqs p hp
    · intro p hp
      rcases List.mem_cons.mp hp with hp | hp
      · subst hp
        refine h0.2.mul (Poly.Dep.horner ?_) hm
        intro q hq
        obtain ⟨v, m, rfl⟩ := List.mem_map.mp hq
        have := hv v m
        exact Poly.Dep.var this (by omega)
      · exact hw.eqs p hp

/-- The instruction of an item, if it has one -/
def Item.exec (E : Env) (s : St) : Item → Option St
  | .ins i => X64.exec E s i
  | .top _ i => X64.exec E s i
  | .name _ _ _ => some s
  | .times _ _ => some s

theorem cond_some {α : Type} {b : Bool} {x : Option α} {y : α} (h : (bif b then x else none) = some y) :
    b = true ∧ x = some y := by
  cases b with
  | false => cases h
  | true => exact ⟨rfl, h⟩

theorem ins_sound (hT : TabOK tabs E) (hL : LayOK L E β) (hs : Holds L ρ β s σ) (hw : WF L σ) (hn : σ.next < 65000)
    {i : Instr} {σ' : Sym} (h : step tabs L σ (.ins i) = some σ') : StepOK L β ρ s σ (exec E s i) σ' := by
  cases i with
  | mov d o =>
    unfold step at h
    dsimp only at h
    split at h
    · rename_i v hv
      obtain ⟨w, g, e, dd⟩ := get_sound hT hL hs hw hv
      obtain ⟨s', h1, h2, h3, h4, h5⟩ := put_sound hL hs hw h e dd
      refine ⟨ρ, s', ?_, h2, h3, fun _ _ => rfl, by rw [h4], h5⟩
      unfold exec
      dsimp only
      rw [g]; exact h1
    · cases h
  | add d o =>
    have hx : exec E s (.add d o) = execAdd E s d o false := rfl
    rw [hx]
    unfold step at h
    dsimp only at h
    split at h
    · rename_i b x v hg
      split at h
      · rename_i σ1 hput
        cases h
        exact addPtr_sound hT hL hs hw hg hput
      · cases h
    · split at h
      · rename_i σ1 v ha
        cases h
        exact execAdd_sound hT hL hs hw hn (bit_false_nil ρ) (Poly.Dep.nil _) ha
      · cases h
  | sub d o =>
    have hx : exec E s (.sub d o) = execSub E s d o false := rfl
    rw [hx]
    unfold step at h
    dsimp only at h
    split at h
    · rename_i b x v hg
      obtain ⟨hb, h⟩ := cond_some h
      split at h
      · rename_i σ1 hput
        cases h
        exact subPtr_sound hT hL hs hw hg (Nat.le_of_ble_eq_true hb) hput
      · cases h
    · split at h
      · rename_i σ1 v ha
        cases h
        exact execSub_sound hT hL hs hw hn (bit_false_nil ρ) (Poly.Dep.nil _) ha
      · cases h
  | adc d o =>
    unfold step at h
    dsimp only at h
    split at h
    · rename_i c hc
      have fc := hs.cf
      have dc := hw.cf
      rw [hc] at fc dc
      obtain ⟨b, hb, eb⟩ := fc
      split at h
      · rename_i σ1 v ha
        cases h
        have hx : exec E s (.adc d o) = execAdd E s d o b := by unfold exec; dsimp only; rw [hb]; rfl
        rw [hx]
        exact execAdd_sound hT hL hs hw hn eb dc ha
      · cases h
    · cases h
  | sbb d o =>
    unfold step at h
    dsimp only at h
    split at h
    · rename_i c hc
      have fc := hs.cf
      have dc := hw.cf
      rw [hc] at fc dc
      obtain ⟨b, hb, eb⟩ := fc
      split at h
      · rename_i σ1 v ha
        cases h
        have hx : exec E s (.sbb d o) = execSub E s d o b := by unfold exec; dsimp only; rw [hb]; rfl
        rw [hx]
        exact execSub_sound hT hL hs hw hn eb dc ha
      · cases h
    · cases h
  | adcx d o =>
    unfold step at h
    dsimp only at h
    split at h
    · rename_i c hc
      have fc := hs.cf
      have dc := hw.cf
      rw [hc] at fc dc
      obtain ⟨b, hb, eb⟩ := fc
      split at h
      · rename_i σ1 v ha
        cases h
        obtain ⟨ρ', x, y, s', gx, gy, hp, h1, h2, h3, h4, h5, h6, h7⟩ := addc_sound hT hL hs hw hn eb dc ha
        have hx : exec E s (.adcx d o) = (put E s (sumOf x y b) d).bind fun s' =>
            some { s' with cf := some (carryOf x y b), of := s'.of } := by
          unfold exec; dsimp only; rw [hb, gx, gy]; rfl
        rw [hx]
        exact StepOK.flags (f := fun _ => some (carryOf x y b)) (g := fun s => s.of)
          ⟨ρ', s', hp, h1, h2, h3, h4, h5, ⟨_, rfl, h6⟩, h1.of, h7, h2.of⟩
      · cases h
    · cases h
  | adox d o =>
    unfold step at h
    dsimp only at h
    split at h
    · rename_i c hc
      have fc := hs.of
      have dc := hw.of
      rw [hc] at fc dc
      obtain ⟨b, hb, eb⟩ := fc
      split at h
      · rename_i σ1 v ha
        cases h
        obtain ⟨ρ', x, y, s', gx, gy, hp, h1, h2, h3, h4, h5, h6, h7⟩ := addc_sound hT hL hs hw hn eb dc ha
        have hx : exec E s (.adox d o) = (put E s (sumOf x y b) d).bind fun s' =>
            some { s' with cf := s'.cf, of := some (carryOf x y b) } := by
          unfold exec; dsimp only; rw [hb, gx, gy]; rfl
        rw [hx]
        exact StepOK.flags (f := fun s => s.cf) (g := fun _ => some (carryOf x y b))
          ⟨ρ', s', hp, h1, h2, h3, h4, h5, h1.cf, ⟨_, rfl, h6⟩, h2.cf, h7⟩
      · cases h
    · cases h
  | and d o =>
    unfold step at h
    dsimp only at h
    split at h
    · rename_i p m hp hm
      split at h
      · rename_i k hk
        split at h
        · rename_i r hr
          split at h
          · rename_i σ1 hput
            cases h
            exact and_sound hT hL hs hw hp hm hk hr hput
          · cases h
        · cases h
      · cases h
    · cases h
  | xor d o =>
    cases d with
    | reg r =>
      cases o with
      | reg q =>
        unfold step at h
        dsimp only at h
        obtain ⟨hb, h⟩ := cond_some (b := r.idx == q.idx) h
        rw [beq_iff_eq] at hb
        have hh := Option.some.inj h
        have := Reg.idx_inj hb
        subst this
        subst hh
        have hx : exec E s (.xor (.reg r) (.reg r)) = (some (s.setReg r (s.reg r ^^^ s.reg r))).bind fun s' =>
            some { s' with cf := some false, of := some false } := rfl
        rw [hx]
        obtain ⟨a, b⟩ := setReg_sound hs hw (r := r) (v := .poly []) (w := s.reg r ^^^ s.reg r)
          (by show ((s.reg r ^^^ s.reg r).toNat : ℤ) = 0; simp) (Poly.Dep.nil _)
        exact StepOK.flags (f := fun _ => some false) (g := fun _ => some false)
          ⟨ρ, _, rfl, a, b, fun _ _ => rfl, le_refl _, fun _ _ => rfl, ⟨_, rfl, rfl⟩, ⟨_, rfl, rfl⟩, Poly.Dep.nil _,
            Poly.Dep.nil _⟩
      | _ => cases h
    | _ => cases h
  | mulx hi lo o =>
    unfold step at h
    dsimp only at h
    split at h
    · rename_i p q hp hq
      split at h
      · rename_i r hr
        cases h
        exact mulx_sound hT hL hs hw hn hp hq hr
      · cases h
    · cases h
  | push r =>
    unfold step at h
    dsimp only at h
    split at h
    · rename_i b o hp
      obtain ⟨hb, h⟩ := cond_some h
      exact push_sound hL hs hw hp (Nat.le_of_ble_eq_true hb) h
    · cases h
  | pop r =>
    unfold step at h
    dsimp only at h
    split at h
    · rename_i b o hp
      split at h
      · rename_i v hv
        cases h
        exact pop_sound hL hs hw hp hv
      · cases h
    · cases h
  | setc r =>
    unfold step at h
    dsimp only at h
    split at h
    · rename_i c hc
      cases h
      have fc := hs.cf
      have dc := hw.cf
      rw [hc] at fc dc
      obtain ⟨b, hb, eb⟩ := fc
      have hx : exec E s (.setc r) =
          some (s.setReg r ((s.reg r &&& ~~~ 0xFF#64) ||| BitVec.ofNat 64 (bit b))) := by
        unfold exec; dsimp only; rw [hb]; rfl
      rw [hx]
      obtain ⟨a, b'⟩ := setReg_sound hs hw (r := r) (v := .low c)
        (w := (s.reg r &&& ~~~ 0xFF#64) ||| BitVec.ofNat 64 (bit b))
        (by
          show (bit (((s.reg r &&& ~~~ 0xFF#64) ||| BitVec.ofNat 64 (bit b)).getLsbD 0) : ℤ) = _
          rw [setc_bit]; exact eb) dc
      exact ⟨ρ, _, rfl, a, b', fun _ _ => rfl, le_refl _, fun _ _ => rfl⟩
    · cases h
  | bt r =>
    unfold step at h
    dsimp only at h
    split at h
    · rename_i c hc
      cases h
      have fc := hs.regs r
      have dc := hw.regs r
      rw [hc] at fc dc
      exact StepOK.flags (r := some s) (f := fun s => some ((s.reg r).getLsbD 0)) (g := fun _ => none)
        ⟨ρ, s, rfl, hs, hw, fun _ _ => rfl, le_refl _, Frame.rfl, ⟨_, rfl, fc⟩, trivial, dc, trivial⟩
    · cases h
  | ret => cases h

theorem step_sound (hT : TabOK tabs E) (hL : LayOK L E β) (hs : Holds L ρ β s σ) (hw : WF L σ) (hn : σ.next < 65000)
    {i : Item} {σ' : Sym} (h : step tabs L σ i = some σ') : StepOK L β ρ s σ (i.exec E s) σ' := by
  cases i with
  | name e locs => exact name_sound hT hL hs hw hn h
  | times i vs => exact times_sound hs hw hn h
  | ins i => exact ins_sound hT hL hs hw hn h
  | top lows i =>
    cases i with
    | adc d o =>
      unfold step at h
      dsimp only at h
      split at h
      · rename_i c ls p q hc hls hp hq
        split at h
        · rename_i u hu
          obtain ⟨hb, h⟩ := cond_some h
          split at h
          · rename_i σ1 hput
            cases h
            exact top_sound hT hL hs hw hc hls hp hq hu (of_decide_eq_true hb) hput
          · cases h
        · cases h
      · cases h
    | _ => cases h

theorem run_cons {E : Env} {s s' : St} {i : Instr} {is : List Instr} (h : exec E s i = some s') :
    run E (i :: is) s = run E is s' := by
  have hi : i = .ret → False := by rintro rfl; cases h
  rw [run, h]
  · rfl
  · exact hi

/-- What the checker finds is true of the execution of the program -/
theorem symRun_sound (hT : TabOK tabs E) (hL : LayOK L E β) :
    ∀ (is : List Item) (ρ : ℕ → ℕ) (s : St) (σ σ' : Sym) (v : SVal), Holds L ρ β s σ → WF L σ →
      symRun tabs L is σ = some (σ', v) →
      ∃ ρ' s' a, run E (strip is) s = some (s', a) ∧ Holds L ρ' β s' σ' ∧ v.Holds ρ' β a ∧
        (∀ i < σ.next, ρ' i = ρ i) ∧ Frame L β s s'
  | [], ρ, s, σ, σ', v, _, _, h => by cases h
  | i :: is, ρ, s, σ, σ', v, hs, hw, h => by
    by_cases hi : i = .ins .ret
    · subst hi
      unfold symRun at h
      split at h
      · rename_i b o hp
        split at h
        · rename_i v' hv
          cases h
          have ep := hs.regs .rsp
          rw [hp] at ep
          have ep : s.reg .rsp = β b + BitVec.ofNat 64 o := ep
          have e8 : s.reg .rsp + 8 = β b + BitVec.ofNat 64 (o + 8) := by
            rw [ep, ofNat_add, ← BitVec.add_assoc]; rfl
          obtain ⟨h1, h2, h3, -⟩ := load_sound hL hs hw hv
          obtain ⟨a, c⟩ := setReg_sound hs hw (r := .rsp) (v := .ptr b (o + 8)) (w := s.reg .rsp + 8) e8 trivial
          refine ⟨ρ, _, _, ?_, a, h2, fun _ _ => rfl, fun _ _ => rfl⟩
          show run E (.ret :: strip is) s = _
          unfold run
          rw [ep, h1]; rfl
        · cases h
      · cases h
    · have h' : (match bif Nat.blt σ.next 65000 then step tabs L σ i else none with
          | some σ' => symRun tabs L is σ'
          | none => none) = some (σ', v) := by
        unfold symRun at h
        split at h
        · rename_i heq; cases heq
        · rename_i heq
          cases heq
          exact absurd rfl hi
        · rename_i heq
          cases heq
          exact h
      cases hst : (bif Nat.blt σ.next 65000 then step tabs L σ i else none) with
      | none => rw [hst] at h'; cases h'
      | some σ1 =>
        rw [hst] at h'
        dsimp only at h'
        obtain ⟨hb, hst⟩ := cond_some hst
        obtain ⟨ρ1, s1, e1, a1, b1, c1, d1, f1⟩ := step_sound hT hL hs hw (Nat.blt_eq.mp hb) hst
        obtain ⟨ρ2, s2, a, e2, a2, v2, c2, f2⟩ := symRun_sound hT hL is ρ1 s1 σ1 σ' v a1 b1 h'
        refine ⟨ρ2, s2, a, ?_, a2, v2, fun i hi => (c2 i (by omega)).trans (c1 i hi), f1.trans f2⟩
        cases i with
        | ins i => exact (run_cons e1).trans e2
        | top l i => exact (run_cons e1).trans e2
        | name e l =>
          have : s = s1 := Option.some.inj e1
          subst this
          exact e2
        | times i vs =>
          have : s = s1 := Option.some.inj e1
          subst this
          exact e2

theorem strip_weave : ∀ (is : List Instr) (k : ℕ) (hs : List (ℕ × Hint)), strip (weave k is hs) = is
  | [], k, hs => by cases hs <;> rfl
  | i :: is, k, [] => by
    have : weave k (i :: is) [] = .ins i :: weave (k + 1) is [] := rfl
    rw [this, strip, strip_weave is]
  | i :: is, k, (j, h) :: hs => by
    unfold weave
    cases (k == j)
    · rw [cond_false, strip, strip_weave is]
    · rw [cond_true]
      cases h with
      | name e l => dsimp only; rw [strip, strip, strip_weave is]
      | times i vs => dsimp only; rw [strip, strip, strip_weave is]
      | top l => dsimp only; rw [strip, strip_weave is]

end Secuer.X64
