import Verif.Arm.StepSound
import Verif.Arm.Check

/-!
# Calls of the ARM functions

What a caller has to provide (`Pre`), what it gets back (`Done`), and the proof that a successful check gives both.
-/

namespace Secuer.Arm

open Secuer.X64 (Digit Tab Env Poly SVal Lay LayOK TabOK Sig lookup lookup_mem wordsAt insWords insWords_length initMem initMem_mem
  natVal eval_nums InB inNum forall₂_get eq_of_var size_in size_out size_big toNat_off addr_toNat Found)

/-! ## The calling convention -/

/-- The registers of the arguments (procedure call standard for the Arm 64-bit architecture) -/
def argReg : ℕ → Reg
  | 0 => .x0
  | 1 => .x1
  | _ => .x2

/-- The address of argument `i`; the output is the last one -/
def ptr (s : St) (i : ℕ) : Digit := s.reg (argReg i)

/-- The address of word `j` of argument `i` -/
def wordAddr (s : St) (i j : ℕ) : Digit := ptr s i + BitVec.ofNat 64 (8 * j)

/-- The registers a function has to preserve, with the stack pointer -/
def calleeSaved : List Reg := [.x19, .x20, .x21, .x22, .x23, .x24, .x25, .x26, .x27, .x28, .x29, .sp]

/-- A call with accessible arguments: aligned, the stack with room and apart from the arguments, the output apart from the
inputs or at one of the places allowed by the signature, the inputs that are also outputs apart from all other arguments -/
structure Pre (E : Env) (S : Sig) (s : St) : Prop where
  stkAl : (s.reg .sp).toNat % 16 = 0
  stkLo : S.stack ≤ (s.reg .sp).toNat
  stkRd : ∀ a : Digit, a.toNat % 8 = 0 → (s.reg .sp).toNat - S.stack ≤ a.toNat → a.toNat < (s.reg .sp).toNat → E.rd a = true
  stkWr : ∀ a : Digit, a.toNat % 8 = 0 → (s.reg .sp).toNat - S.stack ≤ a.toNat → a.toNat < (s.reg .sp).toNat → E.wr a = true
  al : ∀ i ≤ S.ins.length, (ptr s i).toNat % 8 = 0
  room : ∀ i ≤ S.ins.length, (ptr s i).toNat + 8 * S.size i ≤ 2 ^ 64
  rd : ∀ i ≤ S.ins.length, ∀ j < S.size i, E.rd (wordAddr s i j) = true
  wr : ∀ j < S.out, E.wr (wordAddr s S.ins.length j) = true
  stk : ∀ i ≤ S.ins.length, (ptr s i).toNat + 8 * S.size i ≤ (s.reg .sp).toNat - S.stack ∨
    (s.reg .sp).toNat ≤ (ptr s i).toNat
  sep : ∀ i < S.ins.length, (∃ o, (i, o) ∈ S.al ∧ (ptr s S.ins.length).toNat = (ptr s i).toNat + o) ∨
    (ptr s i).toNat + 8 * S.size i ≤ (ptr s S.ins.length).toNat ∨
    (ptr s S.ins.length).toNat + 8 * S.out ≤ (ptr s i).toNat
  ioWr : ∀ i ∈ S.io, i < S.ins.length → ∀ j < S.size i, E.wr (wordAddr s i j) = true
  ioSep : ∀ i ∈ S.io, i < S.ins.length → ∀ k ≤ S.ins.length, k ≠ i →
    (ptr s i).toNat + 8 * S.size i ≤ (ptr s k).toNat ∨ (ptr s k).toNat + 8 * S.size k ≤ (ptr s i).toNat

/-- The function returns to its caller, with the registers it has to preserve as they were, and nothing changed in memory but
the outputs and the stack below the stack pointer -/
structure Done (E : Env) (S : Sig) (prog : List Instr) (s s' : St) : Prop where
  run : run E prog s = some (s', s.reg .x30)
  saved : ∀ r ∈ calleeSaved, s'.reg r = s.reg r
  frame : ∀ a : Digit, (∀ j < S.out, a ≠ wordAddr s S.ins.length j) →
    (∀ i ∈ S.io, i < S.ins.length → ∀ j < S.size i, a ≠ wordAddr s i j) →
    ¬ ((s.reg .sp).toNat - S.stack ≤ a.toNat ∧ a.toNat < (s.reg .sp).toNat) → s'.mem a = s.mem a

/-! ## From the convention to the checker -/

/-- The arguments and the memory of the state, in the registers of the other machine -/
def view (s : St) : X64.St where
  reg := fun r => match r with
    | .rdi => s.reg .x0
    | .rsi => s.reg .x1
    | .rdx => s.reg .x2
    | _ => 0
  cf := none
  of := none
  mem := s.mem

theorem ptr_view (s : St) (i : ℕ) : X64.ptr (view s) i = ptr s i := by
  match i with
  | 0 => rfl
  | 1 => rfl
  | _ + 2 => rfl

theorem wordAddr_view (s : St) (i j : ℕ) : X64.wordAddr (view s) i j = wordAddr s i j := by
  unfold X64.wordAddr wordAddr
  rw [ptr_view]

/-- The addresses of the areas -/
def areas (S : Sig) (s : St) (b : ℕ) : Digit :=
  if b = 0 then s.reg .sp - BitVec.ofNat 64 S.stack else if b ≤ S.ins.length + 1 then ptr s (b - 1) else 0

theorem lay_r_zero (S : Sig) : (lay S).r 0 = S.stack := rfl

theorem lay_r_succ (S : Sig) (i : ℕ) : (lay S).r (i + 1) = 8 * S.size i := X64.lay_r_succ S i

theorem lay_w_zero (S : Sig) : (lay S).w 0 = S.stack := rfl

theorem lay_w_succ (S : Sig) (i : ℕ) :
    (lay S).w (i + 1) = if i = S.ins.length then 8 * S.out else if i ∈ S.io then 8 * S.size i else 0 := X64.lay_w_succ S i

theorem areas_zero {E : Env} {S : Sig} {s : St} (hp : Pre E S s) :
    (areas S s 0).toNat = (s.reg .sp).toNat - S.stack := by
  unfold areas
  rw [if_pos rfl, BitVec.toNat_sub, BitVec.toNat_ofNat]
  have := hp.stkLo
  have := (s.reg .sp).isLt
  omega

theorem areas_succ {S : Sig} {s : St} {i : ℕ} (hi : i ≤ S.ins.length) : areas S s (i + 1) = ptr s i := by
  unfold areas
  rw [if_neg (by omega), if_pos (by omega), Nat.add_sub_cancel]

theorem areas_big {S : Sig} {s : St} {i : ℕ} (hi : S.ins.length < i) : areas S s (i + 1) = 0 := by
  unfold areas
  rw [if_neg (by omega), if_neg (by omega)]

theorem layOK {E : Env} {S : Sig} {s : St} (hp : Pre E S s) (h8 : S.stack % 16 = 0) : LayOK (lay S) E (areas S s) := by
  have hz := areas_zero hp
  have hlo := hp.stkLo
  have hsp := (s.reg .sp).isLt
  have room : ∀ b, (areas S s b).toNat + (lay S).r b ≤ 2 ^ 64 := by
    intro b
    cases b with
    | zero => rw [hz, lay_r_zero]; omega
    | succ i =>
      rw [lay_r_succ]
      by_cases hi : i ≤ S.ins.length
      · rw [areas_succ hi]; exact hp.room i hi
      · rw [size_big S (by omega)]
        have := (areas S s (i + 1)).isLt
        omega
  have tn : ∀ b o, o < (lay S).r b → (areas S s b + BitVec.ofNat 64 o).toNat = (areas S s b).toNat + o := by
    intro b o ho
    have := room b
    exact toNat_off (by omega)
  have le : ∀ b, (lay S).w b ≤ (lay S).r b := by
    intro b
    cases b with
    | zero => rw [lay_r_zero, lay_w_zero]
    | succ i =>
      rw [lay_r_succ, lay_w_succ]
      by_cases hi : i = S.ins.length
      · rw [if_pos hi, hi, size_out]
      · rw [if_neg hi]; split <;> omega
  have al : ∀ b, (areas S s b).toNat % 8 = 0 := by
    intro b
    cases b with
    | zero => rw [hz]; have := hp.stkAl; omega
    | succ i =>
      by_cases hi : i ≤ S.ins.length
      · rw [areas_succ hi]; exact hp.al i hi
      · rw [areas_big (by omega)]; rfl
  refine ⟨al, room, le, ?_, ?_, ?_⟩
  · intro b o ho h8'
    cases b with
    | zero =>
      have h1 := tn 0 o ho
      rw [lay_r_zero] at ho
      have := hp.stkAl
      exact hp.stkRd _ (by rw [h1, hz]; omega) (by rw [h1, hz]; omega) (by rw [h1, hz]; omega)
    | succ i =>
      rw [lay_r_succ] at ho
      by_cases hi : i ≤ S.ins.length
      · rw [areas_succ hi]
        have e : o = 8 * (o / 8) := by omega
        rw [e]
        exact hp.rd i hi (o / 8) (by omega)
      · rw [size_big S (by omega)] at ho; omega
  · intro b o ho h8'
    cases b with
    | zero =>
      have h1 := tn 0 o (lt_of_lt_of_le ho (le 0))
      rw [lay_w_zero] at ho
      have := hp.stkAl
      exact hp.stkWr _ (by rw [h1, hz]; omega) (by rw [h1, hz]; omega) (by rw [h1, hz]; omega)
    | succ i =>
      rw [lay_w_succ] at ho
      by_cases hi : i = S.ins.length
      · subst hi
        rw [if_pos rfl] at ho
        rw [areas_succ (le_refl _)]
        have e : o = 8 * (o / 8) := by omega
        rw [e]
        exact hp.wr (o / 8) (by omega)
      · rw [if_neg hi] at ho
        by_cases hio : i ∈ S.io
        · rw [if_pos hio] at ho
          have hil : i < S.ins.length := by
            by_contra hc
            rw [size_big S (by omega)] at ho; omega
          rw [areas_succ hil.le]
          have e : o = 8 * (o / 8) := by omega
          rw [e]
          exact hp.ioWr i hio hil (o / 8) (by omega)
        · rw [if_neg hio] at ho; omega
  · intro x y o o' hxy ho' ho h8o h8o' he
    have h1 := tn x o' ho'
    have h2 := tn y o (lt_of_lt_of_le ho (le y))
    rw [he, h2] at h1
    cases y with
    | zero =>
      rw [lay_w_zero] at ho
      cases x with
      | zero => exact absurd rfl hxy
      | succ i =>
        rw [lay_r_succ] at ho'
        by_cases hi : i ≤ S.ins.length
        · rw [areas_succ hi, hz] at h1
          rcases hp.stk i hi with h | h <;> omega
        · rw [size_big S (by omega)] at ho'; omega
    | succ k =>
      rw [lay_w_succ] at ho
      by_cases hk : k = S.ins.length
      · subst hk
        rw [if_pos rfl] at ho
        rw [areas_succ (le_refl _)] at h1
        cases x with
        | zero =>
          rw [lay_r_zero] at ho'
          rw [hz] at h1
          have := hp.stk _ (le_refl _)
          rw [size_out] at this
          rcases this with h | h <;> omega
        | succ i =>
          rw [lay_r_succ] at ho'
          by_cases hi : i < S.ins.length
          · rw [areas_succ hi.le] at h1
            rcases hp.sep i hi with ⟨d, hd, e⟩ | h | h
            · refine ⟨(i + 1, S.ins.length + 1, d), ?_, rfl, rfl, by dsimp only; omega⟩
              unfold lay
              exact List.mem_map.mpr ⟨(i, d), hd, rfl⟩
            · omega
            · omega
          · have : i ≠ S.ins.length := fun e => hxy (by rw [e])
            rw [size_big S (by omega)] at ho'; omega
      · rw [if_neg hk] at ho
        by_cases hio : k ∈ S.io
        · rw [if_pos hio] at ho
          have hkl : k < S.ins.length := by
            by_contra hc
            rw [size_big S (by omega)] at ho; omega
          rw [areas_succ hkl.le] at h1
          cases x with
          | zero =>
            rw [lay_r_zero] at ho'
            rw [hz] at h1
            rcases hp.stk k hkl.le with h | h <;> omega
          | succ i =>
            rw [lay_r_succ] at ho'
            by_cases hi : i ≤ S.ins.length
            · rw [areas_succ hi] at h1
              have hne : i ≠ k := fun e => hxy (by rw [e])
              rcases hp.ioSep k hio hkl i hi hne with h | h <;> omega
            · rw [size_big S (by omega)] at ho'; omega
        · rw [if_neg hio] at ho; omega

/-! ## The initial state -/

/-- The values of the variables at the call; `xs`: those of the variables for the assumptions -/
def initVals (S : Sig) (s : St) (xs : List ℕ) : List ℕ :=
  [1, (s.reg .x19).toNat, (s.reg .x20).toNat, (s.reg .x21).toNat, (s.reg .x22).toNat, (s.reg .x23).toNat, (s.reg .x24).toNat,
   (s.reg .x25).toNat] ++ (insWords (view s) 0 S.ins ++ ([(s.reg .x26).toNat, (s.reg .x27).toNat, (s.reg .x28).toNat,
   (s.reg .x29).toNat, (s.reg .x30).toNat] ++ xs))

def initVal (S : Sig) (s : St) (xs : List ℕ) (i : ℕ) : ℕ := ((initVals S s xs)[i]?).getD 0

theorem initVal_ge (S : Sig) (s : St) (xs : List ℕ) (k : ℕ) :
    initVal S s xs (8 + k) = ((insWords (view s) 0 S.ins ++ ([(s.reg .x26).toNat, (s.reg .x27).toNat, (s.reg .x28).toNat,
      (s.reg .x29).toNat, (s.reg .x30).toNat] ++ xs))[k]?).getD 0 := by
  unfold initVal initVals
  rw [List.getElem?_append_right (by simp)]; simp

theorem initVal_in (S : Sig) (s : St) (xs : List ℕ) {k : ℕ} (hk : k < S.ins.sum) :
    initVal S s xs (8 + k) = ((insWords (view s) 0 S.ins)[k]?).getD 0 := by
  rw [initVal_ge, List.getElem?_append_left (by rw [insWords_length]; exact hk)]

theorem initVal_reg (S : Sig) (s : St) (xs : List ℕ) (j : ℕ) :
    initVal S s xs (8 + (S.ins.sum + j)) = (([(s.reg .x26).toNat, (s.reg .x27).toNat, (s.reg .x28).toNat,
      (s.reg .x29).toNat, (s.reg .x30).toNat] ++ xs)[j]?).getD 0 := by
  rw [initVal_ge, List.getElem?_append_right (by rw [insWords_length]; omega), insWords_length, Nat.add_sub_cancel_left]

/-- The values of the input variables -/
def inVal (S : Sig) (s : St) (i : ℕ) : ℕ := initVal S s [] i

/-- The assumptions given hold -/
def HypOK (S : Sig) (s : St) (hyps : List (Poly × ℕ)) : Prop :=
  ∀ t ∈ hyps, Poly.Dep (8 + S.ins.sum) t.1 ∧ 0 ≤ Poly.eval (inVal S s) t.1 ∧ Poly.eval (inVal S s) t.1 ≤ t.2

def hypVals (S : Sig) (s : St) (hyps : List (Poly × ℕ)) : List ℕ :=
  hyps.map fun t => (Poly.eval (inVal S s) t.1).toNat

theorem initVal_low (S : Sig) (s : St) (xs ys : List ℕ) (i : ℕ) (hi : i < 8 + S.ins.sum) :
    initVal S s xs i = initVal S s ys i := by
  rcases Nat.lt_or_ge i 8 with h | h
  · unfold initVal initVals
    rw [List.getElem?_append_left (by simpa using h), List.getElem?_append_left (by simpa using h)]
  · have e : i = 8 + (i - 8) := by omega
    rw [e, initVal_in S s xs (by omega), initVal_in S s ys (by omega)]

theorem hypEqs_eval {S : Sig} {s : St} (xs : List ℕ) : ∀ (hyps : List (Poly × ℕ)) (x : ℕ),
    HypOK S s hyps → x + hyps.length < 65536 →
    (∀ i t, hyps[i]? = some t → initVal S s xs (x + i) = (Poly.eval (inVal S s) t.1).toNat) →
    ∀ p ∈ hypEqs x hyps, Poly.eval (initVal S s xs) p = 0
  | [], _, _, _, _, p, hp => by cases hp
  | (P, u) :: ts, x, hs, hx, hv, p, hp => by
    rw [List.length_cons] at hx
    rw [hypEqs] at hp
    rcases List.mem_cons.mp hp with hp | hp
    · obtain ⟨h1, h2, h3⟩ := hs _ (List.mem_cons_self ..)
      subst hp
      have := hv 0 _ rfl
      dsimp only at h1 h2 h3 this
      rw [Nat.add_zero] at this
      rw [Poly.eval_sub, Poly.eval_var rfl (by omega), this,
        h1 (initVal S s xs) (inVal S s) rfl rfl (fun i hi => initVal_low S s _ _ i hi)]
      omega
    · refine hypEqs_eval xs ts (x + 1) (fun t ht => hs t (List.mem_cons_of_mem _ ht)) (by omega) ?_ p hp
      intro i t ht
      have := hv (i + 1) t ht
      rwa [show x + 1 + i = x + (i + 1) by ring]

theorem hypEqs_dep {n N : ℕ} (hN : n ≤ N) (h64 : N < 65536) :
    ∀ (hyps : List (Poly × ℕ)) (x : ℕ), (∀ t ∈ hyps, Poly.Dep n t.1) → x + hyps.length ≤ N →
    ∀ p ∈ hypEqs x hyps, Poly.Dep N p
  | [], _, _, _, p, hp => by cases hp
  | (P, u) :: ts, x, hs, hx, p, hp => by
    rw [hypEqs] at hp
    rw [List.length_cons] at hx
    rcases List.mem_cons.mp hp with hp | hp
    · subst hp
      exact ((hs _ (List.mem_cons_self ..)).mono hN).sub (Poly.Dep.var (by omega) (by omega))
    · exact hypEqs_dep hN h64 ts (x + 1) (fun t ht => hs t (List.mem_cons_of_mem _ ht)) (by omega) p hp

theorem hyp_le {S : Sig} {s : St} : ∀ hyps : List (Poly × ℕ), HypOK S s hyps →
    List.Forall₂ (· ≤ ·) (hypVals S s hyps) (hyps.map (·.2))
  | [], _ => List.Forall₂.nil
  | t :: ts, h => List.Forall₂.cons (by
      obtain ⟨-, h2, h3⟩ := h t (List.mem_cons_self ..)
      dsimp only
      omega) (hyp_le ts fun t ht => h t (List.mem_cons_of_mem _ ht))

theorem init_holds {E : Env} {S : Sig} {s : St} {bounds : List ℕ} {hyps : List (Poly × ℕ)} (hb : InB S (view s) bounds)
    (hh : HypOK S s hyps) (hlen : 1 ≤ S.ins.length) (hlt : bounds.length < 1000) (hlt' : hyps.length < 1000) :
    Holds (initVal S s (hypVals S s hyps)) (areas S s) s (init S bounds hyps) ∧ WF (lay S) (init S bounds hyps) := by
  generalize hxs : hypVals S s hyps = xs
  have hone : initVal S s xs 0 = 1 := rfl
  have hx : ∀ x : Digit, x.toNat ≤ 2 ^ 64 - 1 := fun x => by have := x.isLt; omega
  have hall : List.Forall₂ (· ≤ ·) (insWords (view s) 0 S.ins ++ ([(s.reg .x26).toNat, (s.reg .x27).toNat, (s.reg .x28).toNat,
      (s.reg .x29).toNat, (s.reg .x30).toNat] ++ xs)) (allBounds bounds hyps) := by
    rw [← hxs]
    unfold allBounds
    refine List.rel_append (R := (· ≤ ·)) hb (List.rel_append (R := (· ≤ ·)) ?_ (hyp_le hyps hh))
    exact .cons (hx _) (.cons (hx _) (.cons (hx _) (.cons (hx _) (.cons (hx _) .nil))))
  have hla : (allBounds bounds hyps).length = bounds.length + 5 + hyps.length := by
    unfold allBounds; simp; omega
  have hnext : (init S bounds hyps).core.next = 8 + (allBounds bounds hyps).length := rfl
  have hubs : (init S bounds hyps).core.ubs = (allBounds bounds hyps).reverse ++
    [2 ^ 64 - 1, 2 ^ 64 - 1, 2 ^ 64 - 1, 2 ^ 64 - 1, 2 ^ 64 - 1, 2 ^ 64 - 1, 2 ^ 64 - 1, 1] := rfl
  generalize hbs : allBounds bounds hyps = all at hall hla hnext hubs
  have hl : bounds.length = S.ins.sum := by rw [← hb.length_eq, insWords_length]
  have ev : ∀ i, i < 13 + bounds.length → Poly.eval (initVal S s xs) (Poly.var i) = initVal S s xs i := fun i hi =>
    Poly.eval_var hone (by omega)
  have dv : ∀ i, i < 13 + bounds.length → Poly.Dep (init S bounds hyps).core.next (Poly.var i) := fun i hi =>
    Poly.Dep.var (by rw [hnext]; omega) (by omega)
  have a2 : areas S s 2 = s.reg .x1 := areas_succ (S := S) (s := s) (i := 1) (by omega)
  have a1 : areas S s 1 = s.reg .x0 := areas_succ (S := S) (s := s) (i := 0) (by omega)
  have hspl : areas S s 0 + BitVec.ofNat 64 S.stack = s.reg .sp := by
    unfold areas
    rw [if_pos rfl, BitVec.sub_add_cancel]
  have memf : ∀ e ∈ (init S bounds hyps).core.mem,
      ∃ d j k n, S.ins[d]? = some n ∧ j < n ∧ e = ((d + 1, 8 * j), .poly (Poly.var (8 + k))) ∧
      (insWords (view s) 0 S.ins)[k]? = some (s.mem (wordAddr s d j)).toNat := by
    intro e he
    obtain ⟨d, j, k, n, h1, h2, h3, h4⟩ := initMem_mem (view s) S.ins 0 8 e he
    simp only [Nat.zero_add] at h3 h4
    rw [wordAddr_view] at h4
    exact ⟨d, j, k, n, h1, h2, h3, h4⟩
  have kl : ∀ k x, (insWords (view s) 0 S.ins)[k]? = some x → k < bounds.length := by
    intro k x hk
    by_contra hc
    rw [List.getElem?_eq_none (by rw [hb.length_eq]; omega)] at hk
    cases hk
  have rg : ∀ j < 5, initVal S s xs (8 + j + bounds.length) = (([(s.reg .x26).toNat, (s.reg .x27).toNat, (s.reg .x28).toNat,
      (s.reg .x29).toNat, (s.reg .x30).toNat])[j]?).getD 0 := by
    intro j hj
    have := initVal_reg S s xs j
    rw [List.getElem?_append_left (by simpa using hj)] at this
    rw [← this, ← hl]
    congr 1
    omega
  constructor
  · refine ⟨hone, ?_, trivial, ?_, ?_, ?_, ?_⟩
    · intro r
      have hv : ∀ (x : Digit) i, i < 13 + bounds.length → initVal S s xs i = x.toNat →
          (SVal.poly (Poly.var i)).Holds (initVal S s xs) (areas S s) x := by
        intro x i hi hx
        show (x.toNat : ℤ) = _
        rw [ev i (by omega), hx]
      cases r
      case x0 => show s.reg .x0 = areas S s 1 + BitVec.ofNat 64 0; rw [a1]; simp
      case x1 => show s.reg .x1 = areas S s 2 + BitVec.ofNat 64 0; rw [a2]; simp
      case x2 =>
        rcases Nat.lt_or_ge S.ins.length 2 with h | h
        · have : (init S bounds hyps).reg .x2 = .any := by
            unfold Sym.reg init
            rw [if_neg (by omega)]; rfl
          rw [this]; trivial
        · have : (init S bounds hyps).reg .x2 = .ptr 3 0 := by
            unfold Sym.reg init
            rw [if_pos h]; rfl
          rw [this]
          show s.reg .x2 = areas S s 3 + BitVec.ofNat 64 0
          have h3 : areas S s 3 = s.reg .x2 := areas_succ (S := S) (s := s) (i := 2) (by omega)
          rw [h3]; simp
      case x19 => exact hv _ 1 (by omega) rfl
      case x20 => exact hv _ 2 (by omega) rfl
      case x21 => exact hv _ 3 (by omega) rfl
      case x22 => exact hv _ 4 (by omega) rfl
      case x23 => exact hv _ 5 (by omega) rfl
      case x24 => exact hv _ 6 (by omega) rfl
      case x25 => exact hv _ 7 (by omega) rfl
      case x26 => exact hv _ (8 + bounds.length) (by omega) (rg 0 (by omega))
      case x27 => exact hv _ (9 + bounds.length) (by omega) (rg 1 (by omega))
      case x28 => exact hv _ (10 + bounds.length) (by omega) (rg 2 (by omega))
      case x29 => exact hv _ (11 + bounds.length) (by omega) (rg 3 (by omega))
      case x30 => exact hv _ (12 + bounds.length) (by omega) (rg 4 (by omega))
      case sp => exact hspl.symm
      all_goals trivial
    · intro e he
      obtain ⟨d, j, k, n, h1, h2, h3, h4⟩ := memf e he
      subst h3
      have hd : d < S.ins.length := by
        by_contra hc
        rw [List.getElem?_eq_none (by omega)] at h1; cases h1
      show ((s.mem (areas S s (d + 1) + BitVec.ofNat 64 (8 * j))).toNat : ℤ) = _
      rw [areas_succ hd.le, ev _ (by have := kl k _ h4; omega), initVal_in S s xs (by have := kl k _ h4; omega), h4]; rfl
    · intro i u hu
      have hi := Poly.ubVar_lt hu
      have hbl : Nat.blt i (init S bounds hyps).core.next = true := Nat.blt_eq.mpr hi
      rw [hnext] at hi
      unfold Poly.ubVar at hu
      rw [hbl, cond_true, hnext, hubs] at hu
      by_cases h : 8 ≤ i
      · rw [List.getElem?_append_left (by rw [List.length_reverse]; omega), List.getElem?_reverse (by omega)] at hu
        have e1 : all.length - 1 - (8 + all.length - 1 - i) = i - 8 := by omega
        rw [e1] at hu
        have e2 : i = 8 + (i - 8) := by omega
        rw [e2, initVal_ge]
        exact forall₂_get hall _ _ hu
      · rw [List.getElem?_append_right (by rw [List.length_reverse]; omega), List.length_reverse] at hu
        have e1 : 8 + all.length - 1 - i - all.length = 7 - i := by omega
        rw [e1] at hu
        have hcases : i = 0 ∨ i = 1 ∨ i = 2 ∨ i = 3 ∨ i = 4 ∨ i = 5 ∨ i = 6 ∨ i = 7 := by omega
        rcases hcases with rfl | rfl | rfl | rfl | rfl | rfl | rfl | rfl <;>
          (have hu' := Option.some.inj hu; rw [← hu']; first | exact hx _ | exact le_refl 1)
    · intro p hp
      have hp : p ∈ (hypEqs (13 + bounds.length) hyps).reverse := hp
      refine hypEqs_eval xs hyps (13 + bounds.length) hh (by omega) ?_ p (List.mem_reverse.mp hp)
      intro i t ht
      rw [show 13 + bounds.length + i = 8 + (S.ins.sum + (5 + i)) by omega, initVal_reg,
        List.getElem?_append_right (by simp), ← hxs]
      have e : 5 + i - [(s.reg .x26).toNat, (s.reg .x27).toNat, (s.reg .x28).toNat,
        (s.reg .x29).toNat, (s.reg .x30).toNat].length = i := by simp
      rw [e]
      unfold hypVals
      rw [List.getElem?_map, ht]; rfl
    · intro e he; cases he
  · refine ⟨by rw [hnext]; omega, rfl, ?_, trivial, ?_, ?_, ?_, ?_⟩
    · intro r
      cases r
      case x2 =>
        unfold Sym.reg init
        rcases Nat.lt_or_ge S.ins.length 2 with h | h
        · rw [if_neg (by omega)]; trivial
        · rw [if_pos h]; trivial
      case x19 => exact dv 1 (by omega)
      case x20 => exact dv 2 (by omega)
      case x21 => exact dv 3 (by omega)
      case x22 => exact dv 4 (by omega)
      case x23 => exact dv 5 (by omega)
      case x24 => exact dv 6 (by omega)
      case x25 => exact dv 7 (by omega)
      case x26 => exact dv (8 + bounds.length) (by omega)
      case x27 => exact dv (9 + bounds.length) (by omega)
      case x28 => exact dv (10 + bounds.length) (by omega)
      case x29 => exact dv (11 + bounds.length) (by omega)
      case x30 => exact dv (12 + bounds.length) (by omega)
      all_goals trivial
    · intro e he
      obtain ⟨d, j, k, n, h1, h2, h3, h4⟩ := memf e he
      subst h3; exact dv _ (by have := kl k _ h4; omega)
    · intro e he
      obtain ⟨d, j, k, n, h1, h2, h3, h4⟩ := memf e he
      subst h3
      have hd : d < S.ins.length := by
        by_contra hc
        rw [List.getElem?_eq_none (by omega)] at h1; cases h1
      dsimp only
      rw [lay_r_succ, size_in S hd, h1]
      exact ⟨by show 8 * j < 8 * n; omega, by omega⟩
    · intro p hp
      have hp : p ∈ (hypEqs (13 + bounds.length) hyps).reverse := hp
      exact hypEqs_dep (n := 8 + S.ins.sum) (by omega) (by omega) hyps _ (fun t ht => (hh t ht).1) (by omega) p
        (List.mem_reverse.mp hp)
    · intro e he; cases he

theorem check_sound {tabs : Tab → List ℕ} {S : Sig} {prog : List Instr} {hints : List (ℕ × List Hint)} {bounds : List ℕ}
    {hyps : List (Poly × ℕ)} {claim : X64.Sym → Bool} (h : check tabs S prog hints bounds hyps claim = true) {E : Env} {s : St}
    (hT : TabOK tabs E) (hp : Pre E S s) (hb : InB S (view s) bounds) (hh : HypOK S s hyps) (h16 : S.stack % 16 = 0)
    (hlen : 1 ≤ S.ins.length) (hlt : bounds.length < 1000) (hlt' : hyps.length < 1000) :
    ∃ s' ρ σ, Done E S prog s s' ∧ Found S (view s) (view s') ρ σ ∧ claim σ = true ∧
      ∀ r : Reg, ((σ.regs[r.idx]?).getD .any).Holds ρ (areas S s) (s'.reg r) := by
  unfold check at h
  obtain ⟨hs0, hw0⟩ := init_holds (E := E) hb hh hlen hlt hlt'
  have hL := layOK hp h16
  have hz : (areas S s 0).toNat % 16 = 0 := by
    rw [areas_zero hp]; have := hp.stkAl; omega
  cases hr : symRun tabs (lay S) (weave 0 prog hints) (init S bounds hyps) with
  | none => rw [hr] at h; cases h
  | some σ =>
    rw [hr] at h
    simp only [Bool.and_eq_true] at h
    obtain ⟨⟨⟨⟨⟨⟨⟨⟨⟨⟨⟨⟨⟨c19, c20⟩, c21⟩, c22⟩, c23⟩, c24⟩, c25⟩, c26⟩, c27⟩, c28⟩, c29⟩, c30⟩, csp⟩, hcl⟩ := h
    obtain ⟨ρ, s', r1, r2, r4, r5⟩ := symRun_sound hz hT hL _ _ s _ σ hs0 hw0 hr
    rw [strip_weave] at r1
    have hl : bounds.length = S.ins.sum := by rw [← hb.length_eq, insWords_length]
    have hnx : (init S bounds hyps).core.next = 13 + bounds.length + hyps.length := by
      show 8 + (allBounds bounds hyps).length = _
      unfold allBounds; simp; omega
    rw [hnx] at r4
    have low : ∀ {r : Reg} {v : ℕ} {x : Digit}, v < 8 → σ.has r v = true →
        initVal S s (hypVals S s hyps) v = x.toNat → s'.reg r = x := by
      intro r v x hv hc h0
      exact eq_of_var r2.one (by omega) hc (r2.regs r) (r4 v (by omega)) h0
    have rg : ∀ {r : Reg} {x : Digit} (j : ℕ), j < 5 → σ.has r (8 + j + bounds.length) = true →
        (([(s.reg .x26).toNat, (s.reg .x27).toNat, (s.reg .x28).toNat, (s.reg .x29).toNat,
          (s.reg .x30).toNat])[j]?).getD 0 = x.toNat → s'.reg r = x := by
      intro r x j hj hc h0
      refine eq_of_var r2.one (by omega) hc (r2.regs r) (r4 _ (by omega)) ?_
      have := initVal_reg S s (hypVals S s hyps) j
      rw [List.getElem?_append_left (by simpa using hj)] at this
      rw [← h0, ← this, ← hl]
      congr 1
      omega
    have e30 : s'.reg .x30 = s.reg .x30 := rg 4 (by omega) c30 rfl
    rw [e30] at r1
    refine ⟨s', ρ, σ.core, ⟨r1, ?_, ?_⟩, ⟨r2.one, by omega, r2.bnd, r2.eqs, ?_, ?_⟩, hcl, r2.regs⟩
    · intro r hr
      simp only [calleeSaved, List.mem_cons, List.not_mem_nil, or_false] at hr
      rcases hr with rfl | rfl | rfl | rfl | rfl | rfl | rfl | rfl | rfl | rfl | rfl | rfl
      · exact low (by omega) c19 rfl
      · exact low (by omega) c20 rfl
      · exact low (by omega) c21 rfl
      · exact low (by omega) c22 rfl
      · exact low (by omega) c23 rfl
      · exact low (by omega) c24 rfl
      · exact low (by omega) c25 rfl
      · exact rg 0 (by omega) c26 rfl
      · exact rg 1 (by omega) c27 rfl
      · exact rg 2 (by omega) c28 rfl
      · exact rg 3 (by omega) c29 rfl
      · have h7 := r2.regs .sp
        rw [beq_iff_eq] at csp
        rw [csp] at h7
        have h7 : s'.reg .sp = areas S s 0 + BitVec.ofNat 64 S.stack := h7
        rw [h7]
        unfold areas
        rw [if_pos rfl, BitVec.sub_add_cancel]
    · intro x hx hio hst
      refine r5 x ?_
      intro b o ho h8o hc
      cases b with
      | zero =>
        rw [lay_w_zero] at ho
        have h1 := addr_toNat hL (b := 0) (o := o) (by rw [lay_r_zero]; omega)
        rw [← hc, areas_zero hp] at h1
        have := hp.stkLo
        exact hst ⟨by omega, by omega⟩
      | succ i =>
        rw [lay_w_succ] at ho
        by_cases hi : i = S.ins.length
        · subst hi
          rw [if_pos rfl] at ho
          rw [areas_succ (le_refl _)] at hc
          have e : o = 8 * (o / 8) := by omega
          rw [e] at hc
          exact hx (o / 8) (by omega) hc
        · rw [if_neg hi] at ho
          by_cases hm : i ∈ S.io
          · rw [if_pos hm] at ho
            have hil : i < S.ins.length := by
              by_contra hc
              rw [size_big S (by omega)] at ho; omega
            rw [areas_succ hil.le] at hc
            have e : o = 8 * (o / 8) := by omega
            rw [e] at hc
            exact hio i hm hil (o / 8) (by omega) hc
          · rw [if_neg hm] at ho; omega
    · intro k hk
      rw [r4 _ (by omega), initVal_in S s _ hk]
    · intro i hi j p hl
      have := lookup_mem σ.core.mem (i + 1) (8 * j)
      rw [hl] at this
      rcases this with h | h
      · cases h
      · have := r2.mem _ h
        rw [areas_succ hi] at this
        rw [wordAddr_view]
        exact this

end Secuer.Arm
