import Verif.Field.Fp2

/-!
# The addition chains for inversion and square roots

`fpinv_chain_mont` (`fpx.c:361-777`) is straight-line code over a table `t` and an accumulator `tt`. It is
transcribed here as a list of instructions, one for each line, and run over any type with a multiplication and
a squaring. Reading a table entry that was never written, or an index outside the table, has no result.
-/

namespace Secuer.Field

/-- One line of `fpinv_chain_mont`. -/
inductive Instr where
  /-- `fpsqr_mont(a, tt);` -/
  | sqA
  /-- `fpmul_mont(a, tt, t[j]);` -/
  | setA (j : ℕ)
  /-- `fpmul_mont(t[i], tt, t[j]);` -/
  | tab (i j : ℕ)
  /-- `for (i = lo; i <= hi; i++) fpmul_mont(t[i], tt, t[i+1]);` -/
  | tabFor (lo hi : ℕ)
  /-- `fpcopy(a, tt);` -/
  | load
  /-- `for (i = 0; i < n; i++) fpsqr_mont(tt, tt);` -/
  | sq (n : ℕ)
  /-- `fpmul_mont(t[i], tt, tt);` -/
  | mt (i : ℕ)
  /-- `fpmul_mont(a, tt, tt);` -/
  | ma
  /-- `for (j = 0; j < n; j++) { for (i = 0; i < k; i++) fpsqr_mont(tt, tt); fpmul_mont(t[i], tt, tt); }` -/
  | rep (n k i : ℕ)

/-- The calls a line makes. -/
inductive Prim where
  | sqA | setA (j : ℕ) | tab (i j : ℕ) | load | sq | mt (i : ℕ) | ma

def Instr.expand : Instr → List Prim
  | .sqA => [.sqA]
  | .setA j => [.setA j]
  | .tab i j => [.tab i j]
  | .tabFor lo hi => (List.range' lo (hi + 1 - lo)).map fun i => .tab i (i + 1)
  | .load => [.load]
  | .sq n => List.replicate n .sq
  | .mt i => [.mt i]
  | .ma => [.ma]
  | .rep n k i => (List.replicate n (List.replicate k Prim.sq ++ [.mt i])).flatten

/-- The variables `t` and `tt`; `none` is an uninitialised entry. -/
structure ChainState (α : Type) where
  t : List (Option α)
  tt : Option α

section

variable {α : Type} (sqr : α → α) (mul : α → α → α) (a : α)

def Prim.run (s : ChainState α) : Prim → Option (ChainState α)
  | .sqA => some { s with tt := some (sqr a) }
  | .setA j => do
    let x ← s.tt
    if j < s.t.length then some { s with t := s.t.set j (some (mul a x)) } else none
  | .tab i j => do
    let x ← s.tt
    let y ← s.t[i]?.join
    if j < s.t.length then some { s with t := s.t.set j (some (mul y x)) } else none
  | .load => some { s with tt := some a }
  | .sq => do
    let x ← s.tt
    some { s with tt := some (sqr x) }
  | .mt i => do
    let x ← s.tt
    let y ← s.t[i]?.join
    some { s with tt := some (mul y x) }
  | .ma => do
    let x ← s.tt
    some { s with tt := some (mul a x) }

def runPrims : List Prim → ChainState α → Option (ChainState α)
  | [], s => some s
  | c :: cs, s => do runPrims cs (← Prim.run sqr mul a s c)

/-- `fpinv_chain_mont` with a table of `size` entries: the value copied to `a` at the end. -/
def runChain (size : ℕ) (prog : List Instr) : Option α := do
  let s ← runPrims sqr mul a (prog.flatMap Instr.expand) ⟨List.replicate size none, none⟩
  s.tt

end

/-- `fpx.c:365-440`; `felm_t t[31]` -/
def chain434 : List Instr := [
  .sqA, .setA 0, .tabFor 0 29, .load, .sq 7, .mt 5, .sq 10, .mt 14, .sq 6, .mt 3, .sq 6, .mt 23, .sq 6,
  .mt 13, .sq 6, .mt 24, .sq 6, .mt 7, .sq 8, .mt 12, .sq 8, .mt 30, .sq 6, .mt 1, .sq 6, .mt 30,
  .sq 7, .mt 21, .sq 9, .mt 2, .sq 9, .mt 19, .sq 9, .mt 1, .sq 7, .mt 24, .sq 6, .mt 26, .sq 6,
  .mt 16, .sq 7, .mt 10, .sq 7, .mt 6, .sq 7, .mt 0, .sq 9, .mt 20, .sq 8, .mt 9, .sq 6, .mt 25, .sq 9,
  .mt 30, .sq 6, .mt 26, .sq 6, .ma, .sq 7, .mt 28, .sq 6, .mt 6, .sq 6, .mt 10, .sq 9, .mt 22,
  .rep 35 6 30]

/-- `fpx.c:442-539`; `felm_t t[15]` -/
def chain503 : List Instr := [
  .sqA, .setA 0, .tabFor 0 13, .load, .sq 8, .ma, .sq 5, .mt 8, .sq 5, .mt 6, .sq 6, .mt 9, .sq 7,
  .mt 0, .sq 7, .ma, .sq 7, .mt 6, .sq 7, .mt 2, .sq 5, .mt 8, .sq 7, .ma, .sq 8, .mt 10, .sq 5, .mt 0,
  .sq 6, .mt 10, .sq 5, .mt 10, .sq 5, .mt 5, .sq 5, .mt 2, .sq 5, .mt 6, .sq 5, .mt 3, .sq 6, .mt 5,
  .sq 12, .mt 12, .sq 5, .mt 8, .sq 5, .mt 6, .sq 5, .mt 12, .sq 6, .mt 11, .sq 8, .mt 6, .sq 5, .mt 5,
  .sq 5, .mt 14, .sq 7, .mt 14, .sq 5, .mt 5, .sq 5, .mt 6, .sq 8, .mt 8, .sq 5, .ma, .sq 8, .mt 4,
  .sq 5, .mt 6, .sq 5, .mt 5, .sq 8, .mt 7, .sq 5, .ma, .sq 5, .mt 0, .sq 5, .mt 11, .sq 5, .mt 13,
  .sq 8, .mt 1, .sq 6, .mt 10, .rep 49 5 14]

/-- `fpx.c:541-640`; `felm_t t[31]` -/
def chain610 : List Instr := [
  .sqA, .setA 0, .tabFor 0 29, .load, .sq 6, .mt 6, .sq 7, .mt 30, .sq 7, .mt 25, .sq 8, .mt 28, .sq 6,
  .mt 7, .sq 11, .mt 11, .sq 8, .ma, .sq 6, .mt 0, .sq 8, .mt 3, .sq 7, .mt 16, .sq 6, .mt 24, .sq 6,
  .mt 28, .sq 9, .mt 16, .sq 6, .mt 4, .sq 6, .mt 3, .sq 7, .mt 20, .sq 6, .mt 11, .sq 6, .mt 14,
  .sq 7, .mt 15, .sq 6, .mt 0, .sq 9, .mt 15, .sq 8, .mt 19, .sq 6, .mt 9, .sq 6, .mt 5, .sq 7, .mt 27,
  .sq 6, .mt 28, .sq 6, .mt 29, .sq 6, .mt 1, .sq 9, .mt 3, .sq 6, .mt 2, .sq 6, .mt 30, .sq 8, .mt 25,
  .sq 7, .mt 28, .sq 9, .mt 22, .sq 8, .mt 3, .sq 6, .mt 22, .sq 6, .mt 7, .sq 6, .mt 9, .sq 6, .mt 4,
  .sq 7, .mt 20, .sq 11, .mt 10, .sq 8, .mt 26, .sq 11, .mt 2, .rep 50 6 30]

/-- `fpx.c:642-775`; `felm_t t[27]` -/
def chain751 : List Instr := [
  .sqA, .setA 0, .tab 0 1, .tab 1 2, .tab 2 3, .tab 3 3, .tabFor 3 8, .tab 9 9, .tabFor 9 20,
  .tab 21 21, .tabFor 21 24, .tab 25 25, .tab 25 26, .load, .sq 6, .mt 20, .sq 6, .mt 24, .sq 6,
  .mt 11, .sq 6, .mt 8, .sq 8, .mt 2, .sq 6, .mt 23, .sq 6, .mt 2, .sq 9, .mt 2, .sq 10, .mt 15, .sq 8,
  .mt 13, .sq 8, .mt 26, .sq 8, .mt 20, .sq 6, .mt 11, .sq 6, .mt 10, .sq 6, .mt 14, .sq 6, .mt 4,
  .sq 10, .mt 18, .sq 6, .mt 1, .sq 7, .mt 22, .sq 10, .mt 6, .sq 7, .mt 24, .sq 6, .mt 9, .sq 8,
  .mt 18, .sq 6, .mt 17, .sq 8, .ma, .sq 10, .mt 16, .sq 6, .mt 7, .sq 6, .mt 0, .sq 7, .mt 12, .sq 7,
  .mt 19, .sq 6, .mt 22, .sq 6, .mt 25, .sq 7, .mt 2, .sq 6, .mt 10, .sq 7, .mt 22, .sq 8, .mt 18,
  .sq 6, .mt 4, .sq 6, .mt 14, .sq 7, .mt 13, .sq 6, .mt 5, .sq 6, .mt 23, .sq 6, .mt 21, .sq 6, .mt 2,
  .sq 7, .mt 23, .sq 8, .mt 12, .sq 6, .mt 9, .sq 6, .mt 3, .sq 7, .mt 13, .sq 7, .mt 17, .sq 8,
  .mt 26, .sq 8, .mt 5, .sq 8, .mt 8, .sq 6, .mt 2, .sq 6, .mt 11, .sq 7, .mt 20, .rep 61 6 26]

/-! ### Runs over related types are related -/

section

variable {α β : Type} {sqr : α → α} {mul : α → α → α} {a : α} {sqr' : β → β} {mul' : β → β → β} {a' : β}
variable (R : α → β → Prop)

/-- Whatever is initialised on the left is initialised on the right, and related. -/
def ORel : Option α → Option β → Prop
  | some x, some y => R x y
  | none, _ => True
  | some _, none => False

structure SRel (s : ChainState α) (s' : ChainState β) : Prop where
  t : List.Forall₂ (ORel R) s.t s'.t
  tt : ORel R s.tt s'.tt

variable {R}

theorem ORel.of_some {x : α} {o : Option β} (h : ORel R (some x) o) : ∃ y, o = some y ∧ R x y := by
  cases o with
  | none => exact h.elim
  | some y => exact ⟨y, rfl, h⟩

theorem forall2_get {l : List (Option α)} {l' : List (Option β)} (h : List.Forall₂ (ORel R) l l') (i : ℕ) :
    ORel R l[i]?.join l'[i]?.join := by
  induction h generalizing i with
  | nil => simp [ORel]
  | cons hx _ ih => cases i with
    | zero => simpa using hx
    | succ i => simpa using ih i

theorem forall2_set {l : List (Option α)} {l' : List (Option β)} (h : List.Forall₂ (ORel R) l l') {x : α} {y : β}
    (hx : R x y) (i : ℕ) : List.Forall₂ (ORel R) (l.set i (some x)) (l'.set i (some y)) := by
  induction h generalizing i with
  | nil => simp
  | cons hx' h ih => cases i with
    | zero => exact .cons hx h
    | succ i => exact .cons hx' (ih i)

variable (hs : ∀ x y, R x y → R (sqr x) (sqr' y)) (hm : ∀ x y x' y', R x x' → R y y' → R (mul x y) (mul' x' y'))
  (ha : R a a')

include hs hm ha

theorem Prim.run_rel {s : ChainState α} {s' : ChainState β} (h : SRel R s s') (c : Prim) {r : ChainState α}
    (hr : Prim.run sqr mul a s c = some r) : ∃ r', Prim.run sqr' mul' a' s' c = some r' ∧ SRel R r r' := by
  have hlen := h.t.length_eq
  cases c with
  | sqA => cases hr; exact ⟨_, rfl, h.t, hs _ _ ha⟩
  | load => cases hr; exact ⟨_, rfl, h.t, ha⟩
  | setA j =>
    simp only [Prim.run, Option.bind_eq_bind, Option.bind_eq_some_iff] at hr ⊢
    obtain ⟨x, hx, hr⟩ := hr
    have h2 := h.tt
    rw [hx] at h2
    obtain ⟨x', hx', hxx⟩ := h2.of_some
    by_cases hj : j < s.t.length
    · rw [if_pos hj] at hr; cases hr
      refine ⟨_, ⟨x', hx', if_pos (hlen ▸ hj)⟩, forall2_set h.t (hm _ _ _ _ ha hxx) _, h.tt⟩
    · rw [if_neg hj] at hr; cases hr
  | tab i j =>
    simp only [Prim.run, Option.bind_eq_bind, Option.bind_eq_some_iff] at hr ⊢
    obtain ⟨x, hx, y, hy, hr⟩ := hr
    have h2 := h.tt
    rw [hx] at h2
    obtain ⟨x', hx', hxx⟩ := h2.of_some
    have h3 := forall2_get h.t i
    rw [hy] at h3
    obtain ⟨y', hy', hyy⟩ := h3.of_some
    by_cases hj : j < s.t.length
    · rw [if_pos hj] at hr; cases hr
      refine ⟨_, ⟨x', hx', y', hy', if_pos (hlen ▸ hj)⟩, forall2_set h.t (hm _ _ _ _ hyy hxx) _, h.tt⟩
    · rw [if_neg hj] at hr; cases hr
  | sq =>
    simp only [Prim.run, Option.bind_eq_bind, Option.bind_eq_some_iff] at hr ⊢
    obtain ⟨x, hx, hr⟩ := hr
    have h2 := h.tt
    rw [hx] at h2
    obtain ⟨x', hx', hxx⟩ := h2.of_some
    cases hr
    exact ⟨_, ⟨x', hx', rfl⟩, h.t, hs _ _ hxx⟩
  | ma =>
    simp only [Prim.run, Option.bind_eq_bind, Option.bind_eq_some_iff] at hr ⊢
    obtain ⟨x, hx, hr⟩ := hr
    have h2 := h.tt
    rw [hx] at h2
    obtain ⟨x', hx', hxx⟩ := h2.of_some
    cases hr
    exact ⟨_, ⟨x', hx', rfl⟩, h.t, hm _ _ _ _ ha hxx⟩
  | mt i =>
    simp only [Prim.run, Option.bind_eq_bind, Option.bind_eq_some_iff] at hr ⊢
    obtain ⟨x, hx, y, hy, hr⟩ := hr
    have h2 := h.tt
    rw [hx] at h2
    obtain ⟨x', hx', hxx⟩ := h2.of_some
    have h3 := forall2_get h.t i
    rw [hy] at h3
    obtain ⟨y', hy', hyy⟩ := h3.of_some
    cases hr
    exact ⟨_, ⟨x', hx', y', hy', rfl⟩, h.t, hm _ _ _ _ hyy hxx⟩

theorem runPrims_rel : ∀ (cs : List Prim) {s : ChainState α} {s' : ChainState β}, SRel R s s' → ∀ {r : ChainState α},
    runPrims sqr mul a cs s = some r → ∃ r', runPrims sqr' mul' a' cs s' = some r' ∧ SRel R r r'
  | [], s, s', h, r, hr => by cases hr; exact ⟨s', rfl, h⟩
  | c :: cs, s, s', h, r, hr => by
    simp only [runPrims, Option.bind_eq_bind, Option.bind_eq_some_iff] at hr ⊢
    obtain ⟨u, hu, hr⟩ := hr
    obtain ⟨u', hu', huu⟩ := Prim.run_rel hs hm ha h c hu
    obtain ⟨r', hr', hrr⟩ := runPrims_rel cs huu hr
    exact ⟨r', ⟨u', hu', hr'⟩, hrr⟩

theorem runChain_rel {size : ℕ} {prog : List Instr} {x : α} (h : runChain sqr mul a size prog = some x) :
    ∃ y, runChain sqr' mul' a' size prog = some y ∧ R x y := by
  simp only [runChain, Option.bind_eq_bind, Option.bind_eq_some_iff] at h ⊢
  obtain ⟨s, h1, h2⟩ := h
  have h0 : SRel R (⟨List.replicate size none, none⟩ : ChainState α) (⟨List.replicate size none, none⟩ : ChainState β) := by
    refine ⟨?_, trivial⟩
    clear h1
    induction size with
    | zero => exact .nil
    | succ n ih => exact .cons trivial ih
  obtain ⟨s', h1', hss⟩ := runPrims_rel hs hm ha _ h0 h1
  have h3 := hss.tt
  rw [h2] at h3
  obtain ⟨y, hy, hxy⟩ := h3.of_some
  exact ⟨y, ⟨s', h1', hy⟩, hxy⟩

end

/-- The exponent a chain computes. -/
def chainExp (size : ℕ) (prog : List Instr) : Option ℕ := runChain (fun e => 2 * e) (fun e f => e + f) 1 size prog

theorem chainExp434 : chainExp 31 chain434 = some ((p434 - 3) / 4) := by decide +kernel
theorem chainExp503 : chainExp 15 chain503 = some ((p503 - 3) / 4) := by decide +kernel
theorem chainExp610 : chainExp 31 chain610 = some ((p610 - 3) / 4) := by decide +kernel
theorem chainExp751 : chainExp 27 chain751 = some ((p751 - 3) / 4) := by decide +kernel

/-- In every monoid the chain computes that power. -/
theorem runChain_pow {M : Type} [CommMonoid M] (a : M) {size : ℕ} {prog : List Instr} {e : ℕ}
    (h : chainExp size prog = some e) : runChain (fun x => x * x) (fun x y => x * y) a size prog = some (a ^ e) := by
  obtain ⟨y, hy, rfl⟩ := runChain_rel (R := fun e x => x = a ^ e) (sqr' := fun x => x * x)
    (mul' := fun x y => x * y) (a' := a) (by rintro x y rfl; rw [two_mul, pow_add])
    (by rintro x y _ _ rfl rfl; rw [pow_add]) (pow_one a).symm h
  exact hy

end Secuer.Field
