import Verif.CMem.Alloc
import Verif.Props.MemCliProps

/-!
# Allocation (C105)

What `malloc` and `free` do in `prove.c`, `verify.c` and `test.c`: all that is assumed about `malloc` is that a block it returns is aligned, lies below the
stack and overlaps no block in use.
-/

set_option maxRecDepth 100000

namespace Secuer.MemProps

open Secuer.Word Secuer.Field Secuer.CMem
open Secuer.Text (parse parseFp2)
open Secuer.WCurve (Draw TapeLen fieldTape)
open Secuer.Curve (Out Tape)
open Secuer.Protocol (params Hash)
open Secuer.ChainProps (RightOrder rightOrder_zero)
open Secuer.KeccakProps (shakeHash)
open Secuer.Cli (World Report)

attribute [local instance] Arith.portable

variable {l : Level}

/-! ## Specification -/

/-- Two blocks have no byte in common. -/
def Apart (b c : ℕ × ℕ) : Prop := b.1 + b.2 ≤ c.1 ∨ c.1 + c.2 ≤ b.1

/-- What the C standard says about `malloc` (7.22.3), and that the heap lies below the stack; `E` are the static objects. -/
def MallocOk (A : Malloc) (sp : ℕ) (E : List (ℕ × ℕ)) : Prop :=
  ∀ k L n x, A k L n = some x → 8 ∣ x ∧ x + n ≤ 8 * sp ∧ (∀ b ∈ L, Apart (x, n) b) ∧ ∀ b ∈ E, Apart (x, n) b

/-- The bytes of the block are the same. -/
def SameBlock (m m' : Mem) (b : ℕ × ℕ) : Prop := bytesAt m' b.1 b.2 = bytesAt m b.1 b.2

/-! ## Lemmas -/

/-- The run `a` is the run `b` with a heap that satisfies `P`. -/
def Same {γ : Type} (P : γ → Hp → Prop) : Out ((γ × Hp) × Tape Draw) → Out (γ × Tape Draw) → Prop
  | .ok ((c, s), t), .ok (c', t') => c = c' ∧ t = t' ∧ P c s
  | .abort, .abort => True
  | .ub, .ub => True
  | .starved, .starved => True
  | _, _ => False

theorem Same.ub {γ : Type} {P : γ → Hp → Prop} {a : Out ((γ × Hp) × Tape Draw)} {b : Out (γ × Tape Draw)} (h : Same P a b) : a = .ub ↔ b = .ub := by
  rcases a with ⟨⟨c, s⟩, t⟩ | _ | _ | _ <;> rcases b with ⟨c', t'⟩ | _ | _ | _ <;> simp_all [Same]

theorem Same.ok {γ : Type} {P : γ → Hp → Prop} {b : Out (γ × Tape Draw)} {c : γ} {s : Hp} {t : Tape Draw} (h : Same P (.ok ((c, s), t)) b) :
    b = .ok (c, t) ∧ P c s := by
  rcases b with ⟨c', t'⟩ | _ | _ | _ <;> simp only [Same] at h
  obtain ⟨rfl, rfl, h⟩ := h
  exact ⟨rfl, h⟩

theorem Same.bind {α γ : Type} {P : γ → Hp → Prop} {x : Out (α × Tape Draw)} {f : α → Tape Draw → Out ((γ × Hp) × Tape Draw)}
    {g : α → Tape Draw → Out (γ × Tape Draw)} (h : ∀ a t, x = .ok (a, t) → Same P (f a t) (g a t)) : Same P (bindT x f) (bindT x g) := by
  rcases x with ⟨a, t⟩ | _ | _ | _
  · exact h a t rfl
  · trivial
  · trivial
  · trivial

theorem Same.bind2 {α γ : Type} {Q : α → Hp → Prop} {P : γ → Hp → Prop} {x : Out ((α × Hp) × Tape Draw)} {y : Out (α × Tape Draw)}
    {f : α × Hp → Tape Draw → Out ((γ × Hp) × Tape Draw)} {g : α → Tape Draw → Out (γ × Tape Draw)} (hx : Same Q x y)
    (h : ∀ a s t, y = .ok (a, t) → Q a s → Same P (f (a, s) t) (g a t)) : Same P (bindT x f) (bindT y g) := by
  rcases x with ⟨⟨c, s⟩, t⟩ | _ | _ | _ <;> rcases y with ⟨c', t'⟩ | _ | _ | _ <;> simp only [Same] at hx
  · obtain ⟨rfl, rfl, hq⟩ := hx
    exact h c s t rfl hq
  · trivial
  · trivial
  · trivial

theorem freeing_head {α : Type} {x n k : ℕ} {L : List (ℕ × ℕ)} {a : α} {t : Tape Draw} :
    freeing x ⟨k, (x, n) :: L⟩ a t = .ok ((a, ⟨k, L⟩), t) := by
  simp [freeing, Hp.free]

theorem malloc_none {A : Malloc} {n : ℕ} {s : Hp} (h : A s.calls s.live n = none) : s.malloc A n = (none, ⟨s.calls + 1, s.live⟩) := by
  simp [Hp.malloc, h]

theorem malloc_some {A : Malloc} {n x : ℕ} {s : Hp} (h : A s.calls s.live n = some x) : s.malloc A n = (some x, ⟨s.calls + 1, (x, n) :: s.live⟩) := by
  simp [Hp.malloc, h]

/-- The address of the array of instances that `Prove` gets, as a word address -/
def instOf (A : Malloc) (l : Level) (s : Hp) : Option ℕ := (A s.calls s.live (arraySize l)).map (· / 8)

theorem proveA_same (A : Malloc) (fuel sec prf sp : ℕ) (t : Tape Draw) (m : Mem) (s : Hp) :
    Same (fun _ s' => s'.live = s.live) (proveA A l shakeHash fuel sec prf sp t m s) (proveM l shakeHash fuel sec prf (instOf A l s) sp t m) := by
  unfold proveA instOf
  cases h : A s.calls s.live (arraySize l) with
  | none => rw [malloc_none h]; trivial
  | some a =>
    rw [malloc_some h]
    dsimp only
    rw [Option.map_some]
    generalize proveM l shakeHash fuel sec prf (some (a / 8)) sp t m = o
    rcases o with ⟨m', t'⟩ | _ | _ | _
    · simp only [bindT, freeing_head]
      exact ⟨rfl, rfl, rfl⟩
    · trivial
    · trivial
    · trivial

/-- **C105.** What `free` does in the model: it is undefined exactly if no block in use begins at the address, and otherwise releases one block that does. -/
theorem C105_free {α : Type} (x : ℕ) (s : Hp) (a : α) (t : Tape Draw) :
    (freeing x s a t = .ub ↔ ∀ b ∈ s.live, b.1 ≠ x) ∧
    ∀ r, freeing x s a t = .ok r → ∃ n, s.live.Perm ((x, n) :: r.1.2.live) := by
  unfold freeing Hp.free
  by_cases h : s.live.any (fun b => b.1 == x) = true
  · rw [if_pos h]
    obtain ⟨b, hb, hx⟩ := List.any_eq_true.1 h
    have hx' : b.1 = x := by simpa using hx
    refine ⟨⟨fun e => by simp at e, fun e => absurd hx' (e b hb)⟩, fun r hr => ?_⟩
    simp only [Out.ok.injEq] at hr
    subst hr
    obtain ⟨c, l₁, l₂, -, hc, e1, e2⟩ := List.exists_of_eraseP (p := fun b : ℕ × ℕ => b.1 == x) hb hx
    have hc' : c.1 = x := by simpa using hc
    refine ⟨c.2, ?_⟩
    dsimp only
    rw [e2, e1, ← hc']
    exact List.perm_middle
  · rw [if_neg h]
    refine ⟨⟨fun _ b hb hx => h (List.any_eq_true.2 ⟨b, hb, by simpa using hx⟩), fun _ => rfl⟩, fun r hr => by simp at hr⟩

/-! ## `verify.c` -/

theorem verifyMainA_same (A : Malloc) (fuel sp : ℕ) (w : World) (t : Tape Draw) (m : Mem) (s : Hp) :
    Same (fun _ s' => s'.live = s.live) (verifyMainA A l shakeHash fuel sp w t m s)
      (verifyMainM l shakeHash fuel ((A s.calls s.live (proofSize l)).getD 0) sp { w with memory := (A s.calls s.live (proofSize l)).isSome } t m) := by
  unfold verifyMainA verifyMainM
  cases h : A s.calls s.live (proofSize l) with
  | none =>
    rw [malloc_none h]
    dsimp only
    rw [if_pos (by rfl)]
    exact ⟨rfl, rfl, rfl⟩
  | some x =>
    rw [malloc_some h]
    dsimp only
    rw [if_neg (by simp)]
    match parse (params l) w.stdin with
    | .ub => trivial
    | .fail =>
      dsimp only
      rw [freeing_head]
      exact ⟨rfl, rfl, rfl⟩
    | .ok p _ =>
      refine Same.bind fun q t' _ => ?_
      dsimp only [Option.getD_some]
      by_cases h1 : q.1 = false
      · rw [if_pos h1, if_pos h1, freeing_head]
        exact ⟨rfl, rfl, rfl⟩
      · rw [if_neg h1, if_neg h1]
        split
        · rw [freeing_head]
          exact ⟨rfl, rfl, rfl⟩
        · rw [freeing_head]
          exact ⟨rfl, rfl, rfl⟩

theorem block_same {m m' : Mem} {b : ℕ × ℕ} (h : ∀ y, b.1 ≤ y → y < b.1 + b.2 → bytesAt m' y 1 = bytesAt m y 1) : SameBlock m m' b := bytesAt_ones h

/-- **C105.** The verify tool frees what it allocates, on every way out, frees nothing else, and changes no other block. -/
theorem C105_verify {A : Malloc} {sp : ℕ} {E : List (ℕ × ℕ)} (hA : MallocOk A sp E) (fuel : ℕ) (w : World) (hw : w.stdout.out = []) (t : Tape Draw)
    (ht : TapeLen l t) (m : Mem) (s : Hp) :
    (verifyMainA A l shakeHash fuel sp w t m s = .ub ↔ A s.calls s.live (proofBytes l) ≠ none ∧ parse (params l) w.stdin = .ub) ∧
    ∀ r m' s' t', verifyMainA A l shakeHash fuel sp w t m s = .ok (((r, m'), s'), t') →
      s'.live = s.live ∧ (∀ b ∈ s.live ++ E, b.1 + b.2 ≤ 8 * sp → SameBlock m m' b) ∧
      (A s.calls s.live (proofBytes l) = none → r.status = 1 ∧ m' = m) ∧
      ∀ prf, A s.calls s.live (proofBytes l) = some prf → verifyMainM l shakeHash fuel prf sp { w with memory := true } t m = .ok ((r, m'), t') := by
  have hz := proofSize_eq (l := l)
  have hs := verifyMainA_same (l := l) A fuel sp w t m s
  rw [hz] at hs
  cases h : A s.calls s.live (proofBytes l) with
  | none =>
    rw [h] at hs
    have e : verifyMainM l shakeHash fuel (Option.getD none 0) sp { w with memory := Option.isSome (none : Option ℕ) } t m =
      .ok ((Cli.leave w w.stdout 1 "could not allocate proof structure\n", m), t) := rfl
    rw [e] at hs
    refine ⟨by rw [hs.ub]; simp, fun r m' s' t' e => ?_⟩
    rw [e] at hs
    obtain ⟨e, hl⟩ := hs.ok
    cases e
    exact ⟨hl, fun b _ _ => rfl, fun _ => ⟨rfl, rfl⟩, fun prf e => (by cases e)⟩
  | some prf =>
    rw [h] at hs
    obtain ⟨-, hb, hL, hE⟩ := hA _ _ _ _ h
    have hv := C104_verify (l := l) (sp := sp) (prf := prf) hb fuel { w with memory := true } hw t ht m
    refine ⟨by rw [hs.ub]; exact hv.1.trans (by simp), fun r m' s' t' e => ?_⟩
    rw [e] at hs
    obtain ⟨e, hl⟩ := hs.ok
    refine ⟨hl, fun b hb' hb'' => block_same fun y h1 h2 => ?_, fun e => (by cases e), fun x hx => (by cases hx; exact e)⟩
    have ha : Apart (prf, proofBytes l) b := by
      rcases List.mem_append.1 hb' with h | h
      · exact hL b h
      · exact hE b h
    unfold Apart at ha
    exact (hv.2 _ _ _ e).2.2.2.2.2.2.2.2 y (by omega) (by dsimp only at ha; omega)

/-! ## `prove.c` -/

/-- The blocks that a program gets for a proof and then, in `Prove`, for the instances -/
def heapOf (A : Malloc) (l : Level) (s : Hp) : Heap :=
  match A s.calls s.live (proofSize l) with
  | none => ⟨none, none⟩
  | some x => ⟨some x, instOf A l ⟨s.calls + 1, (x, proofSize l) :: s.live⟩⟩

theorem heapOf_none {A : Malloc} {s : Hp} (h : A s.calls s.live (proofSize l) = none) : heapOf A l s = ⟨none, none⟩ := by simp [heapOf, h]

theorem heapOf_some {A : Malloc} {s : Hp} {x : ℕ} (h : A s.calls s.live (proofSize l) = some x) :
    heapOf A l s = ⟨some x, instOf A l ⟨s.calls + 1, (x, proofSize l) :: s.live⟩⟩ := by simp [heapOf, h]

/-- What `malloc` promises about these blocks -/
theorem heapOf_ok {A : Malloc} {sp : ℕ} {E : List (ℕ × ℕ)} (hA : MallocOk A sp E) (s : Hp) :
    (∀ x, (heapOf A l s).prf = some x → x + proofBytes l ≤ 8 * sp ∧ ∀ b ∈ s.live ++ E, Apart (x, proofBytes l) b) ∧
    (∀ a, (heapOf A l s).inst = some a → 8 * a + arrayBytes l ≤ 8 * sp ∧ (∀ b ∈ s.live ++ E, Apart (8 * a, arrayBytes l) b) ∧
      ∃ x, (heapOf A l s).prf = some x ∧ (x + proofBytes l ≤ 8 * a ∨ 8 * a + arrayBytes l ≤ x)) := by
  have hz := proofSize_eq (l := l)
  have hz' : arraySize l = arrayBytes l := arrayBytes_eq.symm
  cases h : A s.calls s.live (proofSize l) with
  | none =>
    rw [heapOf_none h]
    exact ⟨fun x e => (by cases e), fun a e => (by cases e)⟩
  | some x =>
    rw [heapOf_some h]
    rw [hz] at h
    obtain ⟨-, hb, hL, hE⟩ := hA _ _ _ _ h
    refine ⟨?_, fun a ha => ?_⟩
    · rintro y ⟨⟩
      exact ⟨hb, fun b hb => (List.mem_append.1 hb).elim (hL b) (hE b)⟩
    · unfold instOf at ha
      rw [hz, hz'] at ha
      dsimp only at ha
      obtain ⟨c, hc, rfl⟩ := Option.map_eq_some_iff.1 ha
      obtain ⟨hd, hb', hL', hE'⟩ := hA _ _ _ _ hc
      have e : 8 * (c / 8) = c := Nat.mul_div_cancel' hd
      rw [e]
      refine ⟨hb', fun b hb => (List.mem_append.1 hb).elim (fun h => hL' b (by simp [h])) (hE' b), x, rfl, ?_⟩
      have := hL' (x, proofBytes l) (by simp)
      unfold Apart at this
      dsimp only at this
      omega

theorem proveFromA_same (A : Malloc) (fuel E0 sec sp : ℕ) (w : World) (t : Tape Draw) (m : Mem) (s : Hp) :
    Same (fun _ s' => s'.live = s.live) (proveFromA A l shakeHash fuel E0 sec sp w t m s)
      (proveFromM l shakeHash fuel E0 sec ((heapOf A l s).prf.getD 0) (heapOf A l s).inst sp { w with memory := (heapOf A l s).prf.isSome } t m) := by
  unfold proveFromA proveFromM
  refine Same.bind fun q t' _ => ?_
  by_cases h1 : q.1 = false
  · rw [if_pos h1, if_pos h1]
    exact ⟨rfl, rfl, rfl⟩
  · rw [if_neg h1, if_neg h1]
    cases h : A s.calls s.live (proofSize l) with
    | none =>
      rw [malloc_none h, heapOf_none h]
      dsimp only
      rw [if_pos (by rfl)]
      exact ⟨rfl, rfl, rfl⟩
    | some x =>
      rw [malloc_some h, heapOf_some h]
      dsimp only
      rw [if_neg (by simp)]
      refine Same.bind2 (proveA_same A fuel sec x sp t' q.2 _) fun m' s' t'' _ hs => ?_
      dsimp only [Option.getD_some]
      obtain ⟨k, L⟩ := s'
      dsimp only at hs
      subst hs
      match Text.dumpC w.stdout (rdProof l m' x) with
      | none => trivial
      | some r =>
        dsimp only
        split
        · rw [freeing_head]
          exact ⟨rfl, rfl, rfl⟩
        · rw [freeing_head]
          exact ⟨rfl, rfl, rfl⟩

theorem proveMainA_same (A : Malloc) (fuel : ℕ) (args : List String) (sp : ℕ) (w : World) (t : Tape Draw) (m : Mem) (s : Hp) :
    Same (fun _ s' => s'.live = s.live) (proveMainA A l shakeHash fuel args sp w t m s)
      (proveMainM l shakeHash fuel args ((heapOf A l s).prf.getD 0) (heapOf A l s).inst sp { w with memory := (heapOf A l s).prf.isSome } t m) := by
  unfold proveMainA proveMainM
  dsimp only
  by_cases hi : Cli.wantsInput args = true
  · rw [if_pos hi, if_pos hi]
    match parseFp2 (params l) w.stdin with
    | .ub => trivial
    | .fail => exact ⟨rfl, rfl, rfl⟩
    | .ok v _ => exact proveFromA_same A fuel _ _ _ w t _ s
  · rw [if_neg hi, if_neg hi]
    exact proveFromA_same A fuel _ _ _ w t _ s

/-- Without memory for the proof it does not matter where the blocks would be. -/
theorem proveMainM_none {fuel : ℕ} {args : List String} {prf prf' : ℕ} {inst inst' : Option ℕ} {sp : ℕ} {w : World} {t : Tape Draw} {m : Mem} :
    proveMainM l shakeHash fuel args prf inst sp { w with memory := false } t m = proveMainM l shakeHash fuel args prf' inst' sp { w with memory := false } t m := by
  have hf : ∀ E0 sec sp m, proveFromM l shakeHash fuel E0 sec prf inst sp { w with memory := false } t m =
      proveFromM l shakeHash fuel E0 sec prf' inst' sp { w with memory := false } t m := fun _ _ _ _ => by
    unfold proveFromM
    refine congrArg (bindT _) (funext fun q => funext fun t => ?_)
    dsimp only
    rw [if_pos rfl, if_pos rfl]
  unfold proveMainM
  simp only [hf]

/-- **C105.** The prove tool frees what it allocates, on every way out, frees nothing else, and changes no other block.  (There is room for two
proofs below the stack.) -/
theorem C105_prove {A : Malloc} {sp : ℕ} {E : List (ℕ × ℕ)} (hA : MallocOk A sp E) (hsp : 2 * proofBytes l ≤ 8 * sp) (fuel : ℕ) (args : List String) (w : World)
    (hw : w.stdout.out = []) (t : Tape Draw) (ht : TapeLen l t) (m : Mem) (s : Hp) :
    (proveMainA A l shakeHash fuel args sp w t m s = .ub ↔ args.head? ≠ some "--initial" ∧ parseFp2 (params l) w.stdin = .ub) ∧
    ∀ r m' s' t', proveMainA A l shakeHash fuel args sp w t m s = .ok (((r, m'), s'), t') →
      s'.live = s.live ∧ (∀ b ∈ s.live ++ E, b.1 + b.2 ≤ 8 * sp → SameBlock m m' b) ∧
      ∃ prf inst, ProverHeap l sp prf inst ∧
        proveMainM l shakeHash fuel args prf inst sp { w with memory := (A s.calls s.live (proofBytes l)).isSome } t m = .ok ((r, m'), t') := by
  have hz := proofSize_eq (l := l)
  have hs := proveMainA_same (l := l) A fuel args sp w t m s
  obtain ⟨k1, k2⟩ := heapOf_ok (l := l) hA s
  have hm : (heapOf A l s).prf = A s.calls s.live (proofBytes l) := by
    rw [← hz]
    cases h : A s.calls s.live (proofSize l) with
    | none => rw [heapOf_none h]
    | some x => rw [heapOf_some h]
  have hh : ProverHeap l sp ((heapOf A l s).prf.getD 0) (heapOf A l s).inst := by
    refine ⟨?_, fun a ha => ?_⟩
    · cases h : (heapOf A l s).prf with
      | none => simp only [Option.getD_none]; omega
      | some x => exact (k1 x h).1
    · obtain ⟨h1, -, x, hx, h2⟩ := k2 a ha
      rw [hx]
      exact ⟨h1, h2⟩
  have hp := C104_prove (l := l) hh fuel args { w with memory := (heapOf A l s).prf.isSome } hw t ht m
  refine ⟨hs.ub.trans hp.1, fun r m' s' t' e => ?_⟩
  rw [e] at hs
  obtain ⟨e, hl⟩ := hs.ok
  refine ⟨hl, fun b hb hb' => block_same fun y h1 h2 => ?_, _, _, hh, by rw [← hm]; exact e⟩
  cases h : (heapOf A l s).prf with
  | none =>
    rw [h, show (none : Option ℕ).isSome = false from rfl] at e
    rw [proveMainM_none (prf' := if y < proofBytes l then proofBytes l else 0) (inst' := none)] at e
    have hp' : (if y < proofBytes l then proofBytes l else 0) + proofBytes l ≤ 8 * sp := by split <;> omega
    have hq := C104_prove (l := l) (inst := none) (prf := if y < proofBytes l then proofBytes l else 0) (sp := sp) ⟨hp', fun a ha => by cases ha⟩ fuel args
      { w with memory := false } hw t ht m
    exact (hq.2 _ _ _ e).2.2.2.2.2.2 y (by omega) (by split <;> omega) fun a ha => by cases ha
  | some x =>
    refine (hp.2 _ _ _ e).2.2.2.2.2.2 y (by omega) ?_ fun a ha => ?_
    · rw [h]
      have := (k1 x h).2 b hb
      unfold Apart at this
      dsimp only [Option.getD_some] at this ⊢
      omega
    · have := (k2 a ha).2.1 b hb
      unfold Apart at this
      dsimp only at this
      omega

/-! ## `test.c` -/

/-- The proof that a round of `test.c` leaves behind -/
def left (A : Malloc) (l : Level) (s : Hp) : List (ℕ × ℕ) := (heapOf A l s).prf.toList.map fun x => (x, proofBytes l)

theorem left_cases (A : Malloc) (l : Level) (s : Hp) : (∀ b ∈ left A l s, b.2 = proofBytes l) ∧ (left A l s).length ≤ 1 ∧
    ((∀ k L, A k L (proofBytes l) ≠ none) → (left A l s).length = 1) := by
  have hz := proofSize_eq (l := l)
  unfold left
  cases h : A s.calls s.live (proofSize l) with
  | none =>
    rw [heapOf_none h]
    rw [hz] at h
    exact ⟨by simp, by simp, fun hn => absurd h (hn _ _)⟩
  | some x =>
    rw [heapOf_some h]
    exact ⟨by simp, by simp, fun _ => by simp⟩

theorem heapOf_heapOk {A : Malloc} {E0 sp : ℕ} {E : List (ℕ × ℕ)} (hA : MallocOk A sp E) (hE0 : (E0, 2 * fb l) ∈ E) (s : Hp) : HeapOk l E0 sp (heapOf A l s) := by
  obtain ⟨k1, k2⟩ := heapOf_ok (l := l) hA s
  refine ⟨fun x hx => ⟨(k1 x hx).1, ?_⟩, fun a ha => ⟨(k2 a ha).1, ?_⟩, fun x a hx ha => ?_⟩
  · have := (k1 x hx).2 (E0, 2 * fb l) (by simp [hE0])
    unfold Apart at this
    dsimp only at this
    omega
  · have := (k2 a ha).2.1 (E0, 2 * fb l) (by simp [hE0])
    unfold Apart at this
    dsimp only at this
    omega
  · obtain ⟨y, hy, h⟩ := (k2 a ha).2.2
    cases hx.symm.trans hy
    exact h

theorem kept_block {A : Malloc} {sp : ℕ} {E : List (ℕ × ℕ)} (hA : MallocOk A sp E) {s : Hp} {m m' : Mem} (hk : Kept l sp (heapOf A l s) m m')
    {b : ℕ × ℕ} (hb : b ∈ s.live ++ E) (hb' : b.1 + b.2 ≤ 8 * sp) : SameBlock m m' b := by
  obtain ⟨k1, k2⟩ := heapOf_ok (l := l) hA s
  refine block_same fun y h1 h2 => hk y (by omega) (fun x hx => ?_) fun a ha => ?_
  · have := (k1 x hx).2 b hb
    unfold Apart at this
    dsimp only at this
    omega
  · have := (k2 a ha).2.1 b hb
    unfold Apart at this
    dsimp only at this
    omega

theorem generate_zero {E0 sp : ℕ} (h0 : E0 + 2 * fb l ≤ 8 * sp) {t : Tape Draw} (ht : TapeLen l t) {m : Mem} (hE : strVal l m E0 = 0) {q : Bool × Mem}
    {t' : Tape Draw} (h : generateM l E0 (8 * sp) (sp + secretSize l) t m = .ok (q, t')) : ¬ q.1 = false := by
  have hz := secretSize_eq (l := l)
  have hg := C100_generate (l := l) (s := sp + secretSize l) (E0 := E0) (sec := 8 * sp) (by omega) (by omega) t ht m
  have := (hg.2 q.1 q.2 t' h).1.2 (by rw [hE]; exact rightOrder_zero l)
  simp [this]

theorem testA_same (A : Malloc) (fuel : ℕ) {E0 sp : ℕ} (h0 : E0 + 2 * fb l ≤ 8 * sp) {t : Tape Draw} (ht : TapeLen l t) {m : Mem} (hE : strVal l m E0 = 0)
    (s : Hp) : Same (fun _ s' => s'.live = left A l s ++ s.live) (testA A l shakeHash fuel E0 sp t m s) (testM l shakeHash fuel E0 (heapOf A l s) sp t m) := by
  have hz := proofSize_eq (l := l)
  unfold testA testM left
  refine Same.bind fun q t' hq => ?_
  have hb := generate_zero h0 ht hE hq
  rw [if_neg hb, if_neg hb]
  cases h : A s.calls s.live (proofSize l) with
  | none =>
    rw [malloc_none h, heapOf_none h]
    exact ⟨rfl, rfl, rfl⟩
  | some x =>
    rw [malloc_some h, heapOf_some h]
    refine Same.bind2 (proveA_same A fuel _ x _ t' q.2 _) fun m' s' t'' _ hs => ?_
    refine Same.bind fun r t _ => Same.bind fun r' t _ => ?_
    refine ⟨rfl, rfl, ?_⟩
    rw [hz] at hs
    simpa using hs

theorem benchA_same (A : Malloc) (fuel : ℕ) {E0 sp : ℕ} (h0 : E0 + 2 * fb l ≤ 8 * sp) {t : Tape Draw} (ht : TapeLen l t) {m : Mem} (hE : strVal l m E0 = 0)
    (s : Hp) : Same (fun _ s' => s'.live = left A l s ++ s.live) (benchA A l shakeHash fuel E0 sp t m s) (benchM l shakeHash fuel E0 (heapOf A l s) sp t m) := by
  have hz := proofSize_eq (l := l)
  unfold benchA benchM left
  refine Same.bind fun q t' hq => ?_
  have hb := generate_zero h0 ht hE hq
  rw [if_neg hb, if_neg hb]
  cases h : A s.calls s.live (proofSize l) with
  | none =>
    rw [malloc_none h, heapOf_none h]
    exact ⟨rfl, rfl, rfl⟩
  | some x =>
    rw [malloc_some h, heapOf_some h]
    refine Same.bind2 (proveA_same A fuel _ x _ t' q.2 _) fun m' s' t'' _ hs => ?_
    dsimp only
    generalize verifyM l shakeHash fuel x _ t'' m' = o
    rcases o with ⟨r, t⟩ | _ | _ | _
    · refine ⟨rfl, rfl, ?_⟩
      rw [hz] at hs
      simpa using hs
    · trivial
    · trivial
    · trivial

/-- The blocks in use after `n` rounds: one proof more for every round in which there was memory for it -/
structure Leaks (A : Malloc) (l : Level) (n : ℕ) (s s' : Hp) : Prop where
  more : ∃ B, s'.live = B ++ s.live ∧ (∀ b ∈ B, b.2 = proofBytes l) ∧ B.length ≤ n ∧ ((∀ k L, A k L (proofBytes l) ≠ none) → B.length = n)

theorem Leaks.zero {A : Malloc} {s : Hp} : Leaks A l 0 s s := ⟨[], rfl, by simp, by simp, fun _ => rfl⟩

theorem Leaks.one {A : Malloc} {s s' : Hp} (h : s'.live = left A l s ++ s.live) : Leaks A l 1 s s' :=
  ⟨left A l s, h, left_cases A l s⟩

theorem Leaks.trans {A : Malloc} {n k : ℕ} {s s' s'' : Hp} (h : Leaks A l n s s') (h' : Leaks A l k s' s'') : Leaks A l (n + k) s s'' := by
  obtain ⟨B, h1, h2, h3, h4⟩ := h.more
  obtain ⟨C, k1, k2, k3, k4⟩ := h'.more
  refine ⟨C ++ B, by rw [k1, h1, List.append_assoc], fun b hb => (List.mem_append.1 hb).elim (k2 b) (h2 b), ?_, fun hn => ?_⟩
  · rw [List.length_append]; omega
  · rw [List.length_append, h4 hn, k4 hn]; omega

theorem Leaks.mem {A : Malloc} {n : ℕ} {s s' : Hp} (h : Leaks A l n s s') {E : List (ℕ × ℕ)} {b : ℕ × ℕ} (hb : b ∈ s.live ++ E) : b ∈ s'.live ++ E := by
  obtain ⟨B, h1, -⟩ := h.more
  rw [h1]
  simp only [List.mem_append] at hb ⊢
  tauto

theorem benchLoopA_ok {A : Malloc} {E0 sp : ℕ} {E : List (ℕ × ℕ)} (hA : MallocOk A sp E) (hE0 : (E0, 2 * fb l) ∈ E) (h0 : E0 + 2 * fb l ≤ 8 * sp) (fuel n : ℕ) :
    ∀ (t : Tape Draw), TapeLen l t → ∀ m, strVal l m E0 = 0 → ∀ s, benchLoopA A l shakeHash fuel E0 sp n t m s ≠ .ub ∧
      ∀ r, benchLoopA A l shakeHash fuel E0 sp n t m s = .ok r → Leaks A l n s r.1.2 ∧ ∀ b ∈ s.live ++ E, b.1 + b.2 ≤ 8 * sp → SameBlock m r.1.1 b := by
  induction n with
  | zero =>
    intro t ht m hE s
    refine ⟨by simp [benchLoopA], fun r hr => ?_⟩
    simp only [benchLoopA, Out.ok.injEq] at hr
    subst hr
    exact ⟨Leaks.zero, fun _ _ _ => rfl⟩
  | succ n ih =>
    intro t ht m hE s
    have hh := heapOf_heapOk (l := l) hA hE0 s
    have hs := benchA_same (l := l) A fuel h0 ht hE s
    have hB := C102_bench h0 hh fuel t ht m hE
    refine bindT_ok (fun e => hB.1 (hs.ub.1 e)) fun q t₁ hq => ?_
    obtain ⟨⟨b, m₁⟩, s₁⟩ := q
    rw [hq] at hs
    obtain ⟨e, hl⟩ := hs.ok
    obtain ⟨ht₁, hk, -⟩ := hB.2 _ _ _ e
    have hi := ih t₁ ht₁ m₁ ((hk.strVal h0 hh).trans hE) s₁
    have h1 : Leaks A l 1 s s₁ := Leaks.one hl
    refine ⟨hi.1, fun r hr => ?_⟩
    obtain ⟨i1, i2⟩ := hi.2 r hr
    refine ⟨by rw [Nat.add_comm]; exact h1.trans i1, fun b hb hb' => ?_⟩
    exact (i2 b (h1.mem hb) hb').trans (kept_block hA hk hb hb')

/-- **C105.** `test.c` with `BENCH_LOOPS = n`, from the curve 0 in the static object at `E0`: no undefined behaviour, no other block or static object is
changed or freed, but no proof is freed: if there is always memory for one, then a successful test ends with `n + 1` of them, a failed one with one. -/
theorem C105_test {A : Malloc} {E0 sp : ℕ} {E : List (ℕ × ℕ)} (hA : MallocOk A sp E) (hE0 : (E0, 2 * fb l) ∈ E) (h0 : E0 + 2 * fb l ≤ 8 * sp) (fuel n : ℕ)
    (t : Tape Draw) (ht : TapeLen l t) (m : Mem) (hE : strVal l m E0 = 0) (s : Hp) :
    testMainA A l shakeHash fuel E0 sp n t m s ≠ .ub ∧
    ∀ c m' s' t', testMainA A l shakeHash fuel E0 sp n t m s = .ok (((c, m'), s'), t') →
      (c = 0 ∨ c = 1) ∧ (∀ b ∈ s.live ++ E, b.1 + b.2 ≤ 8 * sp → SameBlock m m' b) ∧
      ∃ B, s'.live = B ++ s.live ∧ (∀ b ∈ B, b.2 = proofBytes l) ∧ B.length ≤ (if c = 0 then n + 1 else 1) ∧
        ((∀ k L, A k L (proofBytes l) ≠ none) → B.length = if c = 0 then n + 1 else 1) := by
  have hh := heapOf_heapOk (l := l) hA hE0 s
  have hs := testA_same (l := l) A fuel h0 ht hE s
  have hT := C102_test h0 hh fuel t ht m hE
  have key : testMainA A l shakeHash fuel E0 sp n t m s ≠ .ub ∧ ∀ r, testMainA A l shakeHash fuel E0 sp n t m s = .ok r →
      (r.1.1.1 = 0 ∨ r.1.1.1 = 1) ∧ (∀ b ∈ s.live ++ E, b.1 + b.2 ≤ 8 * sp → SameBlock m r.1.1.2 b) ∧
      Leaks A l (if r.1.1.1 = 0 then n + 1 else 1) s r.1.2 := by
    refine bindT_ok (fun e => hT.1 (hs.ub.1 e)) fun q t₁ hq => ?_
    obtain ⟨⟨b, m₁⟩, s₁⟩ := q
    rw [hq] at hs
    obtain ⟨e, hl⟩ := hs.ok
    obtain ⟨ht₁, hk, -⟩ := hT.2 _ _ _ e
    have h1 : Leaks A l 1 s s₁ := Leaks.one hl
    cases b with
    | false =>
      dsimp only
      rw [if_pos rfl]
      refine ⟨by simp, fun r hr => ?_⟩
      cases hr
      exact ⟨.inr rfl, fun b hb hb' => kept_block hA hk hb hb', h1⟩
    | true =>
      dsimp only
      rw [if_neg (by simp)]
      have hi := benchLoopA_ok hA hE0 h0 fuel n t₁ ht₁ m₁ ((hk.strVal h0 hh).trans hE) s₁
      refine bindT_ok hi.1 fun r t₂ hr => ⟨by simp, fun r' hr' => ?_⟩
      cases hr'
      obtain ⟨i1, i2⟩ := hi.2 _ hr
      refine ⟨.inl rfl, fun b hb hb' => (i2 b (h1.mem hb) hb').trans (kept_block hA hk hb hb'), ?_⟩
      have := h1.trans i1
      rw [Nat.add_comm] at this
      exact this
  refine ⟨key.1, fun c m' s' t' e => ?_⟩
  obtain ⟨k1, k2, k3⟩ := key.2 _ e
  exact ⟨k1, k2, k3.more⟩

/-! ## The hypotheses can be met -/

/-- An allocator: above all that is in use, in steps of 8, up to the stack -/
def bump (lo sp : ℕ) : Malloc := fun _ L n =>
  let x := 8 * ((L.foldr (fun b y => max (b.1 + b.2) y) lo + 7) / 8)
  if x + n ≤ 8 * sp then some x else none

theorem bump_ok {lo sp : ℕ} {E : List (ℕ × ℕ)} (hE : ∀ b ∈ E, b.1 + b.2 ≤ lo) : MallocOk (bump lo sp) sp E := by
  intro k L n x h
  have hL : lo ≤ L.foldr (fun b y => max (b.1 + b.2) y) lo ∧ ∀ b ∈ L, b.1 + b.2 ≤ L.foldr (fun b y => max (b.1 + b.2) y) lo := by
    clear h
    induction L with
    | nil => simp
    | cons c L ih =>
      refine ⟨le_trans ih.1 (le_max_right _ _), fun b hb => ?_⟩
      rcases List.mem_cons.1 hb with rfl | hb
      · exact le_max_left _ _
      · exact le_trans (ih.2 b hb) (le_max_right _ _)
  unfold bump at h
  dsimp only at h
  generalize L.foldr (fun b y => max (b.1 + b.2) y) lo = y at h hL
  by_cases hc : 8 * ((y + 7) / 8) + n ≤ 8 * sp
  · rw [if_pos hc] at h
    cases h
    refine ⟨Nat.dvd_mul_right _ _, hc, fun b hb => .inr ?_, fun b hb => .inr ?_⟩
    · have := hL.2 b hb
      dsimp only
      omega
    · have := hE b hb
      dsimp only
      omega
  · rw [if_neg hc] at h
    cases h

example (t : Tape Draw) (ht : TapeLen .l434 t) : testMainA (bump 110 1000000) .l434 shakeHash 9 0 1000000 5 t zeroMem ⟨0, []⟩ ≠ .ub := by
  have hf : fb .l434 = 55 := by decide +kernel
  exact (C105_test (l := .l434) (E := [(0, 110)]) (bump_ok (by simp)) (by simp [hf]) (by omega) 9 5 t ht zeroMem (strVal_zeroMem 0) ⟨0, []⟩).1

example (t : Tape Draw) (ht : TapeLen .l503 t) (w : World) (hw : w.stdout.out = []) :
    proveMainA (bump 64 1000000) .l503 shakeHash 9 ["--initial"] 1000000 w t zeroMem ⟨0, [(16, 24)]⟩ ≠ .ub := by
  have hp : 2 * proofBytes .l503 ≤ 8 * 1000000 := by decide +kernel
  intro h
  exact ((C105_prove (l := .l503) (E := [(0, 16)]) (bump_ok (by simp)) hp 9 ["--initial"] w hw t ht zeroMem ⟨0, [(16, 24)]⟩).1.1 h).1 rfl

/-- There is room for the proof. -/
example : bump 64 1000000 0 [(16, 24)] (proofBytes .l503) = some 64 := by
  have hp : proofBytes .l503 ≤ 7000000 := by decide +kernel
  have : 64 + proofBytes .l503 ≤ 8 * 1000000 := by omega
  simp [bump, this]

/-- A second `free` of the same block is undefined in the model. -/
example (t : Tape Draw) : freeing 64 ⟨1, [(16, 24)]⟩ () t = .ub := by rfl

end Secuer.MemProps
