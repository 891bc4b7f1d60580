import Verif.Curve.Algo
import Verif.Curve.Mont

/-!
# Strategy traversal refines the textbook isogeny chain

The textbook algorithm for an isogeny with cyclic kernel `⟨R⟩` of order `ℓ^(n+1)`: `n + 1` times, multiply
`R` by the power of `ℓ` that makes it a point of order `ℓ`, take the isogeny with that kernel, and push `R`
(and `Q`) through it. The code does the same with fewer multiplications, driven by a table. This file
separates the control flow, which depends on the table only (`ctlRows`, a finite computation that can be
run on the shipped tables), from the data flow, which is proved equal to the textbook chain for every table
that passes, every curve and every point.
-/

namespace Secuer.Curve

open Secuer.Mont

/-- Control flow of `stratInner`: indices only. Returns the stack of indices, the index and the rest of the
table. -/
def ctlInner (target : ℕ) : (room : ℕ) → List ℕ → ℕ → List ℕ → Option (List ℕ × ℕ × List ℕ)
  | 0, st, i, ms => if i < target then none else some (st, i, ms)
  | room + 1, st, i, ms =>
    if i < target then
      match ms with
      | [] => none
      | m :: ms => ctlInner target room (i :: st) (i + m) ms
    else some (st, i, ms)

/-- Control flow of `stratRows`, checking that each isogeny is taken at index exactly `MAX - row`. -/
def ctlRows (maxPts : ℕ) : (n : ℕ) → List ℕ → ℕ → List ℕ → Bool
  | 0, _, i, _ => i == 0
  | n + 1, st, i, ms =>
    match ctlInner (n + 1) (maxPts - st.length) st i ms with
    | none => false
    | some (st, i, ms) =>
      match st with
      | [] => false
      | j :: st => i == n + 1 && ctlRows maxPts n st j ms

variable {F : Type} [Field F]

/-- Affine x-coordinate of a pair. -/
def aff (p : Pt F) : F := p.X / p.Z

/-- What is needed of one isogeny step (instantiated below for degrees 3 and 4): `V n A r` says that `r` is
an admissible kernel generator of order `ℓ^n` on the curve with coefficient `A`. -/
structure StratSem {Cv Co : Type} (ops : StratOps F Cv Co) where
  V : ℕ → F → Pt F → Prop
  CvOK : F → Cv → Prop
  /-- multiplication by `ℓ^m` -/
  mulN : F → Pt F → ℕ → Pt F
  /-- codomain and x-map of the step with kernel x-coordinate `x` -/
  cod : F → F → F
  f : F → Pt F → Pt F
  mulN_zero : ∀ A p, mulN A p 0 = p
  mulN_add : ∀ A p a b, mulN A (mulN A p a) b = mulN A p (a + b)
  mulN_congr : ∀ A p q m, PEq p q → PEq (mulN A p m) (mulN A q m)
  f_congr : ∀ x p q, PEq p q → PEq (f x p) (f x q)
  mul_eq : ∀ A cv p m, CvOK A cv → PEq (mulN A p m) (ops.mul cv p m)
  /-- one step at the point `r` multiplied up to order `ℓ` -/
  step : ∀ n A r, V (n + 1) A r →
    V n (cod A (aff (mulN A r n))) (f (aff (mulN A r n)) r) ∧
    (∀ m, PEq (f (aff (mulN A r n)) (mulN A r m))
      (mulN (cod A (aff (mulN A r n))) (f (aff (mulN A r n)) r) m)) ∧
    (∀ k, PEq (mulN A r n) k → CvOK (cod A (aff (mulN A r n))) (ops.get k).1 ∧
      ∀ p, PEq (f (aff (mulN A r n)) p) (ops.eval (ops.get k).2 p))

variable {Cv Co : Type} {ops : StratOps F Cv Co}

/-- The textbook chain: `n` steps, from a generator `r` of order `ℓ^(n+1)`. Returns the coefficient, the image
of `r` (a point of order `ℓ`) and the image of `q`. -/
def StratSem.textbook (S : StratSem ops) : (n : ℕ) → F → Pt F → Option (Pt F) → F × Pt F × Option (Pt F)
  | 0, A, r, q => (A, r, q)
  | n + 1, A, r, q =>
    let x := aff (S.mulN A r (n + 1))
    S.textbook n (S.cod A x) (S.f x r) (q.map (S.f x))

/-- Equality of optional points on the projective line. -/
def OptPEq : Option (Pt F) → Option (Pt F) → Prop
  | none, none => True
  | some p, some q => PEq p q
  | _, _ => False

/-- The stack holds the multiples of `r` its indices say. -/
def StratSem.StackOK (S : StratSem ops) (A : F) (r : Pt F) (stack : List (Pt F × ℕ)) : Prop :=
  ∀ e ∈ stack, PEq (S.mulN A r e.2) e.1

theorem inner_refines (S : StratSem ops) (A : F) (r : Pt F) (target : ℕ) :
    ∀ (room : ℕ) (s : StratState F Cv) (st' : List ℕ) (i' : ℕ) (ms' : List ℕ),
      S.CvOK A s.cv → PEq (S.mulN A r s.index) s.R → S.StackOK A r s.stack →
      ctlInner target room (s.stack.map Prod.snd) s.index s.strat = some (st', i', ms') →
      ∃ s', stratInner ops target room s = some s' ∧ s'.cv = s.cv ∧ s'.Q = s.Q ∧
        s'.stack.map Prod.snd = st' ∧ s'.index = i' ∧ s'.strat = ms' ∧
        PEq (S.mulN A r i') s'.R ∧ S.StackOK A r s'.stack := by
  intro room
  induction room with
  | zero =>
    intro s st' i' ms' hcv hR hst hc
    simp only [ctlInner] at hc
    by_cases h : s.index < target
    · simp [h] at hc
    · simp only [h, if_false, Option.some.injEq, Prod.mk.injEq] at hc
      obtain ⟨rfl, rfl, rfl⟩ := hc
      exact ⟨s, by simp [stratInner, h], rfl, rfl, rfl, rfl, rfl, hR, hst⟩
  | succ room ih =>
    intro s st' i' ms' hcv hR hst hc
    by_cases h : s.index < target
    · cases hm : s.strat with
      | nil => simp [ctlInner, h, hm] at hc
      | cons m ms =>
        simp only [ctlInner, h, if_true, hm] at hc
        obtain ⟨s', h1, h2, h3, h4, h5, h6, h7, h8⟩ := ih
          { s with stack := (s.R, s.index) :: s.stack, R := ops.mul s.cv s.R m, index := s.index + m,
                   strat := ms } st' i' ms' hcv
          (by
            show PEq (S.mulN A r (s.index + m)) (ops.mul s.cv s.R m)
            rw [← S.mulN_add]
            exact (S.mulN_congr A _ _ m hR).trans (S.mul_eq A s.cv s.R m hcv))
          (by
            intro e he
            rcases List.mem_cons.1 he with rfl | he
            · exact hR
            · exact hst e he)
          (by simpa using hc)
        exact ⟨s', by simp only [stratInner, h, if_true, hm]; exact h1, h2, h3, h4, h5, h6, h7, h8⟩
    · simp only [ctlInner, h, if_false, Option.some.injEq, Prod.mk.injEq] at hc
      obtain ⟨rfl, rfl, rfl⟩ := hc
      exact ⟨s, by simp [stratInner, h], rfl, rfl, rfl, rfl, rfl, hR, hst⟩

theorem optPEq_map (S : StratSem ops) (x : F) {q q' : Option (Pt F)} {g : Pt F → Pt F}
    (hg : ∀ p, PEq (S.f x p) (g p)) (h : OptPEq q q') : OptPEq (q.map (S.f x)) (q'.map g) := by
  cases q <;> cases q' <;> simp only [OptPEq, Option.map] at h ⊢
  exact (S.f_congr x _ _ h).trans (hg _)

/-- The strategy loop never leaves its arrays and ends with the values of the textbook chain. -/
theorem rows_refine (S : StratSem ops) (maxPts : ℕ) :
    ∀ (n : ℕ) (A : F) (r : Pt F) (q : Option (Pt F)) (s : StratState F Cv),
      S.V (n + 1) A r → S.CvOK A s.cv → PEq (S.mulN A r s.index) s.R → S.StackOK A r s.stack →
      OptPEq q s.Q → ctlRows maxPts n (s.stack.map Prod.snd) s.index s.strat = true →
      ∃ s', stratRows ops maxPts n s = some s' ∧ S.CvOK (S.textbook n A r q).1 s'.cv ∧
        S.V 1 (S.textbook n A r q).1 (S.textbook n A r q).2.1 ∧
        PEq (S.textbook n A r q).2.1 s'.R ∧ OptPEq (S.textbook n A r q).2.2 s'.Q := by
  intro n
  induction n with
  | zero =>
    intro A r q s hV hcv hR _ hQ h0
    refine ⟨s, rfl, hcv, hV, ?_, hQ⟩
    simp only [ctlRows, beq_iff_eq] at h0
    rw [h0, S.mulN_zero] at hR
    exact hR
  | succ n ih =>
    intro A r q s hV hcv hR hst hQ hc
    simp only [ctlRows, List.length_map] at hc
    cases hi : ctlInner (n + 1) (maxPts - s.stack.length) (s.stack.map Prod.snd) s.index s.strat with
    | none => simp [hi] at hc
    | some v =>
      obtain ⟨st', i', ms'⟩ := v
      rw [hi] at hc
      obtain ⟨s', h1, h2, h3, h4, h5, h6, h7, h8⟩ :=
        inner_refines S A r (n + 1) _ s st' i' ms' hcv hR hst hi
      cases st' with
      | nil => simp at hc
      | cons j st =>
        simp only [Bool.and_eq_true, beq_iff_eq] at hc
        obtain ⟨rfl, hc⟩ := hc
        obtain ⟨hV', hmul, hk⟩ := S.step (n + 1) A r hV
        obtain ⟨hcv', heval⟩ := hk s'.R h7
        cases hs : s'.stack with
        | nil => rw [hs] at h4; simp at h4
        | cons e es =>
          rw [hs] at h4 h8
          simp only [List.map_cons, List.cons.injEq] at h4
          obtain ⟨hj, hst'⟩ := h4
          simp only [stratRows, h1, hs, List.map_cons, StratSem.textbook]
          set x := aff (S.mulN A r (n + 1)) with hx
          have hstack : ∀ e' ∈ e :: es,
              PEq (S.mulN (S.cod A x) (S.f x r) e'.2) (ops.eval (ops.get s'.R).2 e'.1) := by
            intro e' he'
            exact (hmul e'.2).symm.trans ((S.f_congr x _ _ (h8 e' he')).trans (heval _))
          refine ih (S.cod A x) (S.f x r) (q.map (S.f x)) _ hV' hcv' ?_ ?_ ?_ ?_
          · exact hstack e (List.mem_cons_self ..)
          · intro e' he'
            simp only [List.mem_map] at he'
            obtain ⟨e'', he'', rfl⟩ := he'
            exact hstack e'' (List.mem_cons_of_mem _ he'')
          · show OptPEq _ (s'.Q.map _)
            rw [h3]; exact optPEq_map S x heval hQ
          · show ctlRows maxPts n ((es.map _).map Prod.snd) e.2 s'.strat = true
            rw [List.map_map, hj, h6]
            simpa [Function.comp_def, hst'] using hc

end Secuer.Curve
