import Verif.CMem.Poik

/-!
# Square roots and comparisons on memory

`fp_equal`, `fp2_equal`, `fp2sqrt` of `poik.c` in the portable build.  The local variables of `fp2sqrt` have type `felm_t`; here they
are halves of variables of type `f2elm_t`.
-/

namespace Secuer.CMem

open Secuer.Word Secuer.Field
open Secuer.Curve (Pt Crv Iso)

/-! ## Operations on halves -/

/-- A variable of type `felm_t`: the first or second half of an `f2elm_t` -/
abbrev Half := ℕ × Bool

/-- A half of an element -/
def part (b : Bool) (x : F2) : List Digit := if b then x.c1 else x.c0

/-- The element with one half replaced -/
def setPart (b : Bool) (x : F2) (v : List Digit) : F2 := if b then ⟨x.c0, v⟩ else ⟨v, x.c1⟩

/-- The address of a half, the variables being at `ρ` -/
def hAt (n : ℕ) (ρ : ℕ → ℕ) (v : Half) : ℕ := ρ v.1 + if v.2 then n else 0

/-- The calls in `fp2sqrt` -/
inductive FOp where
  /-- `fpmul_mont(a, b, c)` -/
  | mul (a b c : Half)
  /-- `fpsqr_mont(a, c)` -/
  | sqr (a c : Half)
  /-- `fpadd(a, b, c)` -/
  | add (a b c : Half)
  /-- `fpdiv2(a, c)` -/
  | div2 (a c : Half)
  /-- `fpcorrection(c)` -/
  | corr (c : Half)
  /-- `fpneg(c)` -/
  | neg (c : Half)
  /-- `fpcopy(a, c)` -/
  | copy (a c : Half)
  /-- `fpzero(c)` -/
  | zero (c : Half)
  /-- `fpinv_chain_mont(c)` -/
  | chain (c : Half)

namespace FOp

/-- The variable that is written -/
def dst : FOp → Half
  | mul _ _ c | sqr _ c | add _ _ c | div2 _ c | corr c | neg c | copy _ c | zero c | chain c => c

/-- The variables that are read -/
def srcs : FOp → List Half
  | mul a b _ | add a b _ => [a, b]
  | sqr a _ | div2 a _ | copy a _ => [a]
  | corr c | neg c | chain c => [c]
  | zero _ => []

/-- The value written -/
def val (l : Level) (x : Half → List Digit) : FOp → List Digit
  | mul a b _ => fpmul (tables l) (x a) (x b)
  | sqr a _ => fpsqr (tables l) (x a)
  | add a b _ => fpadd (tables l) (x a) (x b)
  | div2 a _ => fpdiv2 (tables l) (x a)
  | corr c => fpcorrection (tables l) (x c)
  | neg c => fpneg (tables l) (x c)
  | copy a _ => x a
  | zero _ => List.replicate (nw l) 0
  | chain c => fpinvChain (tables l) l.chain (x c)

/-- The call on memory, the variables being at `p`, the stack pointer `sp` -/
def run (l : Level) (p : Half → ℕ) (sp : ℕ) (m : Mem) : FOp → Mem
  | mul a b c => fpmulM (tables l) (p a) (p b) (p c) sp m
  | sqr a c => fpsqrM (tables l) (p a) (p c) sp m
  | add a b c => fpaddM (tables l) (p a) (p b) (p c) m
  | div2 a c => fpdiv2M (tables l) (p a) (p c) m
  | corr c => fpcorrectionM (tables l) (p c) m
  | neg c => fpnegM (tables l) (p c) m
  | copy a c => copyMem (nw l) (p a) (p c) m
  | zero c => fillMem (List.replicate (nw l) 0) (p c) m
  | chain c => fpinvChainM (tables l) l.chain (p c) sp m

/-- The values of the variables after the call -/
def eval (l : Level) (op : FOp) (σ : ℕ → F2) : ℕ → F2 :=
  Function.update σ op.dst.1 (setPart op.dst.2 (σ op.dst.1) (op.val l fun v => part v.2 (σ v.1)))

theorem run_step (l : Level) (op : FOp) (p : Half → ℕ) (s : ℕ) (m : Mem) (hd : p op.dst + nw l ≤ s)
    (hs : ∀ x ∈ op.srcs, p x + nw l ≤ s) (ho : ∀ x ∈ op.srcs, Ok (nw l) (p x) (p op.dst)) :
    Agree s (op.run l p s m) (wr m (p op.dst) (op.val l fun v => rd m (nw l) (p v))) := by
  have g := good l
  have R := Agree.refl s m
  cases op with
  | mul a b c => exact fpmulM_step g R (hs a (by simp [srcs])) (hs b (by simp [srcs])) hd
  | sqr a c => exact fpsqrM_step g R (hs a (by simp [srcs])) hd
  | add a b c =>
    exact fpaddM_step g R (hs a (by simp [srcs])) (hs b (by simp [srcs])) (ho a (by simp [srcs])) (ho b (by simp [srcs]))
  | div2 a c => exact fpdiv2M_step g R (hs a (by simp [srcs])) (ho a (by simp [srcs]))
  | corr c => exact fpcorrectionM_step g R hd
  | neg c => exact fpnegM_step g R hd
  | copy a c => exact copyMem_step R (hs a (by simp [srcs])) (ho a (by simp [srcs]))
  | zero c => exact fillMem_step R _ _
  | chain c => exact fpinvChainM_step g l.chain_exp R hd

theorem val_length (l : Level) (op : FOp) (x : Half → List Digit) (hs : ∀ v ∈ op.srcs, (x v).length = nw l) :
    (op.val l x).length = nw l := by
  have g := good l
  cases op with
  | mul a b c => exact fpmulC_length g (hs a (by simp [srcs])) (hs b (by simp [srcs]))
  | sqr a c => exact fpmulC_length g (hs a (by simp [srcs])) (hs a (by simp [srcs]))
  | add a b c => exact fpaddC_length g (hs a (by simp [srcs])) (hs b (by simp [srcs]))
  | div2 a c => exact fpdiv2_length g (hs a (by simp [srcs]))
  | corr c => exact fpcorrection_length g (hs c (by simp [srcs]))
  | neg c => exact fpneg_length g (hs c (by simp [srcs]))
  | copy a c => exact hs a (by simp [srcs])
  | zero c => simp [val]
  | chain c => exact fpinvChain_length g l.chain_exp (hs c (by simp [srcs]))

end FOp

variable {l : Level} {s k : ℕ} {L : List ℕ}

theorem rd_hAt (m : Mem) (n : ℕ) (ρ : ℕ → ℕ) (v : Half) : rd m n (hAt n ρ v) = part v.2 (rdF n m (ρ v.1)) := by
  rcases v with ⟨i, _ | _⟩ <;> simp [hAt, part, rdF]

/-- Writing one half -/
theorem rdF_wr_half {n : ℕ} {m : Mem} {a : ℕ} {b : Bool} {v : List Digit} (hv : v.length = n) :
    rdF n (wr m (a + if b then n else 0) v) a = setPart b (rdF n m a) v := by
  cases b
  · simp only [rdF, setPart, Bool.false_eq_true, if_false, add_zero]
    rw [rd_wr_same hv, rd_wr_disj (Or.inl (by omega))]
  · simp only [rdF, setPart, if_true]
    rw [rd_wr_same hv, rd_wr_disj (Or.inr (by omega))]

/-- The effect of one call -/
theorem FOp.effect (hL : Layout (nw l) s L) (op : FOp) (hd : op.dst.1 < L.length + k) (hs : ∀ v ∈ op.srcs, v.1 < L.length + k)
    (m : Mem) (σ : ℕ → F2) (hm : Holds (nw l) s L k m σ) :
    Effect (nw l) (loc (nw l) s k) m (op.run l (hAt (nw l) (addr (nw l) s L)) (loc (nw l) s k) m)
      [(addr (nw l) s L op.dst.1, setPart op.dst.2 (σ op.dst.1) (op.val l fun v => part v.2 (σ v.1)))] := by
  have below : ∀ v : Half, v.1 < L.length + k → hAt (nw l) (addr (nw l) s L) v + nw l ≤ loc (nw l) s k := fun v hv => by
    have := addr_below hL hv
    rw [hAt]
    split <;> omega
  have ok : ∀ v : Half, Ok (nw l) (hAt (nw l) (addr (nw l) s L) v) (hAt (nw l) (addr (nw l) s L) op.dst) := fun v => by
    rcases v with ⟨i, b⟩
    rcases op.dst with ⟨j, c⟩
    by_cases hij : i = j
    · subst hij
      cases b <;> cases c
      · exact Or.inl rfl
      · exact Or.inr (Or.inl (by simp [hAt]))
      · exact Or.inr (Or.inr (by simp [hAt]))
      · exact Or.inl rfl
    · have := addr_disj hL hij
      cases b <;> cases c <;> simp only [hAt, Ok, Bool.false_eq_true, if_false, if_true] <;> omega
  have h := op.run_step l (hAt (nw l) (addr (nw l) s L)) (loc (nw l) s k) m (below _ hd) (fun v hv => below v (hs v hv))
    (fun v _ => ok v)
  have e : (op.val l fun v => rd m (nw l) (hAt (nw l) (addr (nw l) s L) v)) = op.val l fun v => part v.2 (σ v.1) := by
    have hx : ∀ v ∈ op.srcs, rd m (nw l) (hAt (nw l) (addr (nw l) s L) v) = part v.2 (σ v.1) := fun v hv => by
      rw [rd_hAt, hm v.1 (hs v hv)]
    cases op <;> simp only [FOp.srcs, List.mem_cons, List.not_mem_nil, or_false, forall_eq_or_imp, forall_eq] at hx <;>
      simp only [FOp.val, hx]
  rw [e] at h
  have hlen : (op.val l fun v => part v.2 (σ v.1)).length = nw l := by
    rw [← e]
    exact op.val_length l _ fun v _ => rd_length _ _ _
  have hb := addr_below hL hd
  refine ⟨fun w hw => ?_, fun x hx hx' => ?_⟩
  · rw [List.mem_singleton] at hw
    subst hw
    simp only
    rw [h.rdF hb, hAt, rdF_wr_half hlen, hm _ hd]
  · rw [h x hx]
    have := hx' _ (List.mem_singleton.2 rfl)
    simp only [hAt] at this ⊢
    by_cases h1 : x < addr (nw l) s L op.dst.1
    · exact wr_of_lt (by omega)
    · by_cases hb2 : op.dst.2 = true
      · exact wr_of_ge (by rw [hlen, if_pos hb2]; omega)
      · exact wr_of_ge (by rw [hlen, if_neg hb2]; omega)

/-- The calls in a list -/
def fruns (l : Level) (p : Half → ℕ) (sp : ℕ) (ops : List FOp) (m : Mem) : Mem := ops.foldl (fun m op => op.run l p sp m) m

/-- The values of the variables after the calls in a list -/
def fevals (l : Level) : List FOp → (ℕ → F2) → ℕ → F2
  | [], σ => σ
  | op :: ops, σ => fevals l ops (op.eval l σ)

theorem Sim.fops (hL : Layout (nw l) s L) : ∀ ops : List FOp,
    (ops.all fun op => decide (op.dst.1 < L.length + k) && op.srcs.all fun v => decide (v.1 < L.length + k)) = true →
    Sim (nw l) s L k (fruns l (hAt (nw l) (addr (nw l) s L)) (loc (nw l) s k) ops) (fevals l ops)
  | [], _ => Sim.skip
  | op :: ops, h => by
    rw [List.all_cons, Bool.and_eq_true, Bool.and_eq_true, decide_eq_true_eq, List.all_eq_true] at h
    obtain ⟨⟨h1, h2⟩, h3⟩ := h
    have one : Sim (nw l) s L k (fun m => op.run l (hAt (nw l) (addr (nw l) s L)) (loc (nw l) s k) m) (op.eval l) :=
      Sim.call hL [op.dst.1] (W := fun σ => [(op.dst.1, setPart op.dst.2 (σ op.dst.1) (op.val l fun v => part v.2 (σ v.1)))])
        (fun _ => rfl) (by simpa using h1) (by simp)
        fun m σ hm => FOp.effect hL op h1 (fun v hv => by simpa using h2 v hv) m σ hm
    exact one.seq (Sim.fops hL ops h3)

/-! ## Comparisons -/

/-- `fp_equal` (`poik.c:78-84`): the result and the memory after the call.  `ct_compare` reads the bytes of `c` and of the constant
`zero`. -/
def fpEqualM (T : Tables) (a b sp : ℕ) (m : Mem) : BitVec 8 × Mem :=
  let c := sp
  let m := fpsubM T a b c m
  let m := fpcorrectionM T c m
  (~~~ Util.ctCompare (digitBytes (rd m T.n c)) (digitBytes (List.replicate T.n 0)), m)

/-- `fp_iszero` (`poik.c:90`), that is `fp_equal(a, *zero)` with the constant `zero` -/
def fpIszeroM (T : Tables) (a sp : ℕ) (m : Mem) : BitVec 8 × Mem :=
  let c := sp
  let r := subTab (List.replicate T.n 0) 0 a c m
  let m := (addTab (masked (maskOf r.1) T.x2) 0 c c r.2).2
  let m := fpcorrectionM T c m
  (~~~ Util.ctCompare (digitBytes (rd m T.n c)) (digitBytes (List.replicate T.n 0)), m)

/-- `fp2_equal` (`poik.c:85-88`), the operands of `&` evaluated from left to right -/
def fp2EqualM (T : Tables) (a b sp : ℕ) (m : Mem) : BitVec 8 × Mem :=
  let r := fpEqualM T a b sp m
  let r' := fpEqualM T (a + T.n) (b + T.n) sp r.2
  (r.1 &&& r'.1, r'.2)

/-- `fp2_iszero` (`poik.c:89`) -/
def fp2IszeroM (T : Tables) (a sp : ℕ) (m : Mem) : BitVec 8 × Mem :=
  let r := fpIszeroM T a sp m
  let r' := fpIszeroM T (a + T.n) sp r.2
  (r.1 &&& r'.1, r'.2)

section
variable {T : Tables} {p : ℕ} (g : Good T p) {a b : ℕ} {m : Mem}
include g

omit g in
theorem agree_wr {v : List Digit} : Agree s (wr m s v) m := fun _ hx => wr_of_lt hx

theorem fpEqualM_spec (ha : a + T.n ≤ s) (hb : b + T.n ≤ s) :
    (fpEqualM T a b s m).1 = fpEqual T (rd m T.n a) (rd m T.n b) ∧ Agree s (fpEqualM T a b s m).2 m := by
  have e1 := fpsubM_eq (T := T) (a := a) (b := b) (c := s) (m := m) g (Or.inr (Or.inl ha)) (Or.inr (Or.inl hb))
  have l1 : (fpsubC T (rd m T.n a) (rd m T.n b)).length = T.n := fpsubC_length g (rd_length _ _ _) (rd_length _ _ _)
  have e2 : fpcorrectionM T s (fpsubM T a b s m) = wr m s (fpcorrection T (fpsubC T (rd m T.n a) (rd m T.n b))) := by
    rw [e1, fpcorrectionM_eq g, rd_wr_same l1, wr_wr_same]
    rw [l1, fpcorrection_length g l1]
  have l2 := fpcorrection_length g l1
  simp only [fpEqualM, fpEqual]
  rw [e2, rd_wr_same l2]
  exact ⟨rfl, agree_wr⟩

theorem fpIszeroM_spec (ha : a + T.n ≤ s) :
    (fpIszeroM T a s m).1 = fpEqual T (rd m T.n a) (List.replicate T.n 0) ∧ Agree s (fpIszeroM T a s m).2 m := by
  have hl := subLoop_length (rd m T.n a) (List.replicate T.n 0) 0 (by simp)
  rw [rd_length] at hl
  have e1 : (addTab (masked (maskOf (subTab (List.replicate T.n 0) 0 a s m).1) T.x2) 0 s s (subTab (List.replicate T.n 0) 0 a s m).2).2 =
      wr m s (fpsubC T (rd m T.n a) (List.replicate T.n 0)) := by
    rw [subTab_eq _ _ _ (by simp) (Or.inr (Or.inl ha)), addTab_eq _ _ _ (by rw [masked_length, g.len_x2]) Ok.refl, rd_wr_same hl,
      wr_wr_same]
    · rfl
    · rw [addLoop_length _ _ _ (by rw [hl, masked_length, g.len_x2])]
  have l1 : (fpsubC T (rd m T.n a) (List.replicate T.n 0)).length = T.n := fpsubC_length g (rd_length _ _ _) (by simp)
  have l2 := fpcorrection_length g l1
  simp only [fpIszeroM, fpEqual]
  rw [e1, fpcorrectionM_eq g, rd_wr_same l1, wr_wr_same (by rw [l1, l2]), rd_wr_same l2]
  exact ⟨rfl, agree_wr⟩

theorem fp2EqualM_spec (ha : a + 2 * T.n ≤ s) (hb : b + 2 * T.n ≤ s) :
    (fp2EqualM T a b s m).1 = fp2equal T (rdF T.n m a) (rdF T.n m b) ∧ Agree s (fp2EqualM T a b s m).2 m := by
  obtain ⟨h1, h2⟩ := fpEqualM_spec (m := m) (a := a) (b := b) (s := s) g (by omega) (by omega)
  obtain ⟨h3, h4⟩ := fpEqualM_spec (m := (fpEqualM T a b s m).2) (a := a + T.n) (b := b + T.n) (s := s) g (by omega) (by omega)
  rw [rd_congr (fun x _ hx => h2 x (by omega)), rd_congr (a := b + T.n) (fun x _ hx => h2 x (by omega))] at h3
  refine ⟨?_, fun x hx => (h4 x hx).trans (h2 x hx)⟩
  simp only [fp2EqualM]
  rw [h1, h3]
  rfl

theorem fp2IszeroM_spec (ha : a + 2 * T.n ≤ s) :
    (fp2IszeroM T a s m).1 = fp2equal T (rdF T.n m a) (fp2zero T) ∧ Agree s (fp2IszeroM T a s m).2 m := by
  obtain ⟨h1, h2⟩ := fpIszeroM_spec (m := m) (a := a) (s := s) g (by omega)
  obtain ⟨h3, h4⟩ := fpIszeroM_spec (m := (fpIszeroM T a s m).2) (a := a + T.n) (s := s) g (by omega)
  rw [rd_congr (fun x _ hx => h2 x (by omega))] at h3
  refine ⟨?_, fun x hx => (h4 x hx).trans (h2 x hx)⟩
  simp only [fp2IszeroM]
  rw [h1, h3]
  rfl

end

/-- A function that changes nothing below the stack pointer passed to it -/
theorem Holds.agree {n : ℕ} {m m' : Mem} {σ : ℕ → F2} (h : Holds n s L k m σ) (hL : Layout n s L) (ha : Agree (loc n s k) m' m) :
    Holds n s L k m' σ := fun i hi => (ha.rdF (addr_below hL hi)).trans (h i hi)

theorem Frame.agree {n : ℕ} {m m' : Mem} (ha : Agree (loc n s k) m' m) : Frame n s L k m m' := fun x hx _ => ha x hx

/-! ## Square roots -/

namespace Sqrt

/-- `a = x[0]` (`poik.c:141`) -/
abbrev a : Half := (0, false)
/-- `b = x[1]` -/
abbrev b : Half := (0, true)
/-- `y[0]` -/
abbrev y0 : Half := (1, false)
/-- `y[1]` -/
abbrev y1 : Half := (1, true)
/-- `felm_t t0` (`poik.c:143`) -/
abbrev t0 : Half := (2, false)
/-- `felm_t t1` (`poik.c:143`) -/
abbrev t1 : Half := (2, true)
/-- `felm_t v` (`poik.c:168`) -/
abbrev v : Half := (3, false)
/-- `felm_t w` (`poik.c:168`) -/
abbrev w : Half := (3, true)
/-- `felm_t t2` (`poik.c:187`) -/
abbrev t2 : Half := (4, false)

end Sqrt

open Sqrt in
/-- The loops `poik.c:148-154`, `174-180` -/
def powM (l : Level) (p : Half → ℕ) (sp : ℕ) (m : Mem) : Mem :=
  let m := (fruns l p sp [.sqr t1 t1])^[l.iso.e2 - 2] m
  (fruns l p sp [.sqr t1 t0, .mul t1 t0 t1])^[l.iso.e3] m

open Sqrt in
/-- `fp2sqrt` (`poik.c:139-205`): the part that writes `y`, with `assert` compiled out -/
def fp2sqrtYM (l : Level) (x y sp : ℕ) (m : Mem) : Mem :=
  let p := hAt (nw l) (addr (nw l) sp [x, y])
  let sp := loc (nw l) sp 3
  let r := fpIszeroM (tables l) (p b) sp m
  let m := r.2
  if r.1 ≠ 0 then
    let m := fruns l p sp [.copy a t1] m
    let m := powM l p sp m
    let m := fruns l p sp [.sqr t1 t0] m
    let r := fpEqualM (tables l) (p t0) (p a) sp m
    let m := r.2
    if r.1 ≠ 0 then fruns l p sp [.copy t1 y0, .zero y1] m
    else fruns l p sp [.neg t0, .copy t1 y1, .zero y0] m
  else
    let m := fruns l p sp [.sqr a t0, .sqr b t1, .add t0 t1 t0, .copy t0 t1] m
    let m := powM l p sp m
    let m := fruns l p sp [.add a t1 v, .div2 v v, .corr v, .copy v t2, .chain t2, .mul v t2 t1, .mul t2 b t2, .div2 t2 t2, .sqr t1 w,
      .corr w] m
    if (digitBytes (rd m (nw l) (p v))).take (Word.half (tables l)) = (digitBytes (rd m (nw l) (p w))).take (Word.half (tables l)) then
      fruns l p sp [.copy t1 y0, .copy t2 y1] m
    else fruns l p sp [.neg t1, .copy t2 y0, .copy t1 y1] m

/-- `fp2sqrt` (`poik.c:139-222`) -/
def fp2sqrtM (l : Level) (known : Bool) (x y sp : ℕ) (m : Mem) : Bool × Mem :=
  let m := fp2sqrtYM l x y sp m
  if known then (true, m)
  else
    let chk := loc (nw l) sp 0
    let sp := loc (nw l) sp 1
    let m := fp2sqrM (tables l) y chk sp m
    let r := fp2EqualM (tables l) chk x sp m
    (decide (r.1 ≠ 0), r.2)

theorem iter_update (i : ℕ) (G : F2 → F2) : ∀ (e : ℕ) (σ : ℕ → F2),
    (fun σ : ℕ → F2 => Function.update σ i (G (σ i)))^[e] σ = Function.update σ i (G^[e] (σ i))
  | 0, σ => by simp
  | e + 1, σ => by
    rw [Function.iterate_succ_apply, Function.iterate_succ_apply, iter_update i G e, Function.update_self, Function.update_idem]

theorem iter_c1 {G : F2 → F2} {g : List Digit → List Digit} (h : ∀ x, (G x).c1 = g x.c1) : ∀ (e : ℕ) (x : F2),
    (G^[e] x).c1 = g^[e] x.c1
  | 0, _ => rfl
  | e + 1, x => by rw [Function.iterate_succ_apply, Function.iterate_succ_apply, iter_c1 h e, h]

/-- What `powM` does to the variables -/
def powEval (l : Level) (σ : ℕ → F2) : ℕ → F2 :=
  (fevals l [.sqr Sqrt.t1 Sqrt.t0, .mul Sqrt.t1 Sqrt.t0 Sqrt.t1])^[l.iso.e3] ((fevals l [.sqr Sqrt.t1 Sqrt.t1])^[l.iso.e2 - 2] σ)

theorem powM_sim (hL : Layout (nw l) s L) (h2 : 2 < L.length + k) :
    Sim (nw l) s L k (powM l (hAt (nw l) (addr (nw l) s L)) (loc (nw l) s k)) (powEval l) :=
  ((Sim.fops hL _ (by simp [FOp.dst, FOp.srcs, h2])).iter _).seq ((Sim.fops hL _ (by simp [FOp.dst, FOp.srcs, h2])).iter _)

/-- One squaring in the first loop, on the variable that holds `t0` and `t1` -/
def sqrStep (l : Level) (x : F2) : F2 := ⟨x.c0, fpsqr (tables l) x.c1⟩

/-- One pass of the second loop -/
def cubeStep (l : Level) (x : F2) : F2 := ⟨fpsqr (tables l) x.c1, fpmul (tables l) x.c1 (fpsqr (tables l) x.c1)⟩

theorem powEval_eq (σ : ℕ → F2) : ∃ j, powEval l σ = Function.update σ 2 ⟨j, powLoops (tables l) (l.iso.e2 - 2) l.iso.e3 (σ 2).c1⟩ := by
  have e1 : fevals l [.sqr Sqrt.t1 Sqrt.t1] = fun σ : ℕ → F2 => Function.update σ 2 (sqrStep l (σ 2)) := by
    funext σ
    simp [fevals, FOp.eval, FOp.dst, FOp.val, part, setPart, sqrStep]
  have e2 : fevals l [.sqr Sqrt.t1 Sqrt.t0, .mul Sqrt.t1 Sqrt.t0 Sqrt.t1] = fun σ : ℕ → F2 => Function.update σ 2 (cubeStep l (σ 2)) := by
    funext σ
    simp [fevals, FOp.eval, FOp.dst, FOp.val, part, setPart, cubeStep]
  rw [powEval, e1, e2, iter_update 2 (sqrStep l), iter_update 2 (cubeStep l), Function.update_self, Function.update_idem]
  generalize hX : (cubeStep l)^[l.iso.e3] ((sqrStep l)^[l.iso.e2 - 2] (σ 2)) = X
  have hc : X.c1 = powLoops (tables l) (l.iso.e2 - 2) l.iso.e3 (σ 2).c1 := by
    rw [← hX, iter_c1 (g := fun t1 => fpmul (tables l) t1 (fpsqr (tables l) t1)) (fun _ => rfl),
      iter_c1 (g := fpsqr (tables l)) (fun _ => rfl)]
    rfl
  exact ⟨X.c0, by rw [← hc]⟩

/-- `fp2sqrt` writes a square root to `y`, and nothing else below the stack pointer. -/
theorem fp2sqrtYM_effect {x y : ℕ} (m : Mem) (hL : Layout (nw l) s [x, y]) :
    Effect (nw l) s m (fp2sqrtYM l x y s m) [(y, fp2sqrtY (tables l) l.chain l.iso.e2 l.iso.e3 (rdF (nw l) m x))] := by
  have g := good l
  have below : ∀ v : Half, v.1 < 5 → hAt (nw l) (addr (nw l) s [x, y]) v + nw l ≤ loc (nw l) s 3 := fun v hv => by
    have := addr_below (k := 3) (i := v.1) hL hv
    rw [hAt]
    split <;> omega
  have done : ∀ {m' : Mem} {σ' : ℕ → F2} {z : F2}, Holds (nw l) s [x, y] 3 m' σ' → Frame (nw l) s [x, y] 3 m m' → σ' 1 = z →
      σ' 0 = rdF (nw l) m x → Effect (nw l) s m m' [(y, z)] := fun {m' σ' z} h1 h2 h3 h4 =>
    h1.effect h2 [(1, z)] [0] rfl rfl (by simpa using h3) (by simpa [start] using h4)
  have H0 : Holds (nw l) s [x, y] 3 m (start (nw l) m [x, y] fun i => rdF (nw l) m (addr (nw l) s [x, y] i)) := holds_start m
  have hx0 : start (nw l) m [x, y] (fun i => rdF (nw l) m (addr (nw l) s [x, y] i)) 0 = rdF (nw l) m x := rfl
  generalize start (nw l) m [x, y] (fun i => rdF (nw l) m (addr (nw l) s [x, y] i)) = σ0 at H0 hx0
  obtain ⟨r1, r2⟩ := fpIszeroM_spec (s := loc (nw l) s 3) (m := m) (a := hAt (nw l) (addr (nw l) s [x, y]) Sqrt.b) g (below _ (by decide))
  have H1 := H0.agree hL r2
  have F1 : Frame (nw l) s [x, y] 3 m (fpIszeroM (tables l) (hAt (nw l) (addr (nw l) s [x, y]) Sqrt.b) (loc (nw l) s 3) m).2 := .agree r2
  have hb : rd m (tables l).n (hAt (nw l) (addr (nw l) s [x, y]) Sqrt.b) = (rdF (nw l) m x).c1 := by
    exact (rd_hAt m (nw l) _ Sqrt.b).trans rfl
  rw [hb] at r1
  simp only [fp2sqrtYM]
  rw [r1]
  generalize (fpIszeroM (tables l) (hAt (nw l) (addr (nw l) s [x, y]) Sqrt.b) (loc (nw l) s 3) m).2 = m1 at H1 F1 ⊢
  have hcode : ∀ u v : List Digit, FpEq.eq (tables l) u v = fpEqual (tables l) u v := fun _ _ => rfl
  simp only [fp2sqrtY, hcode]
  generalize rdF (nw l) m x = X at hx0 done
  by_cases hz : fpEqual (tables l) X.c1 (List.replicate (tables l).n 0) ≠ 0
  · rw [if_pos hz, if_pos hz]
    have S1 := ((Sim.fops (k := 3) hL [.copy Sqrt.a Sqrt.t1] rfl).seq (powM_sim hL (by simp))).seq
      (Sim.fops hL [.sqr Sqrt.t1 Sqrt.t0] rfl)
    have H2 := S1.val _ _ H1
    have F2' := F1.trans (S1.frame _)
    obtain ⟨j, hj⟩ := powEval_eq (l := l) (fevals l [.copy Sqrt.a Sqrt.t1] σ0)
    rw [hj] at H2
    simp only [fevals, FOp.eval, FOp.dst, FOp.val, part, setPart, Function.update_self, Function.update_idem, if_true, Bool.false_eq_true,
      if_false, hx0] at H2
    generalize fruns l (hAt (nw l) (addr (nw l) s [x, y])) (loc (nw l) s 3) [FOp.sqr Sqrt.t1 Sqrt.t0]
                (powM l (hAt (nw l) (addr (nw l) s [x, y])) (loc (nw l) s 3)
                  (fruns l (hAt (nw l) (addr (nw l) s [x, y])) (loc (nw l) s 3) [FOp.copy Sqrt.a Sqrt.t1] m1)) = m2 at H2 F2' ⊢
    generalize powLoops (tables l) (l.iso.e2 - 2) l.iso.e3 X.c0 = u at H2 ⊢
    obtain ⟨q1, q2⟩ := fpEqualM_spec (s := loc (nw l) s 3) (m := m2) (a := hAt (nw l) (addr (nw l) s [x, y]) Sqrt.t0)
      (b := hAt (nw l) (addr (nw l) s [x, y]) Sqrt.a) g (below _ (by decide)) (below _ (by decide))
    have ha : rd m2 (tables l).n (hAt (nw l) (addr (nw l) s [x, y]) Sqrt.a) = X.c0 := by
      refine (rd_hAt m2 (nw l) _ Sqrt.a).trans ?_
      rw [H2 0 (by simp), Function.update_of_ne (by decide), hx0]
      rfl
    have ht : rd m2 (tables l).n (hAt (nw l) (addr (nw l) s [x, y]) Sqrt.t0) = fpsqr (tables l) u := by
      refine (rd_hAt m2 (nw l) _ Sqrt.t0).trans ?_
      rw [H2 2 (by simp), Function.update_self]
      rfl
    rw [ha, ht] at q1
    have H3 := H2.agree hL q2
    have F3 := F2'.trans (Frame.agree q2)
    rw [q1]
    generalize (fpEqualM (tables l) (hAt (nw l) (addr (nw l) s [x, y]) Sqrt.t0) (hAt (nw l) (addr (nw l) s [x, y]) Sqrt.a)
      (loc (nw l) s 3) m2).2 = m3 at H3 F3 ⊢
    by_cases hq : fpEqual (tables l) (fpsqr (tables l) u) X.c0 ≠ 0
    · rw [if_pos hq, if_pos hq]
      have S2 := Sim.fops (k := 3) hL [.copy Sqrt.t1 Sqrt.y0, .zero Sqrt.y1] rfl
      refine done (S2.val _ _ H3) (F3.trans (S2.frame _)) ?_ ?_ <;>
        simp [fevals, FOp.eval, FOp.dst, FOp.val, part, setPart, Function.update, hx0, nw]
    · rw [if_neg hq, if_neg hq]
      have S2 := Sim.fops (k := 3) hL [.neg Sqrt.t0, .copy Sqrt.t1 Sqrt.y1, .zero Sqrt.y0] rfl
      refine done (S2.val _ _ H3) (F3.trans (S2.frame _)) ?_ ?_ <;>
        simp [fevals, FOp.eval, FOp.dst, FOp.val, part, setPart, Function.update, hx0, nw]
  · rw [if_neg hz, if_neg hz]
    have S1 := ((Sim.fops (k := 3) hL [.sqr Sqrt.a Sqrt.t0, .sqr Sqrt.b Sqrt.t1, .add Sqrt.t0 Sqrt.t1 Sqrt.t0, .copy Sqrt.t0 Sqrt.t1] rfl).seq
      (powM_sim hL (by simp))).seq
      (Sim.fops hL [.add Sqrt.a Sqrt.t1 Sqrt.v, .div2 Sqrt.v Sqrt.v, .corr Sqrt.v, .copy Sqrt.v Sqrt.t2, .chain Sqrt.t2,
        .mul Sqrt.v Sqrt.t2 Sqrt.t1, .mul Sqrt.t2 Sqrt.b Sqrt.t2, .div2 Sqrt.t2 Sqrt.t2, .sqr Sqrt.t1 Sqrt.w, .corr Sqrt.w] rfl)
    have H2 := S1.val _ _ H1
    have F2' := F1.trans (S1.frame _)
    obtain ⟨j, hj⟩ := powEval_eq (l := l)
      (fevals l [.sqr Sqrt.a Sqrt.t0, .sqr Sqrt.b Sqrt.t1, .add Sqrt.t0 Sqrt.t1 Sqrt.t0, .copy Sqrt.t0 Sqrt.t1] σ0)
    rw [hj] at H2
    have e0 : (fevals l [.sqr Sqrt.a Sqrt.t0, .sqr Sqrt.b Sqrt.t1, .add Sqrt.t0 Sqrt.t1 Sqrt.t0, .copy Sqrt.t0 Sqrt.t1] σ0 2).c1 =
        fpadd (tables l) (fpsqr (tables l) X.c0) (fpsqr (tables l) X.c1) := by
      simp [fevals, FOp.eval, FOp.dst, FOp.val, part, setPart, Function.update, hx0]
    have e1 : fevals l [.sqr Sqrt.a Sqrt.t0, .sqr Sqrt.b Sqrt.t1, .add Sqrt.t0 Sqrt.t1 Sqrt.t0, .copy Sqrt.t0 Sqrt.t1] σ0 0 = X := by
      simp [fevals, FOp.eval, FOp.dst, Function.update, hx0]
    rw [e0] at H2
    generalize fevals l [.sqr Sqrt.a Sqrt.t0, .sqr Sqrt.b Sqrt.t1, .add Sqrt.t0 Sqrt.t1 Sqrt.t0, .copy Sqrt.t0 Sqrt.t1] σ0 = σ1 at H2 e1
    generalize powLoops (tables l) (l.iso.e2 - 2) l.iso.e3 (fpadd (tables l) (fpsqr (tables l) X.c0) (fpsqr (tables l) X.c1)) = u at H2 ⊢
    generalize hm2 : fruns l (hAt (nw l) (addr (nw l) s [x, y])) (loc (nw l) s 3) [.add Sqrt.a Sqrt.t1 Sqrt.v, .div2 Sqrt.v Sqrt.v,
      .corr Sqrt.v, .copy Sqrt.v Sqrt.t2, .chain Sqrt.t2, .mul Sqrt.v Sqrt.t2 Sqrt.t1, .mul Sqrt.t2 Sqrt.b Sqrt.t2, .div2 Sqrt.t2 Sqrt.t2,
      .sqr Sqrt.t1 Sqrt.w, .corr Sqrt.w]
        (powM l (hAt (nw l) (addr (nw l) s [x, y])) (loc (nw l) s 3)
          (fruns l (hAt (nw l) (addr (nw l) s [x, y])) (loc (nw l) s 3) [.sqr Sqrt.a Sqrt.t0, .sqr Sqrt.b Sqrt.t1,
            .add Sqrt.t0 Sqrt.t1 Sqrt.t0, .copy Sqrt.t0 Sqrt.t1] m1)) = m2 at H2 F2' ⊢
    generalize hv : fpcorrection (tables l) (fpdiv2 (tables l) (fpadd (tables l) X.c0 u)) = v
    generalize hc : fpinvChain (tables l) l.chain v = c
    have hs0 : ∀ σ : ℕ → F2, σ = fevals l [.add Sqrt.a Sqrt.t1 Sqrt.v, .div2 Sqrt.v Sqrt.v,
      .corr Sqrt.v, .copy Sqrt.v Sqrt.t2, .chain Sqrt.t2, .mul Sqrt.v Sqrt.t2 Sqrt.t1, .mul Sqrt.t2 Sqrt.b Sqrt.t2, .div2 Sqrt.t2 Sqrt.t2,
      .sqr Sqrt.t1 Sqrt.w, .corr Sqrt.w] (Function.update σ1 2 ⟨j, u⟩) → σ 0 = X ∧ (σ 2).c1 = fpmul (tables l) v c ∧ (σ 3).c0 = v ∧
        (σ 3).c1 = fpcorrection (tables l) (fpsqr (tables l) (fpmul (tables l) v c)) ∧
        (σ 4).c0 = fpdiv2 (tables l) (fpmul (tables l) c X.c1) := by
      rintro σ rfl
      simp [fevals, FOp.eval, FOp.dst, FOp.val, part, setPart, Function.update, e1, hv, hc]
    obtain ⟨z0, z2, z3, z3', z4⟩ := hs0 _ rfl
    generalize fevals l [.add Sqrt.a Sqrt.t1 Sqrt.v, .div2 Sqrt.v Sqrt.v,
      .corr Sqrt.v, .copy Sqrt.v Sqrt.t2, .chain Sqrt.t2, .mul Sqrt.v Sqrt.t2 Sqrt.t1, .mul Sqrt.t2 Sqrt.b Sqrt.t2, .div2 Sqrt.t2 Sqrt.t2,
      .sqr Sqrt.t1 Sqrt.w, .corr Sqrt.w] (Function.update σ1 2 ⟨j, u⟩) = σ2 at H2 z0 z2 z3 z3' z4
    have rv : rd m2 (nw l) (hAt (nw l) (addr (nw l) s [x, y]) Sqrt.v) = v := by
      rw [rd_hAt, H2 3 (by simp)]
      exact z3
    have rw' : rd m2 (nw l) (hAt (nw l) (addr (nw l) s [x, y]) Sqrt.w) =
        fpcorrection (tables l) (fpsqr (tables l) (fpmul (tables l) v c)) := by
      rw [rd_hAt, H2 3 (by simp)]
      exact z3'
    rw [rv, rw']
    by_cases hq : (digitBytes v).take (Word.half (tables l)) =
        (digitBytes (fpcorrection (tables l) (fpsqr (tables l) (fpmul (tables l) v c)))).take (Word.half (tables l))
    · rw [if_pos hq, if_pos hq]
      have S2 := Sim.fops (k := 3) hL [.copy Sqrt.t1 Sqrt.y0, .copy Sqrt.t2 Sqrt.y1] rfl
      refine done (S2.val _ _ H2) (F2'.trans (S2.frame _)) ?_ ?_ <;>
        simp [fevals, FOp.eval, FOp.dst, FOp.val, part, setPart, Function.update, z0, z2, z4]
    · rw [if_neg hq, if_neg hq]
      have S2 := Sim.fops (k := 3) hL [.neg Sqrt.t1, .copy Sqrt.t2 Sqrt.y0, .copy Sqrt.t1 Sqrt.y1] rfl
      refine done (S2.val _ _ H2) (F2'.trans (S2.frame _)) ?_ ?_ <;>
        simp [fevals, FOp.eval, FOp.dst, FOp.val, part, setPart, Function.update, z0, z2, z4]

/-- `fp2sqrt` … -/
theorem fp2sqrtM_effect {x y : ℕ} (known : Bool) (m : Mem) (hL : Layout (nw l) s [x, y]) :
    (fp2sqrtM l known x y s m).1 = (fp2sqrt (tables l) l.chain l.iso.e2 l.iso.e3 known (rdF (nw l) m x)).2 ∧
    Effect (nw l) s m (fp2sqrtM l known x y s m).2 [(y, (fp2sqrt (tables l) l.chain l.iso.e2 l.iso.e3 known (rdF (nw l) m x)).1)] := by
  have g := good l
  have h := fp2sqrtYM_effect m hL
  simp only [fp2sqrtM, fp2sqrt]
  cases known
  · simp only [Bool.false_eq_true, if_false]
    generalize fp2sqrtYM l x y s m = m1 at h ⊢
    have hy : rdF (nw l) m1 y = _ := h.out _ (List.mem_singleton.2 rfl)
    have hxb := hL.below x (by simp)
    have hyb := hL.below y (by simp)
    have hx : rdF (nw l) m1 x = rdF (nw l) m x := rdF_congr fun z h1 h2 => h.frame z (by omega) fun w hw => by
      rw [List.mem_singleton] at hw
      subst hw
      have := addr_disj (i := 0) (j := 1) hL (by decide)
      simp only [addr] at this
      simp at this ⊢
      omega
    have e0 : loc (nw l) s 0 = s := rfl
    have e1 : loc (nw l) s 1 = s + 2 * (tables l).n := rfl
    have hyb' : y + 2 * (tables l).n ≤ s := hyb
    have hxb' : x + 2 * (tables l).n ≤ s := hxb
    have h2 := fp2sqrM_step (s := loc (nw l) s 1) (a := y) (c := loc (nw l) s 0) g (Agree.refl _ m1) (by omega) (by omega)
      (Or.inr (Or.inl (by omega)))
    have hlen : Len (tables l).n (fp2sqr (tables l) (rdF (tables l).n m1 y)) :=
      runC_len l (.sqr y y) (rdF (nw l) m1) fun _ _ => ⟨rd_length _ _ _, rd_length _ _ _⟩
    obtain ⟨q1, q2⟩ := fp2EqualM_spec (s := loc (nw l) s 1) (m := fp2sqrM (tables l) y (loc (nw l) s 0) (loc (nw l) s 1) m1)
      (a := loc (nw l) s 0) (b := x) g (by omega) (by omega)
    rw [h2.rdF (by omega), h2.rdF (a := x) (by omega), rdF_wrF_same hlen, rdF_wrF_disj hlen (Or.inr (by omega))] at q1
    refine ⟨?_, ?_⟩
    · rw [q1]
      have hx' : rdF (tables l).n m1 x = rdF (nw l) m x := hx
      have hy' : rdF (tables l).n m1 y = fp2sqrtY (tables l) l.chain l.iso.e2 l.iso.e3 (rdF (nw l) m x) := hy
      rw [hx', hy']
    · have hag : Agree s (fp2EqualM (tables l) (loc (nw l) s 0) x (loc (nw l) s 1)
          (fp2sqrM (tables l) y (loc (nw l) s 0) (loc (nw l) s 1) m1)).2 m1 := fun z hz => by
        rw [q2 z (by omega), h2 z (by omega), wrF, wr_of_lt (by omega), wr_of_lt (by omega)]
      refine ⟨fun w hw => ?_, fun z hz hz' => (hag z hz).trans (h.frame z hz hz')⟩
      rw [List.mem_singleton] at hw
      subst hw
      exact (hag.rdF hyb).trans hy
  · exact ⟨rfl, h⟩

end Secuer.CMem
