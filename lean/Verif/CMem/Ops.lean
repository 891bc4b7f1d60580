import Verif.CMem.Fpx
import Verif.WCurve.Model

/-!
# Straight-line code on field elements in memory

The functions of `ec_isogeny.c` and many of `poik.c` are sequences of calls of field functions on variables of type `f2elm_t`.
Such a sequence is a list of `Op`s, whose arguments are addresses.  `Exec.run` executes a call on memory; `Op.val` is the value that
the functional model of the called function gives to the output variable.
-/

namespace Secuer.CMem

open Secuer.Word Secuer.Field

/-- A call of a function on variables of type `f2elm_t`; the last argument is the output, or is updated. -/
inductive Op where
  /-- `mp2_sub_p2(a, b, c);` -/
  | mpsub (a b c : ℕ)
  /-- `mp2_add(a, b, c);` -/
  | mpadd (a b c : ℕ)
  /-- `fp2sub(a, b, c);` -/
  | sub (a b c : ℕ)
  /-- `fp2add(a, b, c);` -/
  | add (a b c : ℕ)
  /-- `fp2mul_mont(a, b, c);` -/
  | mul (a b c : ℕ)
  /-- `fp2sqr_mont(a, c);` -/
  | sqr (a c : ℕ)
  /-- `fp2div2(a, c);` -/
  | div2 (a c : ℕ)
  /-- `fp2copy(a, c);` -/
  | copy (a c : ℕ)
  /-- `fp2inv_mont(c);` -/
  | inv (c : ℕ)
  /-- `fp2neg(c);` -/
  | neg (c : ℕ)
  /-- `fp2zero(c);` -/
  | zero (c : ℕ)
  /-- `fp2one(c);` -/
  | one (c : ℕ)
  /-- `fpadd(c[0], c[0], c[0]);` -/
  | dbl0 (c : ℕ)

/-- The output -/
def Op.dst : Op → ℕ
  | mpsub _ _ c | mpadd _ _ c | sub _ _ c | add _ _ c | mul _ _ c | sqr _ c | div2 _ c | copy _ c | inv c | neg c | zero c | one c
  | dbl0 c => c

/-- The inputs -/
def Op.srcs : Op → List ℕ
  | mpsub a b _ | mpadd a b _ | sub a b _ | add a b _ | mul a b _ => [a, b]
  | sqr a _ | div2 a _ | copy a _ => [a]
  | inv c | neg c | dbl0 c => [c]
  | zero _ | one _ => []

section
variable (l : Level) [Arith]

/-- The value of the output, for the given values of the variables -/
def Op.val (σ : ℕ → F2) : Op → F2
  | mpsub a b _ => mp2subP2 (tables l) (σ a) (σ b)
  | mpadd a b _ => mp2add (σ a) (σ b)
  | sub a b _ => fp2sub (tables l) (σ a) (σ b)
  | add a b _ => fp2add (tables l) (σ a) (σ b)
  | mul a b _ => fp2mul (tables l) (σ a) (σ b)
  | sqr a _ => fp2sqr (tables l) (σ a)
  | div2 a _ => fp2div2 (tables l) (σ a)
  | copy a _ => σ a
  | inv c => fp2inv (tables l) l.chain (σ c)
  | neg c => fp2neg (tables l) (σ c)
  | zero _ => fp2zero (tables l)
  | one _ => fp2one (tables l)
  | dbl0 c => ⟨fpadd (tables l) (σ c).c0 (σ c).c0, (σ c).c1⟩

/-- `NWORDS_FIELD` -/
abbrev nw : ℕ := (tables l).n

/-- The field functions of a build, as programs on memory, with what they have to satisfy: the stack pointer is `s`, all arguments lie
below it, and each input is the output or disjoint from it. -/
structure Exec where
  run : Op → (s : ℕ) → Mem → Mem
  step : ∀ (op : Op) (s : ℕ) (m : Mem), op.dst + 2 * nw l ≤ s → (∀ x ∈ op.srcs, x + 2 * nw l ≤ s) →
    (∀ x ∈ op.srcs, Ok (2 * nw l) x op.dst) → Agree s (run op s m) (wrF (nw l) m op.dst (op.val l (rdF (nw l) m)))
  len : ∀ (op : Op) (σ : ℕ → F2), (∀ x ∈ op.srcs, Len (nw l) (σ x)) → Len (nw l) (op.val l σ)

variable {l}

/-- A sequence of calls, made with the stack pointer `s` -/
def Exec.runs (X : Exec l) (s : ℕ) (ops : List Op) (m : Mem) : Mem := ops.foldl (fun m op => X.run op s m) m

/-- The values of the variables after a sequence of calls -/
def evals (l : Level) [Arith] : List Op → (ℕ → F2) → ℕ → F2
  | [], σ => σ
  | op :: ops, σ => evals l ops (Function.update σ op.dst (op.val l σ))

/-- The arguments `L` of a function: pairwise disjoint, and below the stack pointer.  A function that is called with the same pointer
twice has one entry in `L` for the two. -/
structure Layout (n s : ℕ) (L : List ℕ) : Prop where
  below : ∀ x ∈ L, x + 2 * n ≤ s
  disj : L.Pairwise fun x y => x + 2 * n ≤ y ∨ y + 2 * n ≤ x

omit [Arith] in
theorem Layout.sep {n s : ℕ} {L : List ℕ} (h : Layout n s L) (x : ℕ) (hx : x ∈ L) (y : ℕ) (hy : y ∈ L) : Ok (2 * n) x y := by
  have hd := List.pairwise_iff_getElem.1 h.disj
  obtain ⟨i, hi, rfl⟩ := List.getElem_of_mem hx
  obtain ⟨j, hj, rfl⟩ := List.getElem_of_mem hy
  rcases Nat.lt_trichotomy i j with hij | hij | hij
  · exact Or.inr (hd i j hi hj hij)
  · subst hij
    exact Or.inl rfl
  · exact Or.inr (hd j i hj hi hij).symm

/-- The `i`-th local variable -/
def loc (n s : ℕ) : ℕ → ℕ
  | 0 => s
  | i + 1 => loc n s i + 2 * n

omit [Arith] in
theorem loc_eq (n s : ℕ) : ∀ i, loc n s i = s + i * (2 * n)
  | 0 => by simp [loc]
  | i + 1 => by rw [loc, loc_eq n s i, Nat.add_mul]; omega

/-- An argument or one of `k` local variables -/
def IsVar (n s : ℕ) (L : List ℕ) (k x : ℕ) : Prop := x ∈ L ∨ ∃ i < k, x = loc n s i

theorem IsVar.arg {n s k x : ℕ} {L : List ℕ} (h : x ∈ L) : IsVar n s L k x := Or.inl h

theorem IsVar.loc {n s k i : ℕ} {L : List ℕ} (h : i < k) : IsVar n s L k (CMem.loc n s i) := Or.inr ⟨i, h, rfl⟩

theorem IsVar.below {n s k x : ℕ} {L : List ℕ} (hL : Layout n s L) (h : IsVar n s L k x) : x + 2 * n ≤ CMem.loc n s k := by
  rcases h with h | ⟨i, hi, rfl⟩
  · have := hL.below x h
    simp only [CMem.loc_eq]
    omega
  · have := slot_lt hi (2 * n)
    simp only [CMem.loc_eq]
    omega

theorem IsVar.sep {n s k x y : ℕ} {L : List ℕ} (hL : Layout n s L) (hx : IsVar n s L k x) (hy : IsVar n s L k y) : Ok (2 * n) x y := by
  rcases hx with hx | ⟨i, hi, rfl⟩ <;> rcases hy with hy | ⟨j, hj, rfl⟩
  · exact hL.sep x hx y hy
  · have := hL.below x hx
    unfold Ok
    simp only [CMem.loc_eq]
    omega
  · have := hL.below y hy
    unfold Ok
    simp only [CMem.loc_eq]
    omega
  · rcases Nat.lt_trichotomy i j with h | h | h
    · have := slot_lt h (2 * n)
      unfold Ok
      simp only [CMem.loc_eq]
      omega
    · exact Or.inl (by rw [h])
    · have := slot_lt h (2 * n)
      unfold Ok
      simp only [CMem.loc_eq]
      omega

theorem Op.val_congr {σ τ : ℕ → F2} (op : Op) (h : ∀ x ∈ op.srcs, σ x = τ x) : op.val l σ = op.val l τ := by
  cases op <;> simp_all [Op.val, Op.srcs]

/-- The values of all variables after a sequence of calls, and what has not changed -/
theorem Exec.runs_values (X : Exec l) {s k : ℕ} {L : List ℕ} (hL : Layout (nw l) s L) : ∀ (ops : List Op) (m : Mem) (σ : ℕ → F2),
    (∀ op ∈ ops, IsVar (nw l) s L k op.dst ∧ ∀ x ∈ op.srcs, IsVar (nw l) s L k x) →
    (∀ x, IsVar (nw l) s L k x → rdF (nw l) m x = σ x) →
    (∀ x, IsVar (nw l) s L k x → rdF (nw l) (X.runs (loc (nw l) s k) ops m) x = evals l ops σ x) ∧
    ∀ x < loc (nw l) s k, (∀ op ∈ ops, ¬ (op.dst ≤ x ∧ x < op.dst + 2 * nw l)) → X.runs (loc (nw l) s k) ops m x = m x
  | [], _, _, _, h => ⟨h, fun _ _ _ => rfl⟩
  | op :: ops, m, σ, hops, h => by
    obtain ⟨hd, hs⟩ := hops op (by simp)
    have hstep := X.step op (loc (nw l) s k) m (hd.below hL) (fun x hx => (hs x hx).below hL) (fun x hx => (hs x hx).sep hL hd)
    have hlen := X.len op (rdF (nw l) m) fun x _ => rdF_len _ _ _
    have hval : op.val l (rdF (nw l) m) = op.val l σ := Op.val_congr op fun x hx => h x (hs x hx)
    rw [hval] at hstep hlen
    obtain ⟨h1, h2⟩ := X.runs_values hL ops (X.run op (loc (nw l) s k) m) (Function.update σ op.dst (op.val l σ))
      (fun o ho => hops o (by simp [ho])) (fun x hx => by
        rw [hstep.rdF (hx.below hL)]
        rcases hx.sep hL hd with rfl | hne
        · rw [rdF_wrF_same hlen, Function.update_self]
        · have hn : 0 < nw l := (good l).n_pos
          rw [rdF_wrF_disj hlen (by omega), Function.update_of_ne (by omega), h x hx])
    refine ⟨h1, fun x hx hx' => ?_⟩
    have h3 := h2 x hx fun o ho => hx' o (by simp [ho])
    have h4 := hx' op (by simp)
    have l0 := hlen.c0
    have l1 := hlen.c1
    rw [show X.runs (loc (nw l) s k) (op :: ops) m = X.runs (loc (nw l) s k) ops (X.run op (loc (nw l) s k) m) from rfl, h3,
      hstep x hx]
    have hw' : x < op.dst ∨ op.dst + 2 * nw l ≤ x := by omega
    rcases hw' with hw' | hw'
    · simp only [wrF]
      rw [wr_of_lt (by omega), wr_of_lt (by omega)]
    · simp only [wrF]
      rw [wr_of_ge (by omega), wr_of_ge (by omega)]

/-- What a function does, from memory `m` to memory `m'`: the variables listed in `W` get the values given there, and nothing else below the
stack pointer `s` changes. -/
structure Effect (n s : ℕ) (m m' : Mem) (W : List (ℕ × F2)) : Prop where
  out : ∀ w ∈ W, rdF n m' w.1 = w.2
  frame : ∀ x < s, (∀ w ∈ W, ¬ (w.1 ≤ x ∧ x < w.1 + 2 * n)) → m' x = m x

/-- The calls with other variables -/
def Op.map (ρ : ℕ → ℕ) : Op → Op
  | mpsub a b c => mpsub (ρ a) (ρ b) (ρ c)
  | mpadd a b c => mpadd (ρ a) (ρ b) (ρ c)
  | sub a b c => sub (ρ a) (ρ b) (ρ c)
  | add a b c => add (ρ a) (ρ b) (ρ c)
  | mul a b c => mul (ρ a) (ρ b) (ρ c)
  | sqr a c => sqr (ρ a) (ρ c)
  | div2 a c => div2 (ρ a) (ρ c)
  | copy a c => copy (ρ a) (ρ c)
  | inv c => inv (ρ c)
  | neg c => neg (ρ c)
  | zero c => zero (ρ c)
  | one c => one (ρ c)
  | dbl0 c => dbl0 (ρ c)

omit [Arith] in
theorem Op.map_dst (ρ : ℕ → ℕ) (op : Op) : (op.map ρ).dst = ρ op.dst := by cases op <;> rfl

omit [Arith] in
theorem Op.map_srcs (ρ : ℕ → ℕ) (op : Op) : (op.map ρ).srcs = op.srcs.map ρ := by cases op <;> rfl

theorem Op.map_val (ρ : ℕ → ℕ) (op : Op) (σ : ℕ → F2) : (op.map ρ).val l σ = op.val l (σ ∘ ρ) := by cases op <;> rfl

/-- The addresses of the variables: the arguments first, then the local variables -/
def addr (n s : ℕ) (L : List ℕ) (i : ℕ) : ℕ := if h : i < L.length then L[i] else loc n s (i - L.length)

theorem addr_isVar {n s k i : ℕ} {L : List ℕ} (h : i < L.length + k) : IsVar n s L k (addr n s L i) := by
  unfold addr
  split
  · exact .arg (List.getElem_mem _)
  · exact .loc (by omega)

theorem addr_inj {n s i j : ℕ} {L : List ℕ} (hn : 0 < n) (hL : Layout n s L) (h : addr n s L i = addr n s L j) : i = j := by
  have hd := List.pairwise_iff_getElem.1 hL.disj
  unfold addr at h
  split at h <;> split at h
  · rename_i hi hj
    rcases Nat.lt_trichotomy i j with hij | hij | hij
    · have := hd i j hi hj hij
      omega
    · exact hij
    · have := hd j i hj hi hij
      omega
  · rename_i hi hj
    have := hL.below _ (List.getElem_mem hi)
    simp only [loc_eq] at h
    omega
  · rename_i hi hj
    have := hL.below _ (List.getElem_mem hj)
    simp only [loc_eq] at h
    omega
  · rename_i hi hj
    simp only [loc_eq] at h
    have := Nat.eq_of_mul_eq_mul_right (by omega) (Nat.add_left_cancel h)
    omega

theorem evals_map {ρ : ℕ → ℕ} (hρ : ∀ i j, ρ i = ρ j → i = j) : ∀ (ops : List Op) (σ : ℕ → F2) (i : ℕ),
    evals l (ops.map (Op.map ρ)) σ (ρ i) = evals l ops (σ ∘ ρ) i
  | [], _, _ => rfl
  | op :: ops, σ, i => by
    rw [List.map_cons, evals, evals, evals_map hρ ops, Op.map_dst, Op.map_val]
    congr 1
    funext j
    by_cases h : j = op.dst
    · subst h
      simp
    · rw [Function.comp_apply, Function.update_of_ne (fun e => h (hρ _ _ e)), Function.update_of_ne h, Function.comp_apply]

theorem evals_congr {N : ℕ} : ∀ (ops : List Op) {σ τ : ℕ → F2}, (∀ op ∈ ops, op.dst < N ∧ ∀ x ∈ op.srcs, x < N) →
    (∀ i < N, σ i = τ i) → ∀ i < N, evals l ops σ i = evals l ops τ i
  | [], _, _, _, h, i, hi => h i hi
  | op :: ops, σ, τ, hops, h, i, hi => by
    refine evals_congr ops (fun o ho => hops o (by simp [ho])) (fun j hj => ?_) i hi
    rw [Op.val_congr op fun x hx => h x ((hops op (by simp)).2 x hx)]
    by_cases hj' : j = op.dst
    · subst hj'
      rw [Function.update_self, Function.update_self]
    · rw [Function.update_of_ne hj', Function.update_of_ne hj', h j hj]

/-- The values of the variables at the start; those of the local variables are arbitrary. -/
def start (n : ℕ) (M : Mem) (L : List ℕ) (junk : ℕ → F2) (i : ℕ) : F2 := (L[i]?).elim (junk i) (rdF n M)

/-- The effect of a function with arguments `L` and `k` local variables, given as a list of calls on the variables `0, 1, ...`. -/
theorem Exec.prog (X : Exec l) {s k : ℕ} {L : List ℕ} (m : Mem) (hL : Layout (nw l) s L) (ops : List Op)
    (W : List (ℕ × F2)) (hops : (ops.all fun op => decide (op.dst < L.length + k) && op.srcs.all fun x => decide (x < L.length + k)) = true)
    (hdst : (ops.all fun op => decide (op.dst ∈ W.map Prod.fst) || decide (L.length ≤ op.dst)) = true)
    (hW : ((W.map Prod.fst).all fun i => decide (i < L.length)) = true)
    (hval : ∀ junk : ℕ → F2, ∀ w ∈ W, evals l ops (start (nw l) m L junk) w.1 = w.2) :
    Effect (nw l) s m (X.runs (loc (nw l) s k) (ops.map (Op.map (addr (nw l) s L))) m)
      (W.map fun w => (addr (nw l) s L w.1, w.2)) := by
  simp only [List.all_eq_true, Bool.and_eq_true, Bool.or_eq_true, decide_eq_true_eq] at hops hdst hW
  have hinj : ∀ i j, addr (nw l) s L i = addr (nw l) s L j → i = j := fun i j => addr_inj (good l).n_pos hL
  obtain ⟨h1, h2⟩ := X.runs_values hL (k := k) (ops.map (Op.map (addr (nw l) s L))) m (rdF (nw l) m)
    (fun op hop => by
      obtain ⟨o, ho, rfl⟩ := List.mem_map.1 hop
      rw [Op.map_dst, Op.map_srcs]
      refine ⟨addr_isVar (hops o ho).1, fun x hx => ?_⟩
      obtain ⟨y, hy, rfl⟩ := List.mem_map.1 hx
      exact addr_isVar ((hops o ho).2 y hy)) fun _ _ => rfl
  refine ⟨fun w hw => ?_, fun x hx hx' => h2 x (by rw [loc_eq]; omega) fun op hop hx2 => ?_⟩
  · obtain ⟨v, hv, rfl⟩ := List.mem_map.1 hw
    have hv1 := hW v.1 (List.mem_map.2 ⟨v, hv, rfl⟩)
    simp only
    rw [h1 _ (addr_isVar (by omega)), evals_map hinj, ← hval (fun i => rdF (nw l) m (addr (nw l) s L i)) v hv]
    congr 1
    funext i
    rw [Function.comp_apply, start]
    by_cases hi : i < L.length
    · rw [List.getElem?_eq_getElem hi, addr, dif_pos hi]
      rfl
    · rw [List.getElem?_eq_none (by omega)]
      rfl
  · obtain ⟨o, ho, rfl⟩ := List.mem_map.1 hop
    rw [Op.map_dst] at hx2
    rcases hdst o ho with hd | hd
    · obtain ⟨w, hw, e⟩ := List.mem_map.1 hd
      exact hx' (addr (nw l) s L w.1, w.2) (List.mem_map.2 ⟨w, hw, rfl⟩) (by simp only [e]; exact hx2)
    · rw [addr, dif_neg (by omega)] at hx2
      simp only [loc_eq] at hx2
      omega

end

/-- The calls of the portable build -/
def runC (l : Level) (op : Op) (s : ℕ) (m : Mem) : Mem :=
  match op with
  | .mpsub a b c => mp2subP2M (tables l) a b c m
  | .mpadd a b c => mp2addM (tables l) a b c m
  | .sub a b c => fp2subM (tables l) a b c m
  | .add a b c => fp2addM (tables l) a b c m
  | .mul a b c => fp2mulM (tables l) a b c s m
  | .sqr a c => fp2sqrM (tables l) a c s m
  | .div2 a c => fp2div2M (tables l) a c m
  | .copy a c => fp2copyM (tables l) a c m
  | .inv c => fp2invM (tables l) l.chain c s m
  | .neg c => fp2negM (tables l) c m
  | .zero c => fp2zeroM (tables l) c m
  | .one c => fp2oneM (tables l) c m
  | .dbl0 c => fpaddM (tables l) c c c m

theorem runC_step (l : Level) (op : Op) (s : ℕ) (m : Mem) (hd : op.dst + 2 * nw l ≤ s) (hs : ∀ x ∈ op.srcs, x + 2 * nw l ≤ s)
    (ho : ∀ x ∈ op.srcs, Ok (2 * nw l) x op.dst) : Agree s (runC l op s m) (wrF (nw l) m op.dst (op.val l (rdF (nw l) m))) := by
  have g := good l
  have R := Agree.refl s m
  cases op with
  | mpsub a b c => exact mp2subP2M_step g R (hs a (by simp [Op.srcs])) (hs b (by simp [Op.srcs])) (ho a (by simp [Op.srcs])) (ho b (by simp [Op.srcs]))
  | mpadd a b c => exact mp2addM_step g R (hs a (by simp [Op.srcs])) (hs b (by simp [Op.srcs])) (ho a (by simp [Op.srcs])) (ho b (by simp [Op.srcs]))
  | sub a b c => exact fp2subM_step g R (hs a (by simp [Op.srcs])) (hs b (by simp [Op.srcs])) (ho a (by simp [Op.srcs])) (ho b (by simp [Op.srcs]))
  | add a b c => exact fp2addM_step g R (hs a (by simp [Op.srcs])) (hs b (by simp [Op.srcs])) (ho a (by simp [Op.srcs])) (ho b (by simp [Op.srcs]))
  | mul a b c => exact fp2mulM_step g R (hs a (by simp [Op.srcs])) (hs b (by simp [Op.srcs])) hd
  | sqr a c => exact fp2sqrM_step g R (hs a (by simp [Op.srcs])) hd (ho a (by simp [Op.srcs]))
  | div2 a c => exact fp2div2M_step g R (hs a (by simp [Op.srcs])) (ho a (by simp [Op.srcs]))
  | copy a c => exact fp2copyM_step g R (hs a (by simp [Op.srcs])) (ho a (by simp [Op.srcs]))
  | inv c => exact fp2invM_step g l.chain_exp R hd
  | neg c => exact fp2negM_step g R hd
  | zero c => exact fp2zeroM_step R
  | one c => exact fp2oneM_step R
  | dbl0 c =>
    have h1 := fpaddM_step g R (a := c) (b := c) (c := c) (by simp only [Op.dst, nw] at hd; omega) (by simp only [Op.dst, nw] at hd; omega)
      Ok.refl Ok.refl
    have l0 : (fpaddC (tables l) (rd m (nw l) c) (rd m (nw l) c)).length = nw l :=
      fpaddC_length g (rd_length m (nw l) c) (rd_length m (nw l) c)
    have e : wrF (nw l) m c ⟨fpaddC (tables l) (rd m (nw l) c) (rd m (nw l) c), rd m (nw l) (c + nw l)⟩ =
        wr m c (fpaddC (tables l) (rd m (nw l) c) (rd m (nw l) c)) := by
      rw [wrF]
      conv_rhs => rw [← wr_rd (wr m c (fpaddC (tables l) (rd m (nw l) c) (rd m (nw l) c))) (nw l) (c + nw l)]
      rw [rd_wr_disj (b := c + nw l) (by omega)]
    simp only [Op.dst, Op.val, rdF]
    rw [show fpadd (tables l) (rd m (nw l) c) (rd m (nw l) c) = fpaddC (tables l) (rd m (nw l) c) (rd m (nw l) c) from rfl, e]
    exact h1

theorem runC_len (l : Level) (op : Op) (σ : ℕ → F2) (hs : ∀ x ∈ op.srcs, Len (nw l) (σ x)) : Len (nw l) (op.val l σ) := by
  have g := good l
  cases op with
  | mpsub a b c =>
    have h1 := hs a (by simp [Op.srcs]); have h2 := hs b (by simp [Op.srcs])
    exact ⟨subP2C_length g h1.c0 h2.c0, subP2C_length g h1.c1 h2.c1⟩
  | mpadd a b c =>
    have h1 := hs a (by simp [Op.srcs]); have h2 := hs b (by simp [Op.srcs])
    exact ⟨mpAddfastC_length g h1.c0 h2.c0, mpAddfastC_length g h1.c1 h2.c1⟩
  | sub a b c =>
    have h1 := hs a (by simp [Op.srcs]); have h2 := hs b (by simp [Op.srcs])
    exact ⟨fpsubC_length g h1.c0 h2.c0, fpsubC_length g h1.c1 h2.c1⟩
  | add a b c =>
    have h1 := hs a (by simp [Op.srcs]); have h2 := hs b (by simp [Op.srcs])
    exact ⟨fpaddC_length g h1.c0 h2.c0, fpaddC_length g h1.c1 h2.c1⟩
  | mul a b c => exact fp2mulC_len g (hs a (by simp [Op.srcs])) (hs b (by simp [Op.srcs]))
  | sqr a c =>
    have h1 := hs a (by simp [Op.srcs])
    exact ⟨fpmulC_length g (mpAddfastC_length g h1.c0 h1.c1) (subP4_length g h1.c0 h1.c1),
      fpmulC_length g (mpAddfastC_length g h1.c0 h1.c0) h1.c1⟩
  | div2 a c =>
    have h1 := hs a (by simp [Op.srcs])
    exact ⟨fpdiv2_length g h1.c0, fpdiv2_length g h1.c1⟩
  | copy a c => exact hs a (by simp [Op.srcs])
  | inv c => exact fp2inv_len g l.chain_exp (hs c (by simp [Op.srcs]))
  | neg c =>
    have h1 := hs c (by simp [Op.srcs])
    exact ⟨fpneg_length g h1.c0, fpneg_length g h1.c1⟩
  | zero c => exact ⟨by simp [Op.val, fp2zero], by simp [Op.val, fp2zero]⟩
  | one c => exact ⟨by simp [Op.val, fp2one, g.len_one], by simp [Op.val, fp2one]⟩
  | dbl0 c =>
    have h1 := hs c (by simp [Op.srcs])
    exact ⟨fpaddC_length g h1.c0 h1.c0, h1.c1⟩


/-- The portable build -/
def portable (l : Level) : Exec l := ⟨runC l, runC_step l, runC_len l⟩

end Secuer.CMem
