import Verif.CMem.Curve

/-!
# Programs that simulate functions on variables

The variables of a function are its arguments `L` and `k` local variables, all of type `f2elm_t`.  `Sim` says that a program on memory
acts on the values of these variables as a function `F`, and changes nothing else below the stack pointer that it passes on.
-/

namespace Secuer.CMem

open Secuer.Word Secuer.Field
open Secuer.Curve (Pt Crv Iso)

/-- The variables have the values `σ`. -/
def Holds (n s : ℕ) (L : List ℕ) (k : ℕ) (m : Mem) (σ : ℕ → F2) : Prop := ∀ i < L.length + k, rdF n m (addr n s L i) = σ i

/-- Below the stack pointer that is passed on, nothing but the variables has changed. -/
def Frame (n s : ℕ) (L : List ℕ) (k : ℕ) (m m' : Mem) : Prop :=
  ∀ x, x < loc n s k → (∀ i < L.length + k, ¬ (addr n s L i ≤ x ∧ x < addr n s L i + 2 * n)) → m' x = m x

/-- The program `P` acts on the variables as `F`, and changes nothing else. -/
structure Sim (n s : ℕ) (L : List ℕ) (k : ℕ) (P : Mem → Mem) (F : (ℕ → F2) → ℕ → F2) : Prop where
  val : ∀ m σ, Holds n s L k m σ → Holds n s L k (P m) (F σ)
  frame : ∀ m, Frame n s L k m (P m)

variable {n s k : ℕ} {L : List ℕ} {P P' : Mem → Mem} {F F' : (ℕ → F2) → ℕ → F2}

theorem Frame.trans {m m' m'' : Mem} (h : Frame n s L k m m') (h' : Frame n s L k m' m'') : Frame n s L k m m'' :=
  fun x hx hx' => (h' x hx hx').trans (h x hx hx')

theorem Sim.skip : Sim n s L k (fun m => m) (fun σ => σ) := ⟨fun _ _ h => h, fun _ _ _ _ => rfl⟩

theorem Sim.seq (h : Sim n s L k P F) (h' : Sim n s L k P' F') : Sim n s L k (fun m => P' (P m)) (fun σ => F' (F σ)) :=
  ⟨fun m σ hm => h'.val _ _ (h.val m σ hm), fun m x hx hx' => (h'.frame _ x hx hx').trans (h.frame m x hx hx')⟩

theorem Sim.iter (h : Sim n s L k P F) : ∀ e : ℕ, Sim n s L k (P^[e]) (F^[e])
  | 0 => Sim.skip
  | e + 1 => h.seq (h.iter e)

/-- The values after an assignment to several variables -/
def setAll (σ : ℕ → F2) (W : List (ℕ × F2)) : ℕ → F2 := W.foldl (fun σ w => Function.update σ w.1 w.2) σ

theorem setAll_of_not_mem : ∀ (W : List (ℕ × F2)) (σ : ℕ → F2) {i : ℕ}, i ∉ W.map Prod.fst → setAll σ W i = σ i
  | [], _, _, _ => rfl
  | w :: W, σ, i, h => by
    rw [List.map_cons, List.mem_cons, not_or] at h
    rw [setAll, List.foldl_cons, ← setAll, setAll_of_not_mem W _ h.2, Function.update_of_ne h.1]

theorem setAll_of_mem : ∀ (W : List (ℕ × F2)) (σ : ℕ → F2) {w : ℕ × F2}, (W.map Prod.fst).Nodup → w ∈ W → setAll σ W w.1 = w.2
  | v :: W, σ, w, hn, h => by
    rw [List.map_cons, List.nodup_cons] at hn
    rw [setAll, List.foldl_cons, ← setAll]
    rcases List.mem_cons.1 h with rfl | h
    · rw [setAll_of_not_mem W _ hn.1, Function.update_self]
    · exact setAll_of_mem W _ hn.2 h

theorem addr_disj {i j : ℕ} (hL : Layout n s L) (hij : i ≠ j) :
    addr n s L i + 2 * n ≤ addr n s L j ∨ addr n s L j + 2 * n ≤ addr n s L i := by
  have h1 : i < L.length + (i + j + 1) := by omega
  have h2 : j < L.length + (i + j + 1) := by omega
  rcases Nat.eq_zero_or_pos n with hn | hn
  · omega
  · rcases (addr_isVar (s := s) (n := n) h1).sep hL (addr_isVar h2) with e | e
    · exact absurd (addr_inj hn hL e) hij
    · exact e

theorem addr_below {i : ℕ} (hL : Layout n s L) (hi : i < L.length + k) : addr n s L i + 2 * n ≤ loc n s k :=
  (addr_isVar hi).below hL

/-- The arguments of a call are pairwise disjoint if they are different variables. -/
theorem Layout.call (hL : Layout n s L) (k : ℕ) (ι : List ℕ) (hn : ι.Nodup) (hb : (ι.all fun i => decide (i < L.length + k)) = true) :
    Layout n (loc n s k) (ι.map (addr n s L)) := by
  simp only [List.all_eq_true, decide_eq_true_eq] at hb
  refine ⟨fun x hx => ?_, ?_⟩
  · obtain ⟨i, hi, rfl⟩ := List.mem_map.1 hx
    exact addr_below hL (hb i hi)
  · rw [List.pairwise_map]
    exact hn.imp fun hij => addr_disj hL hij

theorem rdF_congr {m m' : Mem} {a : ℕ} (h : ∀ x, a ≤ x → x < a + 2 * n → m x = m' x) : rdF n m a = rdF n m' a := by
  rw [rdF, rdF, rd_congr fun x h1 h2 => h x h1 (by omega), rd_congr fun x h1 h2 => h x (by omega) (by omega)]

theorem rdF_at {m m' : Mem} {a x : ℕ} (h : rdF n m a = rdF n m' a) (h1 : a ≤ x) (h2 : x < a + 2 * n) : m x = m' x := by
  have e0 : rd m n a = rd m' n a := congrArg F2.c0 h
  have e1 : rd m n (a + n) = rd m' n (a + n) := congrArg F2.c1 h
  by_cases hx : x < a + n
  · have := congrArg (·[x - a]?) e0
    simp only [rd_getElem?] at this
    rw [if_pos (by omega), if_pos (by omega), show a + (x - a) = x by omega] at this
    exact Option.some.inj this
  · have := congrArg (·[x - (a + n)]?) e1
    simp only [rd_getElem?] at this
    rw [if_pos (by omega), if_pos (by omega), show a + n + (x - (a + n)) = x by omega] at this
    exact Option.some.inj this

/-- The values of the variables after a call whose effect is known -/
theorem Holds.call {m m' : Mem} {σ : ℕ → F2} (hm : Holds n s L k m σ) (hL : Layout n s L) {W : List (ℕ × F2)}
    (hn : (W.map Prod.fst).Nodup) (he : Effect n (loc n s k) m m' (W.map fun w => (addr n s L w.1, w.2))) :
    Holds n s L k m' (setAll σ W) := by
  intro i hi
  by_cases h : i ∈ W.map Prod.fst
  · obtain ⟨w, hw, rfl⟩ := List.mem_map.1 h
    rw [setAll_of_mem _ _ hn hw]
    exact he.out _ (List.mem_map.2 ⟨w, hw, rfl⟩)
  · rw [setAll_of_not_mem _ _ h, ← hm i hi]
    refine rdF_congr fun x h1 h2 => he.frame x ?_ fun w hw hx => ?_
    · have := addr_below hL hi
      omega
    · obtain ⟨v, hv, rfl⟩ := List.mem_map.1 hw
      have := addr_disj (n := n) (s := s) hL (i := i) (j := v.1) fun e => h (e ▸ List.mem_map.2 ⟨v, hv, rfl⟩)
      omega

theorem Effect.toFrame {m m' : Mem} {W : List (ℕ × F2)} (hb : ((W.map Prod.fst).all fun i => decide (i < L.length + k)) = true)
    (he : Effect n (loc n s k) m m' (W.map fun w => (addr n s L w.1, w.2))) : Frame n s L k m m' := by
  simp only [List.all_eq_true, decide_eq_true_eq] at hb
  refine fun x hx hx' => he.frame x hx fun w hw => ?_
  obtain ⟨v, hv, rfl⟩ := List.mem_map.1 hw
  exact hx' v.1 (hb _ (List.mem_map.2 ⟨v, hv, rfl⟩))

/-- A call whose effect is known -/
theorem Sim.call (hL : Layout n s L) (ι : List ℕ) {W : (ℕ → F2) → List (ℕ × F2)} (hι : ∀ σ, (W σ).map Prod.fst = ι)
    (hb : (ι.all fun i => decide (i < L.length + k)) = true) (hn : ι.Nodup)
    (he : ∀ m σ, Holds n s L k m σ → Effect n (loc n s k) m (P m) ((W σ).map fun w => (addr n s L w.1, w.2))) :
    Sim n s L k P (fun σ => setAll σ (W σ)) :=
  ⟨fun m σ hm => hm.call hL (by rw [hι]; exact hn) (he m σ hm),
    fun m => (he m (fun i => rdF n m (addr n s L i)) fun i _ => rfl).toFrame (by rw [hι]; exact hb)⟩

/-- The values of the variables at the start of a function -/
theorem holds_start (m : Mem) : Holds n s L k m (start n m L fun i => rdF n m (addr n s L i)) := fun i _ => by
  rw [start]
  by_cases hi : i < L.length
  · rw [List.getElem?_eq_getElem hi, addr, dif_pos hi]
    rfl
  · rw [List.getElem?_eq_none (by omega)]
    rfl

/-- The effect of a function that has given its variables the values `σ` -/
theorem Holds.effect {m m' : Mem} {σ : ℕ → F2} (hv : Holds n s L k m' σ) (hf : Frame n s L k m m') (W : List (ℕ × F2)) (rest : List ℕ)
    (hW : ((W.map Prod.fst).all fun i => decide (i < L.length)) = true)
    (hr : ((List.range L.length).all fun i => decide (i ∈ W.map Prod.fst) || decide (i ∈ rest)) = true)
    (hval : ∀ w ∈ W, σ w.1 = w.2)
    (hrest : ∀ i ∈ rest, σ i = start n m L (fun i => rdF n m (addr n s L i)) i) :
    Effect n s m m' (W.map fun w => (addr n s L w.1, w.2)) := by
  simp only [List.all_eq_true, Bool.or_eq_true, decide_eq_true_eq, List.mem_range] at hW hr
  have hm : Holds n s L k m (start n m L fun i => rdF n m (addr n s L i)) := holds_start m
  refine ⟨fun w hw => ?_, fun x hx hx' => ?_⟩
  · obtain ⟨v, hv', rfl⟩ := List.mem_map.1 hw
    have := hW v.1 (List.mem_map.2 ⟨v, hv', rfl⟩)
    exact (hv v.1 (by omega)).trans (hval v hv')
  · by_cases hin : ∃ i < L.length + k, addr n s L i ≤ x ∧ x < addr n s L i + 2 * n
    · obtain ⟨i, hi, h1, h2⟩ := hin
      have hi' : i < L.length := by
        by_contra hc
        rw [addr, dif_neg hc, loc_eq] at h1
        omega
      rcases hr i hi' with hw | hw
      · obtain ⟨w, hw', rfl⟩ := List.mem_map.1 hw
        exact absurd ⟨h1, h2⟩ (hx' _ (List.mem_map.2 ⟨w, hw', rfl⟩))
      · exact rdF_at ((hv i hi).trans ((hrest i hw).trans (hm i hi).symm)) h1 h2
    · exact hf x (by rw [loc_eq]; omega) fun i hi hx2 => hin ⟨i, hi, hx2⟩

/-- The effect of a function whose body simulates `F` -/
theorem Sim.effect (h : Sim n s L k P F) (m : Mem) (W : List (ℕ × F2)) (rest : List ℕ)
    (hW : ((W.map Prod.fst).all fun i => decide (i < L.length)) = true)
    (hr : ((List.range L.length).all fun i => decide (i ∈ W.map Prod.fst) || decide (i ∈ rest)) = true)
    (hval : ∀ junk : ℕ → F2, ∀ w ∈ W, F (start n m L junk) w.1 = w.2)
    (hrest : ∀ junk : ℕ → F2, ∀ i ∈ rest, F (start n m L junk) i = start n m L junk i) :
    Effect n s m (P m) (W.map fun w => (addr n s L w.1, w.2)) :=
  (h.val m _ (holds_start m)).effect (h.frame m) W rest hW hr (hval _) (hrest _)

section
variable {l : Level} [Arith] (X : Exec l)

/-- Calls of field functions -/
theorem Sim.ops (hL : Layout (nw l) s L) (ops : List Op)
    (hops : (ops.all fun op => decide (op.dst < L.length + k) && op.srcs.all fun x => decide (x < L.length + k)) = true) :
    Sim (nw l) s L k (X.runs (loc (nw l) s k) (ops.map (Op.map (addr (nw l) s L)))) (evals l ops) := by
  simp only [List.all_eq_true, Bool.and_eq_true, decide_eq_true_eq] at hops
  have hinj : ∀ i j, addr (nw l) s L i = addr (nw l) s L j → i = j := fun i j => addr_inj (good l).n_pos hL
  have hv : ∀ op ∈ ops.map (Op.map (addr (nw l) s L)), IsVar (nw l) s L k op.dst ∧ ∀ x ∈ op.srcs, IsVar (nw l) s L k x :=
    fun op hop => by
      obtain ⟨o, ho, rfl⟩ := List.mem_map.1 hop
      rw [Op.map_dst, Op.map_srcs]
      refine ⟨addr_isVar (hops o ho).1, fun x hx => ?_⟩
      obtain ⟨y, hy, rfl⟩ := List.mem_map.1 hx
      exact addr_isVar ((hops o ho).2 y hy)
  refine ⟨fun m σ hm i hi => ?_, fun m x hx hx' => ?_⟩
  · obtain ⟨h1, -⟩ := X.runs_values hL (k := k) _ m (rdF (nw l) m) hv fun _ _ => rfl
    rw [h1 _ (addr_isVar hi), evals_map hinj]
    exact evals_congr ops (N := L.length + k) (fun op hop => hops op hop) (fun j hj => hm j hj) i hi
  · obtain ⟨-, h2⟩ := X.runs_values hL (k := k) _ m (rdF (nw l) m) hv fun _ _ => rfl
    refine h2 x hx fun op hop => ?_
    obtain ⟨o, ho, rfl⟩ := List.mem_map.1 hop
    rw [Op.map_dst]
    exact hx' _ (hops o ho).1

end

end Secuer.CMem
