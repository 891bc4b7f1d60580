import Verif.X64.Call
import Verif.Word.Fp2

/-!
# Claims about the result of a function

The equations the checker finds, as statements about the words in memory.
-/

namespace Secuer.X64

open Secuer.Word (val val_lt val_append val_inj)

theorem below_sound {ρ : ℕ → ℕ} {σ : Sym} (hb : Poly.Bnd ρ σ.next σ.ubs) {u : ℕ} {vs : List ℕ} (h : σ.below u vs = true) :
    ∀ v ∈ vs, v < 65536 ∧ ρ v ≤ u := by
  intro v hv
  unfold Sym.below at h
  rw [List.all_eq_true] at h
  have := h v hv
  rw [Bool.and_eq_true] at this
  refine ⟨Nat.blt_eq.mp this.1, ?_⟩
  have h2 := this.2
  cases hu : Poly.ubVar σ.next σ.ubs v with
  | none => rw [hu] at h2; cases h2
  | some w =>
    rw [hu] at h2
    exact (hb v w hu).trans (Nat.le_of_ble_eq_true h2)

/-- A number in variables with values below `2^64` -/
theorem nums_sound {ρ : ℕ → ℕ} {σ : Sym} (h1 : ρ 0 = 1) (hb : Poly.Bnd ρ σ.next σ.ubs) {vs : List ℕ}
    (h : σ.below (2 ^ 64 - 1) vs = true) :
    ∃ N : ℕ, Poly.eval ρ (nums vs) = N ∧ N < 2 ^ (64 * vs.length) := by
  have hv := below_sound hb h
  refine ⟨natVal (vs.map ρ), eval_nums h1 vs fun v m => (hv v m).1, ?_⟩
  have := natVal_lt (vs.map ρ) (by
    intro x hx
    obtain ⟨v, m, e⟩ := List.mem_map.mp hx
    rw [← e]
    exact (hv v m).2)
  rwa [List.length_map] at this

theorem num_sound {ρ : ℕ → ℕ} {σ : Sym} (h1 : ρ 0 = 1) (hb : Poly.Bnd ρ σ.next σ.ubs) {v n : ℕ}
    (h : σ.below (2 ^ 64 - 1) (List.range' v n) = true) :
    ∃ N : ℕ, Poly.eval ρ (num v n) = N ∧ N < 2 ^ (64 * n) := by
  have := nums_sound h1 hb h
  rwa [List.length_range'] at this

theorem zero_sound {ρ : ℕ → ℕ} {σ : Sym} (he : ∀ p ∈ σ.eqs, Poly.eval ρ p = 0) {ws : List (ℕ × ℕ)} {t : Poly}
    (h : σ.zero ws t = true) : Poly.eval ρ t = 0 := by
  unfold Sym.zero at h
  rw [beq_iff_eq] at h
  have := Poly.eval_sub ρ t (σ.comb ws)
  rw [h, comb_sound he, Poly.eval_nil] at this
  omega

theorem allMod_sound (ρ : ℕ → ℕ) (m : ℤ) : ∀ p : Poly, Poly.allMod m p = true → m ∣ Poly.eval ρ p
  | [], _ => by simp
  | t :: p, h => by
    unfold Poly.allMod at h
    rw [List.all_cons, Bool.and_eq_true] at h
    have ih := allMod_sound ρ m p h.2
    rw [Poly.eval_cons]
    have h1 : m ∣ t.2 := Int.dvd_of_emod_eq_zero (by simpa using h.1)
    exact dvd_add (Dvd.dvd.mul_right h1 _) ih

theorem cong_sound {ρ : ℕ → ℕ} {σ : Sym} (he : ∀ p ∈ σ.eqs, Poly.eval ρ p = 0) {ws : List (ℕ × ℕ)} {m : ℤ} {t : Poly}
    (h : σ.cong ws m t = true) : m ∣ Poly.eval ρ t := by
  have := allMod_sound ρ m _ h
  rwa [Poly.eval_sub, comb_sound he, sub_zero] at this

theorem words_sound {S : Sig} {s s' : St} {ρ : ℕ → ℕ} {σ : Sym} (f : Found S s s' ρ σ) :
    ∀ {i : ℕ}, i ≤ S.ins.length → ∀ (n j : ℕ) (ps : List Poly), σ.words (i + 1) (8 * j) n = some ps →
      Poly.eval ρ (Poly.horner ps) = val ((List.range' j n).map fun k => s'.mem (wordAddr s i k))
  | _, _, 0, j, ps, h => by cases h; rfl
  | i, hi, n + 1, j, ps, h => by
    unfold Sym.words at h
    cases h1 : lookup σ.mem (i + 1) (8 * j) with
    | poly p =>
      cases h2 : σ.words (i + 1) (8 * j + 8) n with
      | none => rw [h1, h2] at h; cases h
      | some qs =>
        rw [h1, h2] at h
        cases h
        have ih := words_sound f hi n (j + 1) qs h2
        rw [Poly.eval_horner_cons, ih, List.range'_succ, List.map_cons, val, ← f.out i hi j p h1]
        push_cast; ring
    | any => rw [h1] at h; cases h
    | ptr b o => rw [h1] at h; cases h
    | low p => rw [h1] at h; cases h

/-- The output of a call -/
def outAt (S : Sig) (s s' : St) : List Digit := wordsAt s'.mem (ptr s S.ins.length) S.out

theorem outNum_sound {S : Sig} {s s' : St} {ρ : ℕ → ℕ} {σ : Sym} (f : Found S s s' ρ σ) {O : Poly}
    (h : σ.outNum S = some O) : Poly.eval ρ O = val (outAt S s s') := by
  unfold Sym.outNum at h
  cases h1 : σ.words (S.ins.length + 1) 0 S.out with
  | none => rw [h1] at h; cases h
  | some ps =>
    rw [h1] at h
    cases h
    rw [words_sound f (le_refl _) S.out 0 ps h1, ← List.range_eq_range']
    rfl

/-- A number in the inputs -/
theorem in_sound {S : Sig} {s s' : St} {ρ : ℕ → ℕ} {σ : Sym} (f : Found S s s' ρ σ) {k n v : ℕ} {A : List Digit}
    (hv : v = 8 + k) (hk : k + n ≤ S.ins.sum) (h : ((insWords s 0 S.ins).drop k).take n = A.map (·.toNat)) :
    Poly.eval ρ (num v n) = val A := by
  subst hv
  have hl := f.lim
  rw [num, eval_nums f.one _ (by intro v hv; rw [List.mem_range'_1] at hv; omega), ← natVal_toNat, ← h]
  congr 2
  apply List.ext_getElem?
  intro i
  rw [List.getElem?_map, List.getElem?_take]
  by_cases hi : i < n
  · have h1 : k + i < (insWords s 0 S.ins).length := by rw [insWords_length]; omega
    rw [if_pos hi, List.getElem?_drop, List.getElem?_range' hi, List.getElem?_eq_getElem h1, Option.map_some, Nat.one_mul,
      Nat.add_assoc, f.inp _ (by omega), List.getElem?_eq_getElem h1]
    rfl
  · rw [if_neg hi, List.getElem?_eq_none (by rw [List.length_range']; omega)]; rfl

/-! ## Layouts of the inputs -/

/-- An element of the quadratic extension in memory -/
def f2At (m : Digit → Digit) (a : Digit) (n : ℕ) : Secuer.Word.F2 :=
  ⟨wordsAt m a n, wordsAt m (a + BitVec.ofNat 64 (8 * n)) n⟩

theorem wordsAt_two (m : Digit → Digit) (a : Digit) (n : ℕ) :
    wordsAt m a (2 * n) = (f2At m a n).c0 ++ (f2At m a n).c1 := by
  unfold f2At wordsAt
  rw [Nat.two_mul, List.range_add, List.map_append, List.map_map]
  congr 1
  apply List.map_congr_left
  intro i _
  show m (a + BitVec.ofNat 64 (8 * (n + i))) = m (a + BitVec.ofNat 64 (8 * n) + BitVec.ofNat 64 (8 * i))
  rw [Nat.mul_add, ofNat_add, BitVec.add_assoc]

theorem slice_mid {α : Type*} (x y z : List α) {k n : ℕ} (hx : x.length = k) (hy : y.length = n) :
    ((x ++ (y ++ z)).drop k).take n = y := by
  subst hx hy
  rw [List.drop_left, List.take_left]

/-- Two inputs of `n` words -/
theorem in_two {n o K : ℕ} {al : List (ℕ × ℕ)} {s s' : St} {ρ : ℕ → ℕ} {σ : Sym} (f : Found ⟨[n, n], o, K, al, []⟩ s s' ρ σ) :
    Poly.eval ρ (num 8 n) = val (wordsAt s.mem (ptr s 0) n) ∧
      Poly.eval ρ (num (8 + n) n) = val (wordsAt s.mem (ptr s 1) n) := by
  constructor
  · refine in_sound f (k := 0) (by omega) (by simp) ?_
    exact slice_mid [] _ _ rfl (by rw [List.length_map, wordsAt_length])
  · refine in_sound f (k := n) rfl (by simp) ?_
    exact slice_mid _ _ [] (by rw [List.length_map, wordsAt_length]) (by rw [List.length_map, wordsAt_length])

theorem f2At_length (m : Digit → Digit) (a : Digit) (n : ℕ) : (f2At m a n).c0.length = n ∧ (f2At m a n).c1.length = n :=
  ⟨wordsAt_length _ _ _, wordsAt_length _ _ _⟩

/-- Two inputs in the quadratic extension -/
theorem in_two2 {n o K : ℕ} {al : List (ℕ × ℕ)} {s s' : St} {ρ : ℕ → ℕ} {σ : Sym}
    (f : Found ⟨[2 * n, 2 * n], o, K, al, []⟩ s s' ρ σ) :
    Poly.eval ρ (num 8 n) = val (f2At s.mem (ptr s 0) n).c0 ∧ Poly.eval ρ (num (8 + n) n) = val (f2At s.mem (ptr s 0) n).c1 ∧
      Poly.eval ρ (num (8 + 2 * n) n) = val (f2At s.mem (ptr s 1) n).c0 ∧
      Poly.eval ρ (num (8 + 3 * n) n) = val (f2At s.mem (ptr s 1) n).c1 := by
  obtain ⟨a0, a1⟩ := f2At_length s.mem (ptr s 0) n
  obtain ⟨b0, b1⟩ := f2At_length s.mem (ptr s 1) n
  have e : insWords s 0 [2 * n, 2 * n] = (f2At s.mem (ptr s 0) n).c0.map (·.toNat) ++ ((f2At s.mem (ptr s 0) n).c1.map (·.toNat) ++
      ((f2At s.mem (ptr s 1) n).c0.map (·.toNat) ++ ((f2At s.mem (ptr s 1) n).c1.map (·.toNat) ++ []))) := by
    rw [insWords, insWords, insWords, wordsAt_two, wordsAt_two]
    simp
  have hs : List.sum [2 * n, 2 * n] = 4 * n := by simp; ring
  refine ⟨in_sound f (k := 0) (by omega) (by rw [hs]; omega) ?_, in_sound f (k := n) rfl (by rw [hs]; omega) ?_,
    in_sound f (k := 2 * n) rfl (by rw [hs]; omega) ?_, in_sound f (k := 3 * n) rfl (by rw [hs]; omega) ?_⟩ <;> dsimp only <;> rw [e]
  · exact slice_mid [] _ _ rfl (by rw [List.length_map, a0])
  · exact slice_mid _ _ _ (by rw [List.length_map, a0]) (by rw [List.length_map, a1])
  · rw [← List.append_assoc]
    exact slice_mid _ _ _ (by rw [List.length_append, List.length_map, List.length_map, a0, a1]; omega)
      (by rw [List.length_map, b0])
  · rw [← List.append_assoc, ← List.append_assoc]
    exact slice_mid _ _ [] (by simp only [List.length_append, List.length_map, a0, a1, b0]; omega)
      (by rw [List.length_map, b1])

/-- One input in the quadratic extension -/
theorem in_one2 {n o K : ℕ} {al : List (ℕ × ℕ)} {s s' : St} {ρ : ℕ → ℕ} {σ : Sym}
    (f : Found ⟨[2 * n], o, K, al, []⟩ s s' ρ σ) :
    Poly.eval ρ (num 8 n) = val (f2At s.mem (ptr s 0) n).c0 ∧
      Poly.eval ρ (num (8 + n) n) = val (f2At s.mem (ptr s 0) n).c1 := by
  obtain ⟨a0, a1⟩ := f2At_length s.mem (ptr s 0) n
  have e : insWords s 0 [2 * n] = (f2At s.mem (ptr s 0) n).c0.map (·.toNat) ++ ((f2At s.mem (ptr s 0) n).c1.map (·.toNat) ++ []) := by
    rw [insWords, insWords, wordsAt_two]
    simp
  have hs : List.sum [2 * n] = 2 * n := by simp
  refine ⟨in_sound f (k := 0) (by omega) (by rw [hs]; omega) ?_, in_sound f (k := n) rfl (by rw [hs]; omega) ?_⟩ <;>
    dsimp only <;> rw [e]
  · exact slice_mid [] _ _ rfl (by rw [List.length_map, a0])
  · exact slice_mid _ _ [] (by rw [List.length_map, a0]) (by rw [List.length_map, a1])

/-! ## Bounds of the inputs -/

/-- No bounds -/
def full (n : ℕ) : List ℕ := List.replicate n (2 ^ 64 - 1)

/-- `n` words, the highest at most `t` -/
def bd (n t : ℕ) : List ℕ := full (n - 1) ++ [t]

theorem full_bound : ∀ ws : List Digit, List.Forall₂ (· ≤ ·) (ws.map (·.toNat)) (full ws.length)
  | [] => List.Forall₂.nil
  | w :: ws => by
    have := w.isLt
    exact List.Forall₂.cons (by dsimp only; omega) (full_bound ws)

theorem bd_bound {n t : ℕ} (hn : 0 < n) {ws : List Digit} (hl : ws.length = n) (h : val ws < (t + 1) * 2 ^ (64 * (n - 1))) :
    List.Forall₂ (· ≤ ·) (ws.map (·.toNat)) (bd n t) := by
  have hne : ws ≠ [] := by intro e; rw [e] at hl; simp at hl; omega
  obtain ⟨x, y, rfl⟩ : ∃ x y, ws = x ++ [y] := ⟨ws.dropLast, ws.getLast hne, (List.dropLast_append_getLast hne).symm⟩
  have hx : x.length = n - 1 := by rw [List.length_append] at hl; simp at hl; omega
  rw [List.map_append, bd, ← hx]
  refine List.rel_append (full_bound x) (List.Forall₂.cons ?_ List.Forall₂.nil)
  rw [val_append, hx] at h
  have e : val [y] = y.toNat := by simp [val]
  rw [e] at h
  have hpos : 0 < 2 ^ (64 * (n - 1)) := by positivity
  have : y.toNat * 2 ^ (64 * (n - 1)) < (t + 1) * 2 ^ (64 * (n - 1)) := by
    rw [Nat.mul_comm]; omega
  exact Nat.lt_succ_iff.mp (Nat.lt_of_mul_lt_mul_right this)

end Secuer.X64
