import Verif.X64.Claims

/-!
# The kinds of routines

For every kind of routine: the claim to check about its code, and what follows about its calls.
-/

namespace Secuer.X64

open Secuer.Word

/-! ## Tables -/

/-- The tables of a parameter set; `x8` is the one the portable code does not have (`p434x8`) -/
def tableOf (T : Tables) (x8 : List Digit) : Tab → List Digit
  | .p => T.p
  | .p1 => T.p1
  | .x2 => T.x2
  | .x4 => T.x4
  | .x8 => x8

/-- The same as numbers -/
def tabsOf (T : Tables) (x8 : List Digit) (t : Tab) : List ℕ := (tableOf T x8 t).map (·.toNat)

theorem tabOK {T : Tables} {x8 : List Digit} {E : Env} (h : E.tab = tableOf T x8) : TabOK (tabsOf T x8) E := by
  intro t; rw [h]; rfl

variable {T : Tables} {p : ℕ} {x8 : List Digit}

theorem outAt_length (S : Sig) (s s' : St) : (outAt S s s').length = S.out := wordsAt_length _ _ _

/-! ## Additions and subtractions -/

theorem inB_two {n o K : ℕ} {al : List (ℕ × ℕ)} (s : St) : InB ⟨[n, n], o, K, al, []⟩ s (full (2 * n)) := by
  have h : insWords s 0 [n, n] = (wordsAt s.mem (ptr s 0) n ++ wordsAt s.mem (ptr s 1) n).map (·.toNat) := by
    rw [insWords, insWords, insWords]; simp
  unfold InB
  dsimp only
  rw [h]
  have := full_bound (wordsAt s.mem (ptr s 0) n ++ wordsAt s.mem (ptr s 1) n)
  rwa [List.length_append, wordsAt_length, wordsAt_length, ← Nat.two_mul] at this

theorem slack_nil {S : Sig} {s : St} : SlackOK S s [] := fun _ h => by cases h

/-- `c = a + b` modulo `2^(64 n)` -/
def addClaim (S : Sig) (n : ℕ) (σ : Sym) : Bool :=
  match σ.outNum S with
  | some O => σ.cong [] (2 ^ (64 * n)) (Poly.sub O (Poly.add (num 8 n) (num (8 + n) n)))
  | none => false

/-- A number is determined by its residue -/
theorem eq_of_dvd {R a b : ℕ} (ha : a < R) (hb : b < R) (h : (R : ℤ) ∣ a - b) : a = b := by
  obtain ⟨k, hk⟩ := h
  have h1 : (a : ℤ) < R := by exact_mod_cast ha
  have h2 : (b : ℤ) < R := by exact_mod_cast hb
  have : k = 0 := by
    by_contra hc
    rcases lt_or_gt_of_ne hc with h | h
    · nlinarith
    · nlinarith
  rw [this] at hk
  omega

theorem mpAdd_of_found {n K : ℕ} {al : List (ℕ × ℕ)} {s s' : St} {ρ : ℕ → ℕ} {σ : Sym}
    (f : Found ⟨[n, n], n, K, al, []⟩ s s' ρ σ)
    (hc : addClaim ⟨[n, n], n, K, al, []⟩ n σ = true) :
    wordsAt s'.mem (ptr s 2) n = mpAddfastC (wordsAt s.mem (ptr s 0) n) (wordsAt s.mem (ptr s 1) n) := by
  obtain ⟨e1, e2⟩ := in_two f
  obtain ⟨l, hv⟩ := add0 (wordsAt_length s.mem (ptr s 0) n) (wordsAt_length s.mem (ptr s 1) n)
  unfold addClaim at hc
  cases ho : σ.outNum ⟨[n, n], n, K, al, []⟩ with
  | none => rw [ho] at hc; cases hc
  | some O =>
    rw [ho] at hc
    have h1 := cong_sound f.eqs hc
    rw [Poly.eval_sub, Poly.eval_add, e1, e2, outNum_sound f ho] at h1
    have hl : (wordsAt s'.mem (ptr s 2) n).length = n := wordsAt_length _ _ _
    refine val_inj (by rw [hl]; exact l.symm) ?_
    show _ = val (addLoop 0 _ _).2
    have hlt := val_lt (wordsAt s'.mem (ptr s 2) n)
    rw [hl] at hlt
    have hpos : 0 < 2 ^ (64 * n) := by positivity
    refine eq_of_dvd hlt (by rw [hv]; exact Nat.mod_lt _ hpos) ?_
    rw [hv]
    have h3 : ((2 ^ (64 * n) : ℕ) : ℤ) = 2 ^ (64 * n) := by push_cast; rfl
    rw [h3]
    have h2 : (2 : ℤ) ^ (64 * n) ∣ ((val (wordsAt s.mem (ptr s 0) n) + val (wordsAt s.mem (ptr s 1) n) : ℕ) : ℤ) -
        (((val (wordsAt s.mem (ptr s 0) n) + val (wordsAt s.mem (ptr s 1) n)) % 2 ^ (64 * n) : ℕ) : ℤ) := by
      rw [Int.natCast_mod, h3]
      exact Int.dvd_self_sub_of_emod_eq rfl
    have h4 := dvd_add h1 h2
    rw [Nat.cast_add, sub_add_sub_cancel] at h4
    exact h4

theorem mpAdd_of_check {n K : ℕ} {al : List (ℕ × ℕ)} {prog : List Instr} {hints : List (ℕ × Hint)}
    (h : check (tabsOf T x8) ⟨[n, n], n, K, al, []⟩ prog hints (full (2 * n)) [] (addClaim ⟨[n, n], n, K, al, []⟩ n) = true)
    (hK : K % 8 = 0) (hn : 2 * n < 1000) {E : Env} (hE : E.tab = tableOf T x8) {s : St} (hp : Pre E ⟨[n, n], n, K, al, []⟩ s) :
    ∃ s', Done E ⟨[n, n], n, K, al, []⟩ prog s s' ∧
      wordsAt s'.mem (ptr s 2) n = mpAddfastC (wordsAt s.mem (ptr s 0) n) (wordsAt s.mem (ptr s 1) n) := by
  obtain ⟨s', ρ, σ, hd, f, hc⟩ := check_sound h (tabOK hE) hp (inB_two s) slack_nil hK (by simp) (by simpa [full] using hn) (by simp)
  exact ⟨s', hd, mpAdd_of_found f hc⟩

/-- `c = a - b + k` modulo `2^(64 n)` -/
def subkClaim (S : Sig) (n k : ℕ) (σ : Sym) : Bool :=
  match σ.outNum S with
  | some O => σ.cong [] (2 ^ (64 * n)) (Poly.sub O (Poly.add (Poly.sub (num 8 n) (num (8 + n) n)) (Poly.const k)))
  | none => false

theorem subk_of_found {n K : ℕ} {al : List (ℕ × ℕ)} {x : List Digit} (hx : x.length = n) {s s' : St} {ρ : ℕ → ℕ} {σ : Sym}
    (f : Found ⟨[n, n], n, K, al, []⟩ s s' ρ σ)
    (hc : subkClaim ⟨[n, n], n, K, al, []⟩ n (val x) σ = true) :
    wordsAt s'.mem (ptr s 2) n =
      (addLoop 0 (subLoop 0 (wordsAt s.mem (ptr s 0) n) (wordsAt s.mem (ptr s 1) n)).2 x).2 := by
  obtain ⟨e1, e2⟩ := in_two f
  obtain ⟨l, -, hs⟩ := sub0 (wordsAt_length s.mem (ptr s 0) n) (wordsAt_length s.mem (ptr s 1) n)
  obtain ⟨l', hv⟩ := add0 l hx
  unfold subkClaim at hc
  cases ho : σ.outNum ⟨[n, n], n, K, al, []⟩ with
  | none => rw [ho] at hc; cases hc
  | some O =>
    rw [ho] at hc
    have h1 := cong_sound f.eqs hc
    rw [Poly.eval_sub, Poly.eval_add, Poly.eval_sub, e1, e2, outNum_sound f ho, Poly.eval_const f.one] at h1
    have hl : (wordsAt s'.mem (ptr s 2) n).length = n := wordsAt_length _ _ _
    refine val_inj (by rw [hl]; exact l'.symm) ?_
    have hlt := val_lt (wordsAt s'.mem (ptr s 2) n)
    have hb := val_lt (wordsAt s.mem (ptr s 1) n)
    rw [wordsAt_length] at hb
    rw [hl] at hlt
    have hpos : 0 < 2 ^ (64 * n) := by positivity
    refine eq_of_dvd hlt (by rw [hv]; exact Nat.mod_lt _ hpos) ?_
    rw [hv]
    have h3 : ((2 ^ (64 * n) : ℕ) : ℤ) = 2 ^ (64 * n) := by push_cast; rfl
    rw [h3]
    have h2 : (2 : ℤ) ^ (64 * n) ∣
        ((val (subLoop 0 (wordsAt s.mem (ptr s 0) n) (wordsAt s.mem (ptr s 1) n)).2 + val x : ℕ) : ℤ) -
        (((val (subLoop 0 (wordsAt s.mem (ptr s 0) n) (wordsAt s.mem (ptr s 1) n)).2 + val x) % 2 ^ (64 * n) : ℕ) : ℤ) := by
      rw [Int.natCast_mod, h3]
      exact Int.dvd_self_sub_of_emod_eq rfl
    have h5 : (2 : ℤ) ^ (64 * n) ∣ ((val (wordsAt s.mem (ptr s 0) n) : ℤ) - val (wordsAt s.mem (ptr s 1) n) + val x) -
        ((val (subLoop 0 (wordsAt s.mem (ptr s 0) n) (wordsAt s.mem (ptr s 1) n)).2 + val x : ℕ) : ℤ) := by
      rcases hs with ⟨g1, -, g2⟩ | ⟨g1, -, g2⟩
      · rw [g2, Nat.cast_add, Nat.cast_sub g1]
        exact ⟨0, by ring⟩
      · rw [g2, Nat.cast_add, Nat.cast_sub (by omega), Nat.cast_add, h3]
        exact ⟨-1, by ring⟩
    have h4 := dvd_add (dvd_add h1 h5) h2
    rw [sub_add_sub_cancel, sub_add_sub_cancel] at h4
    exact h4

theorem subk_of_check {n K : ℕ} {al : List (ℕ × ℕ)} {prog : List Instr} {hints : List (ℕ × Hint)} {x : List Digit}
    (hx : x.length = n)
    (h : check (tabsOf T x8) ⟨[n, n], n, K, al, []⟩ prog hints (full (2 * n)) [] (subkClaim ⟨[n, n], n, K, al, []⟩ n (val x)) = true)
    (hK : K % 8 = 0) (hn : 2 * n < 1000) {E : Env} (hE : E.tab = tableOf T x8) {s : St} (hp : Pre E ⟨[n, n], n, K, al, []⟩ s) :
    ∃ s', Done E ⟨[n, n], n, K, al, []⟩ prog s s' ∧
      wordsAt s'.mem (ptr s 2) n =
        (addLoop 0 (subLoop 0 (wordsAt s.mem (ptr s 0) n) (wordsAt s.mem (ptr s 1) n)).2 x).2 := by
  obtain ⟨s', ρ, σ, hd, f, hc⟩ := check_sound h (tabOK hE) hp (inB_two s) slack_nil hK (by simp) (by simpa [full] using hn) (by simp)
  exact ⟨s', hd, subk_of_found hx f hc⟩

/-- `fpadd`: `y₁ = a + b` modulo `2^(64 n)`, `y₂ = y₁ - k` with the borrow `c`, the output is `y₂ + c k` modulo `2^(64 n)` -/
def fpaddClaim (S : Sig) (n k y1 y2 c : ℕ) (σ : Sym) : Bool :=
  match σ.outNum S with
  | some O =>
    σ.below (2 ^ 64 - 1) (List.range' y1 n) && σ.below (2 ^ 64 - 1) (List.range' y2 n) && σ.below 1 [c] &&
    σ.cong [(0, 0)] (2 ^ (64 * n)) (Poly.sub (num y1 n) (Poly.add (num 8 n) (num (8 + n) n))) &&
    σ.zero [(1, 0)] (Poly.sub (num y2 n) (Poly.add (Poly.sub (num y1 n) (Poly.const k)) (Poly.scale (2 ^ (64 * n)) (Poly.var c)))) &&
    σ.cong [] (2 ^ (64 * n)) (Poly.sub O (Poly.add (num y2 n) (Poly.scale k (Poly.var c))))
  | none => false

/-- The second half of `fpadd` and `fpsub`: a subtraction and the correction of a borrow, as words -/
theorem fixup_eq {n : ℕ} {a b x out : List Digit} (ha : a.length = n) (hb : b.length = n) (hx : x.length = n)
    (ho : out.length = n) {y c : ℕ} (hy : y < 2 ^ (64 * n)) (hc : c ≤ 1)
    (h1 : (y : ℤ) = val a - val b + 2 ^ (64 * n) * c) (h2 : (2 : ℤ) ^ (64 * n) ∣ val out - (y + val x * c)) :
    out = (addLoop 0 (subLoop 0 a b).2 (masked (maskOf (subLoop 0 a b).1) x)).2 := by
  obtain ⟨l, hb1, hs⟩ := sub0 ha hb
  obtain ⟨l', hv⟩ := add0 l ((masked_length (maskOf (subLoop 0 a b).1) x).trans hx)
  rw [val_masked hb1] at hv
  have h3 : ((2 ^ (64 * n) : ℕ) : ℤ) = 2 ^ (64 * n) := by push_cast; rfl
  rw [← h3] at h1 h2
  have la := val_lt a
  have lb := val_lt b
  have lo := val_lt out
  rw [ha] at la
  rw [hb] at lb
  rw [ho] at lo
  have key : val (subLoop 0 a b).2 = y ∧ (subLoop 0 a b).1.toNat = c := by
    have hc' : c = 0 ∨ c = 1 := by omega
    rcases hs with ⟨g1, g2, g3⟩ | ⟨g1, g2, g3⟩ <;> rw [g2, g3] <;> rcases hc' with rfl | rfl <;>
      constructor <;> push_cast at h1 <;> (try push_cast) <;> omega
  rw [key.1, key.2] at hv
  refine val_inj (by rw [ho, l']) ?_
  have hpos : 0 < 2 ^ (64 * n) := by positivity
  refine eq_of_dvd lo (by rw [hv]; exact Nat.mod_lt _ hpos) ?_
  rw [hv]
  have h5 : ((2 ^ (64 * n) : ℕ) : ℤ) ∣ ((y + c * val x : ℕ) : ℤ) - (((y + c * val x) % 2 ^ (64 * n) : ℕ) : ℤ) := by
    rw [Int.natCast_mod]
    exact Int.dvd_self_sub_of_emod_eq rfl
  have h6 : ((y + c * val x : ℕ) : ℤ) = y + val x * c := by push_cast; ring
  rw [h6] at h5
  have := dvd_add h2 h5
  rwa [sub_add_sub_cancel] at this

theorem below_one {ρ : ℕ → ℕ} {σ : Sym} (h1 : ρ 0 = 1) (hb : Poly.Bnd ρ σ.next σ.ubs) {c : ℕ} (h : σ.below 1 [c] = true) :
    Poly.eval ρ (Poly.var c) = ρ c ∧ ρ c ≤ 1 := by
  have := below_sound hb h c (List.mem_singleton.mpr rfl)
  exact ⟨Poly.eval_var h1 this.1, this.2⟩

theorem fpadd_of_found {K y1 y2 c : ℕ} {al : List (ℕ × ℕ)} (hx : T.x2.length = T.n) {s s' : St} {ρ : ℕ → ℕ} {σ : Sym}
    (f : Found ⟨[T.n, T.n], T.n, K, al, []⟩ s s' ρ σ)
    (hc : fpaddClaim ⟨[T.n, T.n], T.n, K, al, []⟩ T.n (val T.x2) y1 y2 c σ = true) :
    wordsAt s'.mem (ptr s 2) T.n = fpaddC T (wordsAt s.mem (ptr s 0) T.n) (wordsAt s.mem (ptr s 1) T.n) := by
  obtain ⟨e1, e2⟩ := in_two f
  obtain ⟨l, hv⟩ := add0 (wordsAt_length s.mem (ptr s 0) T.n) (wordsAt_length s.mem (ptr s 1) T.n)
  unfold fpaddClaim at hc
  cases ho : σ.outNum ⟨[T.n, T.n], T.n, K, al, []⟩ with
  | none => rw [ho] at hc; cases hc
  | some O =>
    rw [ho] at hc
    simp only [Bool.and_eq_true] at hc
    obtain ⟨⟨⟨⟨⟨c1, c2⟩, c3⟩, c4⟩, c5⟩, c6⟩ := hc
    obtain ⟨Y1, y1e, y1l⟩ := num_sound f.one f.bnd c1
    obtain ⟨Y2, y2e, y2l⟩ := num_sound f.one f.bnd c2
    obtain ⟨ce, cl⟩ := below_one f.one f.bnd c3
    have h4 := cong_sound f.eqs c4
    have h5 := zero_sound f.eqs c5
    have h6 := cong_sound f.eqs c6
    rw [Poly.eval_sub, Poly.eval_add, e1, e2, y1e] at h4
    rw [Poly.eval_sub, Poly.eval_add, Poly.eval_sub, Poly.eval_scale, Poly.eval_const f.one, y1e, y2e, ce] at h5
    rw [Poly.eval_sub, Poly.eval_add, Poly.eval_scale, y2e, ce, outNum_sound f ho] at h6
    have hY1 : val (addLoop 0 (wordsAt s.mem (ptr s 0) T.n) (wordsAt s.mem (ptr s 1) T.n)).2 = Y1 := by
      rw [hv]
      have h3 : ((2 ^ (64 * T.n) : ℕ) : ℤ) = 2 ^ (64 * T.n) := by push_cast; rfl
      have hpos : 0 < 2 ^ (64 * T.n) := by positivity
      refine (eq_of_dvd y1l (Nat.mod_lt _ hpos) ?_).symm
      have h2 : ((2 ^ (64 * T.n) : ℕ) : ℤ) ∣ ((val (wordsAt s.mem (ptr s 0) T.n) + val (wordsAt s.mem (ptr s 1) T.n) : ℕ) : ℤ) -
          (((val (wordsAt s.mem (ptr s 0) T.n) + val (wordsAt s.mem (ptr s 1) T.n)) % 2 ^ (64 * T.n) : ℕ) : ℤ) := by
        rw [Int.natCast_mod]
        exact Int.dvd_self_sub_of_emod_eq rfl
      rw [← h3] at h4
      have := dvd_add h4 h2
      rwa [Nat.cast_add, sub_add_sub_cancel] at this
    exact fixup_eq l hx hx (wordsAt_length _ _ _) y2l cl (by rw [hY1]; linarith) h6

theorem fpadd_of_check {K y1 y2 c : ℕ} {al : List (ℕ × ℕ)} {prog : List Instr} {hints : List (ℕ × Hint)}
    (hx : T.x2.length = T.n)
    (h : check (tabsOf T x8) ⟨[T.n, T.n], T.n, K, al, []⟩ prog hints (full (2 * T.n)) []
      (fpaddClaim ⟨[T.n, T.n], T.n, K, al, []⟩ T.n (val T.x2) y1 y2 c) = true)
    (hK : K % 8 = 0) (hn : 2 * T.n < 1000) {E : Env} (hE : E.tab = tableOf T x8) {s : St}
    (hp : Pre E ⟨[T.n, T.n], T.n, K, al, []⟩ s) :
    ∃ s', Done E ⟨[T.n, T.n], T.n, K, al, []⟩ prog s s' ∧
      wordsAt s'.mem (ptr s 2) T.n = fpaddC T (wordsAt s.mem (ptr s 0) T.n) (wordsAt s.mem (ptr s 1) T.n) := by
  obtain ⟨s', ρ, σ, hd, f, hc⟩ := check_sound h (tabOK hE) hp (inB_two s) slack_nil hK (by simp) (by simpa [full] using hn) (by simp)
  exact ⟨s', hd, fpadd_of_found hx f hc⟩

/-- `fpsub`: `y = a - b` with the borrow `c`, the output is `y + c k` modulo `2^(64 n)` -/
def fpsubClaim (S : Sig) (n k y c : ℕ) (σ : Sym) : Bool :=
  match σ.outNum S with
  | some O =>
    σ.below (2 ^ 64 - 1) (List.range' y n) && σ.below 1 [c] &&
    σ.zero [(0, 0)] (Poly.sub (num y n) (Poly.add (Poly.sub (num 8 n) (num (8 + n) n)) (Poly.scale (2 ^ (64 * n)) (Poly.var c)))) &&
    σ.cong [] (2 ^ (64 * n)) (Poly.sub O (Poly.add (num y n) (Poly.scale k (Poly.var c))))
  | none => false

theorem fpsub_of_found {K y c : ℕ} {al : List (ℕ × ℕ)} (hx : T.x2.length = T.n) {s s' : St} {ρ : ℕ → ℕ} {σ : Sym}
    (f : Found ⟨[T.n, T.n], T.n, K, al, []⟩ s s' ρ σ)
    (hc : fpsubClaim ⟨[T.n, T.n], T.n, K, al, []⟩ T.n (val T.x2) y c σ = true) :
    wordsAt s'.mem (ptr s 2) T.n = fpsubC T (wordsAt s.mem (ptr s 0) T.n) (wordsAt s.mem (ptr s 1) T.n) := by
  obtain ⟨e1, e2⟩ := in_two f
  unfold fpsubClaim at hc
  cases ho : σ.outNum ⟨[T.n, T.n], T.n, K, al, []⟩ with
  | none => rw [ho] at hc; cases hc
  | some O =>
    rw [ho] at hc
    simp only [Bool.and_eq_true] at hc
    obtain ⟨⟨⟨c1, c3⟩, c5⟩, c6⟩ := hc
    obtain ⟨Y, ye, yl⟩ := num_sound f.one f.bnd c1
    obtain ⟨ce, cl⟩ := below_one f.one f.bnd c3
    have h5 := zero_sound f.eqs c5
    have h6 := cong_sound f.eqs c6
    rw [Poly.eval_sub, Poly.eval_add, Poly.eval_sub, Poly.eval_scale, e1, e2, ye, ce] at h5
    rw [Poly.eval_sub, Poly.eval_add, Poly.eval_scale, ye, ce, outNum_sound f ho] at h6
    exact fixup_eq (wordsAt_length _ _ _) (wordsAt_length _ _ _) hx (wordsAt_length _ _ _) yl cl (by linarith) h6

theorem fpsub_of_check {K y c : ℕ} {al : List (ℕ × ℕ)} {prog : List Instr} {hints : List (ℕ × Hint)}
    (hx : T.x2.length = T.n)
    (h : check (tabsOf T x8) ⟨[T.n, T.n], T.n, K, al, []⟩ prog hints (full (2 * T.n)) []
      (fpsubClaim ⟨[T.n, T.n], T.n, K, al, []⟩ T.n (val T.x2) y c) = true)
    (hK : K % 8 = 0) (hn : 2 * T.n < 1000) {E : Env} (hE : E.tab = tableOf T x8) {s : St}
    (hp : Pre E ⟨[T.n, T.n], T.n, K, al, []⟩ s) :
    ∃ s', Done E ⟨[T.n, T.n], T.n, K, al, []⟩ prog s s' ∧
      wordsAt s'.mem (ptr s 2) T.n = fpsubC T (wordsAt s.mem (ptr s 0) T.n) (wordsAt s.mem (ptr s 1) T.n) := by
  obtain ⟨s', ρ, σ, hd, f, hc⟩ := check_sound h (tabOK hE) hp (inB_two s) slack_nil hK (by simp) (by simpa [full] using hn) (by simp)
  exact ⟨s', hd, fpsub_of_found hx f hc⟩

/-! ## Montgomery multiplication -/

/-- The output times `2^(64 n)` is the number `P` plus a multiple of `p` by the number with the words `ms` -/
def montClaim (S : Sig) (n p : ℕ) (ms : List ℕ) (ws : List (ℕ × ℕ)) (P : Option Poly) (σ : Sym) : Bool :=
  match σ.outNum S, P with
  | some O, some P =>
    ms.length == n && σ.below (2 ^ 64 - 1) ms &&
    σ.zero ws (Poly.sub (Poly.sub (Poly.scale (2 ^ (64 * n)) O) P) (Poly.scale p (nums ms)))
  | _, _ => false

/-- `c` is a Montgomery reduction of `m` -/
def IsMont (n p c m : ℕ) : Prop := ∃ q < 2 ^ (64 * n), c * 2 ^ (64 * n) = m + q * p

theorem mont_of_claim {S : Sig} {n : ℕ} {ms : List ℕ} {ws : List (ℕ × ℕ)} {P : Option Poly} {s s' : St} {ρ : ℕ → ℕ} {σ : Sym}
    (f : Found S s s' ρ σ) (h : montClaim S n p ms ws P σ = true) {m : ℕ}
    (hm : ∀ q, P = some q → Poly.eval ρ q = m) : IsMont n p (val (outAt S s s')) m := by
  unfold montClaim at h
  cases ho : σ.outNum S with
  | none => rw [ho] at h; cases h
  | some O =>
    cases hP : P with
    | none => rw [ho, hP] at h; cases h
    | some Q =>
      rw [ho, hP] at h
      simp only [Bool.and_eq_true, beq_iff_eq] at h
      obtain ⟨⟨h1, h2⟩, h3⟩ := h
      obtain ⟨q, qe, ql⟩ := nums_sound f.one f.bnd h2
      have h4 := zero_sound f.eqs h3
      rw [Poly.eval_sub, Poly.eval_sub, Poly.eval_scale, Poly.eval_scale, hm Q hP, qe, outNum_sound f ho] at h4
      refine ⟨q, by rw [← h1]; exact ql, ?_⟩
      have : ((val (outAt S s s') * 2 ^ (64 * n) : ℕ) : ℤ) = ((m + q * p : ℕ) : ℤ) := by push_cast; linarith
      exact_mod_cast this

/-- There is one Montgomery reduction -/
theorem IsMont.unique {n c c' m : ℕ} (ho : p % 2 = 1) (h : IsMont n p c m) (h' : IsMont n p c' m) : c = c' := by
  obtain ⟨q, hq, e⟩ := h
  obtain ⟨q', hq', e'⟩ := h'
  have hcop : Nat.Coprime (2 ^ (64 * n)) p := Nat.Coprime.pow_left _ ((Nat.coprime_two_left).mpr (Nat.odd_iff.mpr ho))
  have hpos : 0 < 2 ^ (64 * n) := by positivity
  have hqq : q = q' := by
    refine eq_of_dvd hq hq' ?_
    have h1 : ((2 ^ (64 * n) : ℕ) : ℤ) ∣ ((q : ℤ) - q') * p := by
      refine ⟨(c : ℤ) - c', ?_⟩
      have a1 : ((c * 2 ^ (64 * n) : ℕ) : ℤ) = ((m + q * p : ℕ) : ℤ) := by rw [e]
      have a2 : ((c' * 2 ^ (64 * n) : ℕ) : ℤ) = ((m + q' * p : ℕ) : ℤ) := by rw [e']
      push_cast at a1 a2 ⊢
      linarith
    exact (Nat.isCoprime_iff_coprime.mpr hcop).dvd_of_dvd_mul_right h1
  rw [hqq, ← e'] at e
  exact Nat.eq_of_mul_eq_mul_right hpos e

/-- `fpmul` of the portable code is a Montgomery reduction -/
theorem fpmul_isMont (g : Good T p) {a b : List Digit} (ha : a.length = T.n) (hb : b.length = T.n)
    (h : val a * val b < 2 ^ (64 * T.n) * p) : (fpmulC T a b).length = T.n ∧ IsMont T.n p (val (fpmulC T a b)) (val a * val b) := by
  obtain ⟨c, q, -, e, l, hq, hv⟩ := fpmul_exact g ha hb h
  rw [e]
  exact ⟨l, q, hq, hv⟩

theorem inB_bd {n o K t u : ℕ} (hn : 0 < n) {al : List (ℕ × ℕ)} {s : St}
    (ha : val (wordsAt s.mem (ptr s 0) n) < (t + 1) * 2 ^ (64 * (n - 1)))
    (hb : val (wordsAt s.mem (ptr s 1) n) < (u + 1) * 2 ^ (64 * (n - 1))) :
    InB ⟨[n, n], o, K, al, []⟩ s (bd n t ++ bd n u) := by
  unfold InB
  dsimp only
  rw [insWords, insWords, insWords, List.append_nil]
  exact List.rel_append (bd_bound hn (wordsAt_length _ _ _) ha) (bd_bound hn (wordsAt_length _ _ _) hb)

theorem bd_length {n t : ℕ} (hn : 0 < n) : (bd n t).length = n := by simp [bd, full]; omega

/-- `fpmul`: the Montgomery reduction of the product -/
def fpmulClaim (S : Sig) (n p : ℕ) (ms : List ℕ) (ws : List (ℕ × ℕ)) (σ : Sym) : Bool :=
  montClaim S n p ms ws (Poly.mul (num 8 n) (num (8 + n) n)) σ

theorem fpmul_of_check (g : Good T p) {K t u : ℕ} {al : List (ℕ × ℕ)} {ms : List ℕ} {ws : List (ℕ × ℕ)} {prog : List Instr}
    {hints : List (ℕ × Hint)}
    (h : check (tabsOf T x8) ⟨[T.n, T.n], T.n, K, al, []⟩ prog hints (bd T.n t ++ bd T.n u) []
      (fpmulClaim ⟨[T.n, T.n], T.n, K, al, []⟩ T.n p ms ws) = true)
    (hK : K % 8 = 0) (hn : 2 * T.n < 1000) {E : Env} (hE : E.tab = tableOf T x8) {s : St}
    (hp : Pre E ⟨[T.n, T.n], T.n, K, al, []⟩ s)
    (ha : val (wordsAt s.mem (ptr s 0) T.n) < (t + 1) * 2 ^ (64 * (T.n - 1)))
    (hb : val (wordsAt s.mem (ptr s 1) T.n) < (u + 1) * 2 ^ (64 * (T.n - 1))) :
    ∃ s', Done E ⟨[T.n, T.n], T.n, K, al, []⟩ prog s s' ∧
      IsMont T.n p (val (wordsAt s'.mem (ptr s 2) T.n))
        (val (wordsAt s.mem (ptr s 0) T.n) * val (wordsAt s.mem (ptr s 1) T.n)) := by
  obtain ⟨s', ρ, σ, hd, f, hc⟩ := check_sound h (tabOK hE) hp (inB_bd g.n_pos ha hb) slack_nil hK (by simp)
    (by rw [List.length_append, bd_length g.n_pos, bd_length g.n_pos]; omega) (by simp)
  refine ⟨s', hd, ?_⟩
  obtain ⟨e1, e2⟩ := in_two f
  refine mont_of_claim f hc ?_
  intro q hq
  rw [Poly.eval_mul f.one _ _ _ hq, e1, e2]; push_cast; rfl

/-! ## The quadratic extension -/

/-- Sum of two products -/
def dot (a b c d : Poly) : Option Poly :=
  match Poly.mul a b, Poly.mul c d with
  | some x, some y => some (Poly.add x y)
  | _, _ => none

theorem eval_dot {ρ : ℕ → ℕ} (h : ρ 0 = 1) {a b c d q : Poly} (hq : dot a b c d = some q) :
    Poly.eval ρ q = Poly.eval ρ a * Poly.eval ρ b + Poly.eval ρ c * Poly.eval ρ d := by
  unfold dot at hq
  cases h1 : Poly.mul a b with
  | none => rw [h1] at hq; cases hq
  | some x =>
    cases h2 : Poly.mul c d with
    | none => rw [h1, h2] at hq; cases hq
    | some y =>
      rw [h1, h2] at hq
      cases hq
      rw [Poly.eval_add, Poly.eval_mul h _ _ _ h1, Poly.eval_mul h _ _ _ h2]

theorem inB_f2 {n o K t0 t1 u0 u1 : ℕ} (hn : 0 < n) {al : List (ℕ × ℕ)} {s : St}
    (ha0 : val (f2At s.mem (ptr s 0) n).c0 < (t0 + 1) * 2 ^ (64 * (n - 1)))
    (ha1 : val (f2At s.mem (ptr s 0) n).c1 < (t1 + 1) * 2 ^ (64 * (n - 1)))
    (hb0 : val (f2At s.mem (ptr s 1) n).c0 < (u0 + 1) * 2 ^ (64 * (n - 1)))
    (hb1 : val (f2At s.mem (ptr s 1) n).c1 < (u1 + 1) * 2 ^ (64 * (n - 1))) :
    InB ⟨[2 * n, 2 * n], o, K, al, []⟩ s ((bd n t0 ++ bd n t1) ++ (bd n u0 ++ bd n u1)) := by
  unfold InB
  dsimp only
  rw [insWords, insWords, insWords, List.append_nil, wordsAt_two, wordsAt_two, List.map_append, List.map_append]
  exact List.rel_append
    (List.rel_append (bd_bound hn (f2At_length _ _ _).1 ha0) (bd_bound hn (f2At_length _ _ _).2 ha1))
    (List.rel_append (bd_bound hn (f2At_length _ _ _).1 hb0) (bd_bound hn (f2At_length _ _ _).2 hb1))

theorem inB_f2' {n o K t0 t1 : ℕ} (hn : 0 < n) {al : List (ℕ × ℕ)} {s : St}
    (ha0 : val (f2At s.mem (ptr s 0) n).c0 < (t0 + 1) * 2 ^ (64 * (n - 1)))
    (ha1 : val (f2At s.mem (ptr s 0) n).c1 < (t1 + 1) * 2 ^ (64 * (n - 1))) :
    InB ⟨[2 * n], o, K, al, []⟩ s (bd n t0 ++ bd n t1) := by
  unfold InB
  dsimp only
  rw [insWords, insWords, List.append_nil, wordsAt_two, List.map_append]
  exact List.rel_append (bd_bound hn (f2At_length _ _ _).1 ha0) (bd_bound hn (f2At_length _ _ _).2 ha1)

theorem slack_mul {n o K k : ℕ} {al : List (ℕ × ℕ)} {s : St} (hk : val (f2At s.mem (ptr s 1) n).c1 ≤ k) :
    SlackOK ⟨[2 * n, 2 * n], o, K, al, []⟩ s [(8 + 3 * n, n, k)] := by
  intro t ht
  rw [List.mem_singleton] at ht
  subst ht
  refine ⟨by dsimp only; omega, by simp; omega, ?_⟩
  dsimp only
  unfold inNum
  rw [insWords, insWords, insWords, List.append_nil, wordsAt_two, wordsAt_two, List.map_append, List.map_append, ← List.append_assoc,
    List.drop_left' (by simp [f2At_length]; omega), List.take_of_length_le (by simp [f2At_length]), natVal_toNat]
  exact hk

theorem slack_sqr {n o K k : ℕ} {al : List (ℕ × ℕ)} {s : St} (hk : val (f2At s.mem (ptr s 0) n).c1 ≤ k) :
    SlackOK ⟨[2 * n], o, K, al, []⟩ s [(8 + n, n, k)] := by
  intro t ht
  rw [List.mem_singleton] at ht
  subst ht
  refine ⟨by dsimp only; omega, by simp; omega, ?_⟩
  dsimp only
  unfold inNum
  rw [insWords, insWords, List.append_nil, wordsAt_two, List.map_append,
    List.drop_left' (by simp [f2At_length]), List.take_of_length_le (by simp [f2At_length]), natVal_toNat]
  exact hk

/-- `fp2mul_c0`: with `d = k - b₁`, the Montgomery reduction of `a₀ b₀ + a₁ d` -/
def fp2mul0Claim (S : Sig) (n p k d : ℕ) (wd : List (ℕ × ℕ)) (ms : List ℕ) (ws : List (ℕ × ℕ)) (σ : Sym) : Bool :=
  σ.zero wd (Poly.sub (num d n) (Poly.sub (Poly.const k) (num (8 + 3 * n) n))) &&
  montClaim S n p ms ws (dot (num 8 n) (num (8 + 2 * n) n) (num (8 + n) n) (num d n)) σ

theorem fp2mul0_of_check (g : Good T p) {K t0 t1 u0 u1 k d : ℕ} {al : List (ℕ × ℕ)} {wd : List (ℕ × ℕ)} {ms : List ℕ}
    {ws : List (ℕ × ℕ)} {prog : List Instr} {hints : List (ℕ × Hint)}
    (h : check (tabsOf T x8) ⟨[2 * T.n, 2 * T.n], T.n, K, al, []⟩ prog hints ((bd T.n t0 ++ bd T.n t1) ++ (bd T.n u0 ++ bd T.n u1)) [(8 + 3 * T.n, T.n, k)]
      (fp2mul0Claim ⟨[2 * T.n, 2 * T.n], T.n, K, al, []⟩ T.n p k d wd ms ws) = true)
    (hK : K % 8 = 0) (hn : 4 * T.n < 1000) {E : Env} (hE : E.tab = tableOf T x8) {s : St}
    (hp : Pre E ⟨[2 * T.n, 2 * T.n], T.n, K, al, []⟩ s)
    (ha0 : val (f2At s.mem (ptr s 0) T.n).c0 < (t0 + 1) * 2 ^ (64 * (T.n - 1)))
    (ha1 : val (f2At s.mem (ptr s 0) T.n).c1 < (t1 + 1) * 2 ^ (64 * (T.n - 1)))
    (hb0 : val (f2At s.mem (ptr s 1) T.n).c0 < (u0 + 1) * 2 ^ (64 * (T.n - 1)))
    (hb1 : val (f2At s.mem (ptr s 1) T.n).c1 < (u1 + 1) * 2 ^ (64 * (T.n - 1)))
    (hk : val (f2At s.mem (ptr s 1) T.n).c1 ≤ k) :
    ∃ s', Done E ⟨[2 * T.n, 2 * T.n], T.n, K, al, []⟩ prog s s' ∧
      IsMont T.n p (val (wordsAt s'.mem (ptr s 2) T.n))
        (val (f2At s.mem (ptr s 0) T.n).c0 * val (f2At s.mem (ptr s 1) T.n).c0 +
          val (f2At s.mem (ptr s 0) T.n).c1 * (k - val (f2At s.mem (ptr s 1) T.n).c1)) := by
  obtain ⟨s', ρ, σ, hd, f, hc⟩ := check_sound h (tabOK hE) hp (inB_f2 g.n_pos ha0 ha1 hb0 hb1) (slack_mul hk) hK (by simp)
    (by simp only [List.length_append, bd_length g.n_pos]; omega) (by simp)
  refine ⟨s', hd, ?_⟩
  obtain ⟨e1, e2, e3, e4⟩ := in_two2 f
  unfold fp2mul0Claim at hc
  rw [Bool.and_eq_true] at hc
  have hz := zero_sound f.eqs hc.1
  rw [Poly.eval_sub, Poly.eval_sub, Poly.eval_const f.one, e4] at hz
  refine mont_of_claim f hc.2 ?_
  intro q hq
  rw [eval_dot f.one hq, e1, e2, e3, show Poly.eval ρ (num d T.n) = (k : ℤ) - val (f2At s.mem (ptr s 1) T.n).c1 by linarith]
  push_cast [Nat.cast_sub hk]; rfl

/-- `fp2mul_c1`: the Montgomery reduction of `a₁ b₀ + a₀ b₁` -/
def fp2mul1Claim (S : Sig) (n p : ℕ) (ms : List ℕ) (ws : List (ℕ × ℕ)) (σ : Sym) : Bool :=
  montClaim S n p ms ws (dot (num 8 n) (num (8 + 3 * n) n) (num (8 + n) n) (num (8 + 2 * n) n)) σ

theorem fp2mul1_of_check (g : Good T p) {K t0 t1 u0 u1 : ℕ} {al : List (ℕ × ℕ)} {ms : List ℕ}
    {ws : List (ℕ × ℕ)} {prog : List Instr} {hints : List (ℕ × Hint)}
    (h : check (tabsOf T x8) ⟨[2 * T.n, 2 * T.n], T.n, K, al, []⟩ prog hints ((bd T.n t0 ++ bd T.n t1) ++ (bd T.n u0 ++ bd T.n u1)) []
      (fp2mul1Claim ⟨[2 * T.n, 2 * T.n], T.n, K, al, []⟩ T.n p ms ws) = true)
    (hK : K % 8 = 0) (hn : 4 * T.n < 1000) {E : Env} (hE : E.tab = tableOf T x8) {s : St}
    (hp : Pre E ⟨[2 * T.n, 2 * T.n], T.n, K, al, []⟩ s)
    (ha0 : val (f2At s.mem (ptr s 0) T.n).c0 < (t0 + 1) * 2 ^ (64 * (T.n - 1)))
    (ha1 : val (f2At s.mem (ptr s 0) T.n).c1 < (t1 + 1) * 2 ^ (64 * (T.n - 1)))
    (hb0 : val (f2At s.mem (ptr s 1) T.n).c0 < (u0 + 1) * 2 ^ (64 * (T.n - 1)))
    (hb1 : val (f2At s.mem (ptr s 1) T.n).c1 < (u1 + 1) * 2 ^ (64 * (T.n - 1))) :
    ∃ s', Done E ⟨[2 * T.n, 2 * T.n], T.n, K, al, []⟩ prog s s' ∧
      IsMont T.n p (val (wordsAt s'.mem (ptr s 2) T.n))
        (val (f2At s.mem (ptr s 0) T.n).c0 * val (f2At s.mem (ptr s 1) T.n).c1 +
          val (f2At s.mem (ptr s 0) T.n).c1 * val (f2At s.mem (ptr s 1) T.n).c0) := by
  obtain ⟨s', ρ, σ, hd, f, hc⟩ := check_sound h (tabOK hE) hp (inB_f2 g.n_pos ha0 ha1 hb0 hb1) slack_nil hK (by simp)
    (by simp only [List.length_append, bd_length g.n_pos]; omega) (by simp)
  refine ⟨s', hd, ?_⟩
  obtain ⟨e1, e2, e3, e4⟩ := in_two2 f
  refine mont_of_claim f hc ?_
  intro q hq
  rw [eval_dot f.one hq, e1, e2, e3, e4]
  push_cast; rfl

/-- `fp2sqr_c0`: with `x = a₀ + a₁` and `d = a₀ - a₁ + k`, the Montgomery reduction of `x d` -/
def fp2sqr0Claim (S : Sig) (n p k x d : ℕ) (wx wd : List (ℕ × ℕ)) (ms : List ℕ) (ws : List (ℕ × ℕ)) (σ : Sym) : Bool :=
  σ.zero wx (Poly.sub (num x n) (Poly.add (num 8 n) (num (8 + n) n))) &&
  σ.zero wd (Poly.sub (num d n) (Poly.add (Poly.sub (num 8 n) (num (8 + n) n)) (Poly.const k))) &&
  montClaim S n p ms ws (Poly.mul (num x n) (num d n)) σ

theorem fp2sqr0_of_check (g : Good T p) {K o t0 t1 k x d : ℕ} {al : List (ℕ × ℕ)} {wx wd : List (ℕ × ℕ)} {ms : List ℕ}
    {ws : List (ℕ × ℕ)} {prog : List Instr} {hints : List (ℕ × Hint)}
    (h : check (tabsOf T x8) ⟨[2 * T.n], o, K, al, []⟩ prog hints (bd T.n t0 ++ bd T.n t1) [(8 + T.n, T.n, k)]
      (fp2sqr0Claim ⟨[2 * T.n], T.n, K, al, []⟩ T.n p k x d wx wd ms ws) = true)
    (hK : K % 8 = 0) (hn : 4 * T.n < 1000) {E : Env} (hE : E.tab = tableOf T x8) {s : St}
    (hp : Pre E ⟨[2 * T.n], o, K, al, []⟩ s)
    (ha0 : val (f2At s.mem (ptr s 0) T.n).c0 < (t0 + 1) * 2 ^ (64 * (T.n - 1)))
    (ha1 : val (f2At s.mem (ptr s 0) T.n).c1 < (t1 + 1) * 2 ^ (64 * (T.n - 1)))
    (hk : val (f2At s.mem (ptr s 0) T.n).c1 ≤ k) :
    ∃ s', Done E ⟨[2 * T.n], o, K, al, []⟩ prog s s' ∧
      IsMont T.n p (val (wordsAt s'.mem (ptr s 1) T.n))
        ((val (f2At s.mem (ptr s 0) T.n).c0 + val (f2At s.mem (ptr s 0) T.n).c1) *
          (val (f2At s.mem (ptr s 0) T.n).c0 + k - val (f2At s.mem (ptr s 0) T.n).c1)) := by
  obtain ⟨s', ρ, σ, hd, f, hc⟩ := check_sound h (tabOK hE) hp (inB_f2' g.n_pos ha0 ha1) (slack_sqr hk) hK (by simp)
    (by simp only [List.length_append, bd_length g.n_pos]; omega) (by simp)
  refine ⟨s', hd, ?_⟩
  obtain ⟨e1, e2⟩ := in_one2 f
  unfold fp2sqr0Claim at hc
  rw [Bool.and_eq_true, Bool.and_eq_true] at hc
  have hx := zero_sound f.eqs hc.1.1
  have hz := zero_sound f.eqs hc.1.2
  rw [Poly.eval_sub, Poly.eval_add, e1, e2] at hx
  rw [Poly.eval_sub, Poly.eval_add, Poly.eval_sub, Poly.eval_const f.one, e1, e2] at hz
  have f' : Found ⟨[2 * T.n], T.n, K, al, []⟩ s s' ρ σ := ⟨f.one, f.lim, f.bnd, f.eqs, f.inp, f.out⟩
  refine mont_of_claim f' hc.2 ?_
  intro q hq
  rw [Poly.eval_mul f.one _ _ _ hq,
    show Poly.eval ρ (num d T.n) = (val (f2At s.mem (ptr s 0) T.n).c0 : ℤ) + k - val (f2At s.mem (ptr s 0) T.n).c1 by linarith,
    show Poly.eval ρ (num x T.n) = (val (f2At s.mem (ptr s 0) T.n).c0 : ℤ) + val (f2At s.mem (ptr s 0) T.n).c1 by linarith]
  have h1 : val (f2At s.mem (ptr s 0) T.n).c1 ≤ val (f2At s.mem (ptr s 0) T.n).c0 + k := by omega
  push_cast [Nat.cast_sub h1]; rfl

/-- `fp2sqr_c1`: with `x = 2 a₀`, the Montgomery reduction of `x a₁` -/
def fp2sqr1Claim (S : Sig) (n p x : ℕ) (wx : List (ℕ × ℕ)) (ms : List ℕ) (ws : List (ℕ × ℕ)) (σ : Sym) : Bool :=
  σ.zero wx (Poly.sub (num x n) (Poly.add (num 8 n) (num 8 n))) &&
  montClaim S n p ms ws (Poly.mul (num x n) (num (8 + n) n)) σ

theorem fp2sqr1_of_check (g : Good T p) {K t0 t1 x : ℕ} {al : List (ℕ × ℕ)} {wx : List (ℕ × ℕ)} {ms : List ℕ}
    {ws : List (ℕ × ℕ)} {prog : List Instr} {hints : List (ℕ × Hint)}
    (h : check (tabsOf T x8) ⟨[2 * T.n], T.n, K, al, []⟩ prog hints (bd T.n t0 ++ bd T.n t1) []
      (fp2sqr1Claim ⟨[2 * T.n], T.n, K, al, []⟩ T.n p x wx ms ws) = true)
    (hK : K % 8 = 0) (hn : 4 * T.n < 1000) {E : Env} (hE : E.tab = tableOf T x8) {s : St}
    (hp : Pre E ⟨[2 * T.n], T.n, K, al, []⟩ s)
    (ha0 : val (f2At s.mem (ptr s 0) T.n).c0 < (t0 + 1) * 2 ^ (64 * (T.n - 1)))
    (ha1 : val (f2At s.mem (ptr s 0) T.n).c1 < (t1 + 1) * 2 ^ (64 * (T.n - 1))) :
    ∃ s', Done E ⟨[2 * T.n], T.n, K, al, []⟩ prog s s' ∧
      IsMont T.n p (val (wordsAt s'.mem (ptr s 1) T.n))
        ((val (f2At s.mem (ptr s 0) T.n).c0 + val (f2At s.mem (ptr s 0) T.n).c0) * val (f2At s.mem (ptr s 0) T.n).c1) := by
  obtain ⟨s', ρ, σ, hd, f, hc⟩ := check_sound h (tabOK hE) hp (inB_f2' g.n_pos ha0 ha1) slack_nil hK (by simp)
    (by simp only [List.length_append, bd_length g.n_pos]; omega) (by simp)
  refine ⟨s', hd, ?_⟩
  obtain ⟨e1, e2⟩ := in_one2 f
  unfold fp2sqr1Claim at hc
  rw [Bool.and_eq_true] at hc
  have hx := zero_sound f.eqs hc.1
  rw [Poly.eval_sub, Poly.eval_add, e1] at hx
  refine mont_of_claim f hc.2 ?_
  intro q hq
  rw [Poly.eval_mul f.one _ _ _ hq, e2,
    show Poly.eval ρ (num x T.n) = (val (f2At s.mem (ptr s 0) T.n).c0 : ℤ) + val (f2At s.mem (ptr s 0) T.n).c0 by linarith]
  push_cast; rfl

end Secuer.X64
