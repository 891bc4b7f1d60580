import Verif.X64.Routine

/-!
# The kinds of routines of p751

For p751 the assembly has the product, the reduction and the two combined additions and subtractions of double-width numbers
as functions of their own (`P751/AMD64/fp_x64_asm.S`).
-/

namespace Secuer.X64

open Secuer.Word

variable {T : Tables} {p : ℕ} {x8 : List Digit}

/-! ## The product -/

/-- The output is the product of the inputs -/
def mulClaim (S : Sig) (n : ℕ) (ws : List (ℕ × ℕ)) (σ : Sym) : Bool :=
  match σ.outNum S, Poly.mul (num 8 n) (num (8 + n) n) with
  | some O, some P => σ.zero ws (Poly.sub O P)
  | _, _ => false

theorem mul_of_found {n K : ℕ} {al : List (ℕ × ℕ)} {ws : List (ℕ × ℕ)} (hn : 2 * n < 1000) (hn0 : 0 < n) {s s' : St} {ρ : ℕ → ℕ} {σ : Sym}
    (f : Found ⟨[n, n], 2 * n, K, al, []⟩ s s' ρ σ)
    (hc : mulClaim ⟨[n, n], 2 * n, K, al, []⟩ n ws σ = true) :
    mpMul n (wordsAt s.mem (ptr s 0) n) (wordsAt s.mem (ptr s 1) n) = some (wordsAt s'.mem (ptr s 2) (2 * n)) := by
  obtain ⟨e1, e2⟩ := in_two f
  unfold mulClaim at hc
  cases ho : σ.outNum ⟨[n, n], 2 * n, K, al, []⟩ with
  | none => rw [ho] at hc; cases hc
  | some O =>
    cases hm : Poly.mul (num 8 n) (num (8 + n) n) with
    | none => rw [ho, hm] at hc; cases hc
    | some P =>
      rw [ho, hm] at hc
      have h1 := zero_sound f.eqs hc
      rw [Poly.eval_sub, outNum_sound f ho, Poly.eval_mul f.one _ _ _ hm, e1, e2] at h1
      obtain ⟨c, ec, lc, vc⟩ := mpMul_spec hn0 (by omega) (wordsAt_length s.mem (ptr s 0) n) (wordsAt_length s.mem (ptr s 1) n)
      rw [ec]
      congr 1
      have hl : (wordsAt s'.mem (ptr s 2) (2 * n)).length = 2 * n := wordsAt_length _ _ _
      refine val_inj (by rw [hl, lc]) ?_
      rw [vc]
      have h2 : ((val (wordsAt s'.mem (ptr s 2) (2 * n)) : ℕ) : ℤ) =
          ((val (wordsAt s.mem (ptr s 0) n) * val (wordsAt s.mem (ptr s 1) n) : ℕ) : ℤ) := by
        push_cast
        exact sub_eq_zero.mp h1
      exact_mod_cast h2.symm

theorem mul_of_check {n K t u : ℕ} {al : List (ℕ × ℕ)} {ws : List (ℕ × ℕ)} {prog : List Instr} {hints : List (ℕ × Hint)}
    (h : check (tabsOf T x8) ⟨[n, n], 2 * n, K, al, []⟩ prog hints (bd n t ++ bd n u) []
      (mulClaim ⟨[n, n], 2 * n, K, al, []⟩ n ws) = true)
    (hK : K % 8 = 0) (hn : 2 * n < 1000) (hn0 : 0 < n) {E : Env} (hE : E.tab = tableOf T x8) {s : St}
    (hp : Pre E ⟨[n, n], 2 * n, K, al, []⟩ s)
    (ha : val (wordsAt s.mem (ptr s 0) n) < (t + 1) * 2 ^ (64 * (n - 1)))
    (hb : val (wordsAt s.mem (ptr s 1) n) < (u + 1) * 2 ^ (64 * (n - 1))) :
    ∃ s', Done E ⟨[n, n], 2 * n, K, al, []⟩ prog s s' ∧
      mpMul n (wordsAt s.mem (ptr s 0) n) (wordsAt s.mem (ptr s 1) n) = some (wordsAt s'.mem (ptr s 2) (2 * n)) := by
  obtain ⟨s', ρ, σ, hd, f, hc⟩ := check_sound h (tabOK hE) hp (inB_bd hn0 ha hb) slack_nil hK (by simp)
    (by rw [List.length_append, bd_length hn0, bd_length hn0]; omega) (by simp)
  exact ⟨s', hd, mul_of_found hn hn0 f hc⟩

/-! ## The reduction -/

/-- One input of `2 n` words -/
theorem in_one {n o K : ℕ} {al : List (ℕ × ℕ)} {io : List ℕ} {s s' : St} {ρ : ℕ → ℕ} {σ : Sym}
    (f : Found ⟨[n], o, K, al, io⟩ s s' ρ σ) : Poly.eval ρ (num 8 n) = val (wordsAt s.mem (ptr s 0) n) :=
  in_sound f (k := 0) (by omega) (by simp) (slice_mid [] _ _ rfl (by rw [List.length_map, wordsAt_length]))

/-- The output is a Montgomery reduction of the input -/
def rdcClaim (S : Sig) (n p : ℕ) (ms : List ℕ) (ws : List (ℕ × ℕ)) (σ : Sym) : Bool :=
  montClaim S n p ms ws (some (num 8 (2 * n))) σ

theorem rdc_of_found (g : Good T p) {K : ℕ} {al : List (ℕ × ℕ)} {ms : List ℕ} {ws : List (ℕ × ℕ)} {s s' : St} {ρ : ℕ → ℕ} {σ : Sym}
    (f : Found ⟨[2 * T.n], T.n, K, al, [0]⟩ s s' ρ σ)
    (hc : rdcClaim ⟨[2 * T.n], T.n, K, al, [0]⟩ T.n p ms ws σ = true)
    (hm : val (wordsAt s.mem (ptr s 0) (2 * T.n)) < 2 ^ (64 * T.n) * p) :
    rdcMont T (wordsAt s.mem (ptr s 0) (2 * T.n)) = some (wordsAt s'.mem (ptr s 1) T.n) := by
  have h1 := mont_of_claim f hc (m := val (wordsAt s.mem (ptr s 0) (2 * T.n))) (by
    intro q hq
    cases hq
    exact in_one f)
  obtain ⟨c, q, ec, lc, hq, hv⟩ := rdcMont_exact g (wordsAt_length s.mem (ptr s 0) (2 * T.n)) hm
  rw [ec]
  congr 1
  have hl : (wordsAt s'.mem (ptr s 1) T.n).length = T.n := wordsAt_length _ _ _
  refine val_inj (by rw [hl, lc]) ?_
  exact IsMont.unique g.odd ⟨q, hq, hv⟩ h1

theorem rdc_of_check (g : Good T p) {K t : ℕ} {al : List (ℕ × ℕ)} {ms : List ℕ} {ws : List (ℕ × ℕ)} {prog : List Instr}
    {hints : List (ℕ × Hint)}
    (h : check (tabsOf T x8) ⟨[2 * T.n], T.n, K, al, [0]⟩ prog hints (bd (2 * T.n) t) []
      (rdcClaim ⟨[2 * T.n], T.n, K, al, [0]⟩ T.n p ms ws) = true)
    (hK : K % 8 = 0) (hn : 2 * T.n < 1000) {E : Env} (hE : E.tab = tableOf T x8) {s : St}
    (hp : Pre E ⟨[2 * T.n], T.n, K, al, [0]⟩ s)
    (ha : val (wordsAt s.mem (ptr s 0) (2 * T.n)) < (t + 1) * 2 ^ (64 * (2 * T.n - 1)))
    (hm : val (wordsAt s.mem (ptr s 0) (2 * T.n)) < 2 ^ (64 * T.n) * p) :
    ∃ s', Done E ⟨[2 * T.n], T.n, K, al, [0]⟩ prog s s' ∧
      rdcMont T (wordsAt s.mem (ptr s 0) (2 * T.n)) = some (wordsAt s'.mem (ptr s 1) T.n) := by
  have hn0 : 0 < 2 * T.n := by have := g.n_pos; omega
  have hin : InB ⟨[2 * T.n], T.n, K, al, [0]⟩ s (bd (2 * T.n) t) := by
    unfold InB
    dsimp only
    rw [insWords, insWords, List.append_nil]
    exact bd_bound hn0 (wordsAt_length _ _ _) ha
  obtain ⟨s', ρ, σ, hd, f, hc⟩ := check_sound h (tabOK hE) hp hin slack_nil hK (by simp)
    (by rw [bd_length hn0]; omega) (by simp)
  exact ⟨s', hd, rdc_of_found g f hc hm⟩

/-! ## Additions and subtractions of double-width numbers -/

theorem subadd_fix {n : ℕ} {a b x : List Digit} (ha : a.length = 2 * n) (hb : b.length = 2 * n) (hx : x.length = n) :
    (addLoop 0 (subLoop 0 a b).2 (masked (maskOf (subLoop 0 a b).1) (List.replicate n 0 ++ x))).2 =
      (subLoop 0 a b).2.take n ++ (addLoop 0 ((subLoop 0 a b).2.drop n) (masked (maskOf (subLoop 0 a b).1) x)).2 := by
  obtain ⟨l, hb1, -⟩ := sub0 ha hb
  have lx : (List.replicate n (0 : Digit) ++ x).length = 2 * n := by simp [hx]; omega
  obtain ⟨l1, v1⟩ := add0 l ((masked_length (maskOf (subLoop 0 a b).1) (List.replicate n 0 ++ x)).trans lx)
  have ltk : ((subLoop 0 a b).2.take n).length = n := by rw [List.length_take, l]; omega
  have ldr : ((subLoop 0 a b).2.drop n).length = n := by rw [List.length_drop, l]; omega
  obtain ⟨l2, v2⟩ := add0 ldr ((masked_length (maskOf (subLoop 0 a b).1) x).trans hx)
  have hsplit := val_take_drop (x := (subLoop 0 a b).2) (n := n) (by rw [l]; omega)
  have hlt := val_lt ((subLoop 0 a b).2.take n)
  rw [ltk] at hlt
  refine val_inj (by rw [l1, List.length_append, ltk, l2]; omega) ?_
  rw [v1, val_masked hb1, val_append, val_append, ltk, v2, val_masked hb1, val_replicate_zero, List.length_replicate, ← hsplit]
  have e2 : (2 : ℕ) ^ (64 * (2 * n)) = 2 ^ (64 * n) * 2 ^ (64 * n) := by rw [← pow_add]; congr 1; ring
  rw [e2]
  generalize val ((subLoop 0 a b).2.take n) = lo at *
  generalize val ((subLoop 0 a b).2.drop n) = hi at *
  generalize 2 ^ (64 * n) = R at *
  have hR : 0 < R := by omega
  have e : lo + R * hi + (subLoop 0 a b).1.toNat * (0 + R * val x) = lo + R * (hi + (subLoop 0 a b).1.toNat * val x) := by ring
  rw [e, Nat.mod_mul, Nat.add_mul_mod_self_left, Nat.mod_eq_of_lt hlt, Nat.add_mul_div_left _ _ hR, Nat.div_eq_of_lt hlt,
    Nat.zero_add]

theorem subadd_of_found (g : Good T p) {K y c : ℕ} {al : List (ℕ × ℕ)} {s s' : St} {ρ : ℕ → ℕ} {σ : Sym}
    (f : Found ⟨[2 * T.n, 2 * T.n], 2 * T.n, K, al, []⟩ s s' ρ σ)
    (hc : fpsubClaim ⟨[2 * T.n, 2 * T.n], 2 * T.n, K, al, []⟩ (2 * T.n) (p * 2 ^ (64 * T.n)) y c σ = true) :
    wordsAt s'.mem (ptr s 2) (2 * T.n) = mpSubaddfast T (wordsAt s.mem (ptr s 0) (2 * T.n)) (wordsAt s.mem (ptr s 1) (2 * T.n)) := by
  obtain ⟨e1, e2⟩ := in_two f
  unfold fpsubClaim at hc
  cases ho : σ.outNum ⟨[2 * T.n, 2 * T.n], 2 * T.n, K, al, []⟩ with
  | none => rw [ho] at hc; cases hc
  | some O =>
    rw [ho] at hc
    simp only [Bool.and_eq_true] at hc
    obtain ⟨⟨⟨c1, c3⟩, c5⟩, c6⟩ := hc
    obtain ⟨Y, ye, yl⟩ := num_sound f.one f.bnd c1
    obtain ⟨ce, cl⟩ := below_one f.one f.bnd c3
    have h5 := zero_sound f.eqs c5
    have h6 := cong_sound f.eqs c6
    rw [Poly.eval_sub, Poly.eval_add, Poly.eval_sub, Poly.eval_scale, e1, e2, ye, ce] at h5
    have hv : val (List.replicate T.n 0 ++ T.p) = p * 2 ^ (64 * T.n) := by
      rw [val_append, val_replicate_zero, List.length_replicate, g.val_p]; ring
    rw [← hv, Poly.eval_sub, Poly.eval_add, Poly.eval_scale, ye, ce, outNum_sound f ho] at h6
    have := fixup_eq (wordsAt_length s.mem (ptr s 0) (2 * T.n)) (wordsAt_length s.mem (ptr s 1) (2 * T.n)) (x := List.replicate T.n 0 ++ T.p)
      (by simp [g.len_p]; omega) (wordsAt_length _ _ _) yl cl (by linarith) h6
    refine this.trans ?_
    exact subadd_fix (wordsAt_length _ _ _) (wordsAt_length _ _ _) g.len_p

theorem subadd_of_check (g : Good T p) {K y c : ℕ} {al : List (ℕ × ℕ)} {prog : List Instr} {hints : List (ℕ × Hint)}
    (h : check (tabsOf T x8) ⟨[2 * T.n, 2 * T.n], 2 * T.n, K, al, []⟩ prog hints (full (2 * (2 * T.n))) []
      (fpsubClaim ⟨[2 * T.n, 2 * T.n], 2 * T.n, K, al, []⟩ (2 * T.n) (p * 2 ^ (64 * T.n)) y c) = true)
    (hK : K % 8 = 0) (hn : 2 * (2 * T.n) < 1000) {E : Env} (hE : E.tab = tableOf T x8) {s : St}
    (hp : Pre E ⟨[2 * T.n, 2 * T.n], 2 * T.n, K, al, []⟩ s) :
    ∃ s', Done E ⟨[2 * T.n, 2 * T.n], 2 * T.n, K, al, []⟩ prog s s' ∧
      wordsAt s'.mem (ptr s 2) (2 * T.n) =
        mpSubaddfast T (wordsAt s.mem (ptr s 0) (2 * T.n)) (wordsAt s.mem (ptr s 1) (2 * T.n)) := by
  obtain ⟨s', ρ, σ, hd, f, hc⟩ := check_sound h (tabOK hE) hp (inB_two s) slack_nil hK (by simp) (by simpa [full] using hn) (by simp)
  exact ⟨s', hd, subadd_of_found g f hc⟩

/-- Three inputs of `n` words -/
theorem in_three {n o K : ℕ} {al : List (ℕ × ℕ)} {io : List ℕ} {s s' : St} {ρ : ℕ → ℕ} {σ : Sym}
    (f : Found ⟨[n, n, n], o, K, al, io⟩ s s' ρ σ) :
    Poly.eval ρ (num 8 n) = val (wordsAt s.mem (ptr s 0) n) ∧
      Poly.eval ρ (num (8 + n) n) = val (wordsAt s.mem (ptr s 1) n) ∧
      Poly.eval ρ (num (8 + 2 * n) n) = val (wordsAt s.mem (ptr s 2) n) := by
  refine ⟨in_sound f (k := 0) (by omega) (by simp) ?_, in_sound f (k := n) rfl (by simp <;> omega) ?_,
    in_sound f (k := 2 * n) rfl (by simp <;> omega) ?_⟩
  · exact slice_mid [] _ _ rfl (by rw [List.length_map, wordsAt_length])
  · exact slice_mid _ _ _ (by rw [List.length_map, wordsAt_length]) (by rw [List.length_map, wordsAt_length])
  · dsimp only
    rw [insWords, insWords, insWords, insWords, ← List.append_assoc]
    exact slice_mid _ _ [] (by rw [List.length_append, List.length_map, List.length_map, wordsAt_length, wordsAt_length]; omega)
      (by rw [List.length_map, wordsAt_length])

/-- The third argument becomes `c - a - b` modulo `2^(64 n)` -/
def dblsubClaim (n : ℕ) (σ : Sym) : Bool :=
  match σ.words 3 0 n with
  | some ps => σ.cong [] (2 ^ (64 * n))
      (Poly.sub (Poly.horner ps) (Poly.sub (Poly.sub (num (8 + 2 * n) n) (num 8 n)) (num (8 + n) n)))
  | none => false

theorem sub0_mod {n : ℕ} {a b : List Digit} (ha : a.length = n) (hb : b.length = n) :
    (subLoop 0 a b).2.length = n ∧ (2 : ℤ) ^ (64 * n) ∣ (val a : ℤ) - val b - val (subLoop 0 a b).2 := by
  obtain ⟨l, _, h⟩ := sub0 ha hb
  refine ⟨l, ?_⟩
  have h3 : ((2 ^ (64 * n) : ℕ) : ℤ) = 2 ^ (64 * n) := by push_cast; rfl
  rcases h with ⟨h1, _, h2⟩ | ⟨h1, _, h2⟩
  · refine ⟨0, ?_⟩
    rw [h2]; omega
  · refine ⟨-1, ?_⟩
    have hlt := val_lt b
    rw [hb] at hlt
    rw [h2, ← h3]
    omega

theorem dblsub_of_found {n K : ℕ} {s s' : St} {ρ : ℕ → ℕ} {σ : Sym}
    (f : Found ⟨[n, n, n], 0, K, [], [2]⟩ s s' ρ σ)
    (hc : dblsubClaim n σ = true) :
    wordsAt s'.mem (ptr s 2) n = mpDblsubfast (wordsAt s.mem (ptr s 0) n) (wordsAt s.mem (ptr s 1) n) (wordsAt s.mem (ptr s 2) n) := by
  obtain ⟨e1, e2, e3⟩ := in_three f
  unfold dblsubClaim at hc
  cases ho : σ.words 3 0 n with
  | none => rw [ho] at hc; cases hc
  | some ps =>
    rw [ho] at hc
    have h1 := cong_sound f.eqs hc
    have hw := words_sound f (i := 2) (by simp) n 0 ps ho
    rw [← List.range_eq_range'] at hw
    have hw : Poly.eval ρ (Poly.horner ps) = val (wordsAt s'.mem (ptr s 2) n) := hw
    rw [Poly.eval_sub, Poly.eval_sub, Poly.eval_sub, hw, e1, e2, e3] at h1
    obtain ⟨l1, d1⟩ := sub0_mod (wordsAt_length s.mem (ptr s 2) n) (wordsAt_length s.mem (ptr s 0) n)
    obtain ⟨l2, d2⟩ := sub0_mod l1 (wordsAt_length s.mem (ptr s 1) n)
    have hl : (wordsAt s'.mem (ptr s 2) n).length = n := wordsAt_length _ _ _
    refine val_inj (by rw [hl]; exact l2.symm) ?_
    have b1 := val_lt (wordsAt s'.mem (ptr s 2) n)
    rw [hl] at b1
    have b2 := val_lt (subLoop 0 (subLoop 0 (wordsAt s.mem (ptr s 2) n) (wordsAt s.mem (ptr s 0) n)).2 (wordsAt s.mem (ptr s 1) n)).2
    rw [l2] at b2
    refine eq_of_dvd b1 b2 ?_
    have h3 : ((2 ^ (64 * n) : ℕ) : ℤ) = 2 ^ (64 * n) := by push_cast; rfl
    rw [h3]
    have h4 := dvd_add h1 (dvd_add d1 d2)
    have e : ∀ x y z u v w : ℤ, x - (y - z - u) + (y - z - v + (v - u - w)) = x - w := by intros; ring
    rw [e] at h4
    exact h4

theorem dblsub_of_check {n K : ℕ} {prog : List Instr} {hints : List (ℕ × Hint)}
    (h : check (tabsOf T x8) ⟨[n, n, n], 0, K, [], [2]⟩ prog hints (full (3 * n)) [] (dblsubClaim n) = true)
    (hK : K % 8 = 0) (hn : 3 * n < 1000) {E : Env} (hE : E.tab = tableOf T x8) {s : St}
    (hp : Pre E ⟨[n, n, n], 0, K, [], [2]⟩ s) :
    ∃ s', Done E ⟨[n, n, n], 0, K, [], [2]⟩ prog s s' ∧
      wordsAt s'.mem (ptr s 2) n =
        mpDblsubfast (wordsAt s.mem (ptr s 0) n) (wordsAt s.mem (ptr s 1) n) (wordsAt s.mem (ptr s 2) n) := by
  have hin : InB ⟨[n, n, n], 0, K, [], [2]⟩ s (full (3 * n)) := by
    unfold InB
    dsimp only
    rw [insWords, insWords, insWords, insWords, List.append_nil, ← List.map_append, ← List.map_append]
    have := full_bound (wordsAt s.mem (ptr s 0) n ++ (wordsAt s.mem (ptr s 1) n ++ wordsAt s.mem (ptr s 2) n))
    rwa [List.length_append, List.length_append, wordsAt_length, wordsAt_length, wordsAt_length,
      show n + (n + n) = 3 * n by ring] at this
  obtain ⟨s', ρ, σ, hd, f, hc⟩ := check_sound h (tabOK hE) hp hin slack_nil hK (by simp) (by simpa [full] using hn) (by simp)
  exact ⟨s', hd, dblsub_of_found f hc⟩

end Secuer.X64
