import Verif.X64.Backend

/-!
# The product in the quadratic extension of the default build

`fp2mul_mont` of the default build on x86-64 (`fpx.c:334-358`), from the routines: for p751 the portable result word for word, for
all sets in range and the product of the values.
-/

set_option maxRecDepth 100000

namespace Secuer.X64

open Secuer.Word Secuer.Field

theorem wrap_lt {x y M : ℕ} (hx : 2 * x < M) (hy : 2 * y < M) : (if y ≤ x then x - y else x + M - y) < M := by
  split <;> omega

theorem le_wrap {x y M : ℕ} (hy : 2 * y < M) : y ≤ x + M := by omega

theorem half_lt {x y M : ℕ} (hx : 2 * x < M) (hy : 2 * y < M) : x + y < M := by omega

/-- The sequence of calls of `fp2mul_mont` without the two routines, over any routines -/
def glue (mul : List Digit → List Digit → Option (List Digit)) (dbl : List Digit → List Digit → List Digit → Option (List Digit))
    (sa : List Digit → List Digit → Option (List Digit)) (rdc : List Digit → Option (List Digit)) (a b : F2)
    (t1 t2 : List Digit) : Option F2 := do
  let tt1 ← mul a.c0 b.c0
  let tt2 ← mul a.c1 b.c1
  let tt3 ← mul t1 t2
  let tt3 ← dbl tt1 tt2 tt3
  let tt1 ← sa tt1 tt2
  let c1 ← rdc tt3
  let c0 ← rdc tt1
  some ⟨c0, c1⟩

theorem glue_eq {mul dbl sa rdc} {a b : F2} {t1 t2 m1 m2 m3 d s : List Digit} (y1 : mul a.c0 b.c0 = some m1)
    (y2 : mul a.c1 b.c1 = some m2) (y3 : mul t1 t2 = some m3) (d1 : dbl m1 m2 m3 = some d) (d2 : sa m1 m2 = some s) :
    glue mul dbl sa rdc a b t1 t2 = (rdc d).bind fun c1 => (rdc s).bind fun c0 => some ⟨c0, c1⟩ := by
  unfold glue
  simp only [Option.bind_eq_bind, y1, y2, y3, d1, d2, Option.bind_some]

theorem fp2mulX_glue (a b : F2) : fp2mulX .l751 a b =
    (glue mpMul751X (fun x y z => dblsub751F.call .l751 [x, y, z] 2 24) (fun x y => subadd751F.call .l751 [x, y] 2 24) rdc751X
      a b (mpAddX .l751 a.c0 a.c1) (mpAddX .l751 b.c0 b.c1)).getD ⟨[], []⟩ := by
  unfold fp2mulX glue
  dsimp only [small]

theorem fp2mul_glue (T : Tables) (a b : F2) : fp2mulC T a b =
    (glue (mpMul T.n) (fun x y z => some (mpDblsubfast x y z)) (fun x y => some (mpSubaddfast T x y)) (rdcMont T)
      a b (mpAddfastC a.c0 a.c1) (mpAddfastC b.c0 b.c1)).getD ⟨[], []⟩ := by
  unfold fp2mulC fp2mul? glue
  rfl

/-- For p751 the product in the quadratic extension is the one of the portable code. -/
theorem fp2mulX_751 {a b : F2} {B C : ℕ} (la0 : a.c0.length = 12) (la1 : a.c1.length = 12)
    (lb0 : b.c0.length = 12) (lb1 : b.c1.length = 12) (ha : Below (B * Level.l751.p) a) (hb : Below (C * Level.l751.p) b)
    (hB : B ≤ 64) (hC : C ≤ 64) (h : 2 * B * C ≤ 256) : fp2mulX .l751 a b = fp2mulC words751 a b := by
  have g : Good words751 Level.l751.p := good .l751
  obtain ⟨ha0, ha1⟩ := ha
  obtain ⟨hb0, hb1⟩ := hb
  have hr : 256 * Level.l751.p < 2 ^ (64 * 12) := g.room
  have hBp : B * Level.l751.p ≤ 64 * Level.l751.p := Nat.mul_le_mul_right _ hB
  have hCp : C * Level.l751.p ≤ 64 * Level.l751.p := Nat.mul_le_mul_right _ hC
  have hle : 128 * Level.l751.p ≤ 2 ^ 15 * Level.l751.p := Nat.mul_le_mul_right _ (by norm_num)
  obtain ⟨r1, v1⟩ := add0_exact la0 la1 (by omega)
  obtain ⟨r2, v2⟩ := add0_exact lb0 lb1 (by omega)
  obtain ⟨m1, e1, l1, w1⟩ := mpMul_spec (n := 12) (by norm_num) (by norm_num) la0 lb0
  obtain ⟨m2, e2, l2, w2⟩ := mpMul_spec (n := 12) (by norm_num) (by norm_num) la1 lb1
  obtain ⟨m3, e3, l3, w3⟩ := mpMul_spec (n := 12) (by norm_num) (by norm_num) r1 r2
  rw [v1, v2] at w3
  have hprod : ∀ x y, x < B * Level.l751.p → y < C * Level.l751.p → 2 * (x * y) < 2 ^ (64 * 12) * Level.l751.p := by
    intro x y hx hy
    have h1 := mul_bound g (x := 2 * x) (y := y) (B := 2 * B) (C := C) (by rw [Nat.mul_assoc]; omega) hy h
    calc 2 * (x * y) = 2 * x * y := by ring
      _ < _ := h1
  have q00 := hprod _ _ ha0 hb0
  have q01 := hprod _ _ ha0 hb1
  have q10 := hprod _ _ ha1 hb0
  have q11 := hprod _ _ ha1 hb1
  have hexp : (val a.c0 + val a.c1) * (val b.c0 + val b.c1) =
      val a.c0 * val b.c0 + val a.c1 * val b.c1 + (val a.c0 * val b.c1 + val a.c1 * val b.c0) := by ring
  obtain ⟨l4, w4⟩ := mpDblsubfast_val l1 l2 l3 (by rw [w1, w2, w3, hexp]; exact Nat.le_add_right _ _)
  obtain ⟨l5, w5⟩ := mpSubaddfast_val g l1 l2 (by rw [w1, w2]; exact le_wrap q11)
  obtain ⟨s1, hs1, hc1⟩ := call_eq dblsub751F_ok [m1, m2, m3] (by decide) (by decide) (by decide) trivial
  rw [wordsAt_callMem (by norm_num) rfl l1 (by omega), wordsAt_callMem (by norm_num) rfl l2 (by omega),
    wordsAt_callMem (by norm_num) rfl l3 (by omega)] at hs1
  obtain ⟨s2, hs2, hc2⟩ := call_eq subadd751F_ok [m1, m2] (by decide) (by decide) (by decide) trivial
  rw [wordsAt_callMem (by norm_num) rfl l1 (by omega), wordsAt_callMem (by norm_num) rfl l2 (by omega)] at hs2
  have d1 := hc1 2 (le_refl _) 24
  have d2 := hc2 2 (le_refl _) 24
  rw [hs1] at d1
  rw [hs2] at d2
  have x1 := rdc751X_eq l4 (by rw [w4, w3, w1, w2, hexp, Nat.sub_sub, Nat.add_sub_cancel_left]; exact half_lt q01 q10)
  have x0 := rdc751X_eq l5 (by
    rw [w5, w1, w2]
    exact wrap_lt q00 q11)
  have y1 := mpMul751X_eq la0 lb0 (by omega) (by omega)
  have y2 := mpMul751X_eq la1 lb1 (by omega) (by omega)
  have y3 := mpMul751X_eq r1 r2 (by omega) (by omega)
  rw [e1] at y1
  rw [e2] at y2
  rw [e3] at y3
  have z : glue (mpMul words751.n) (fun x y z => some (mpDblsubfast x y z)) (fun x y => some (mpSubaddfast words751 x y))
      (rdcMont words751) a b (mpAddfastC a.c0 a.c1) (mpAddfastC b.c0 b.c1) = _ := glue_eq e1 e2 (m3 := m3) e3 rfl rfl
  rw [fp2mulX_glue, fp2mul_glue, z, glue_eq y1 y2 (m3 := m3) (by rw [mpAddX_eq .l751 la0 la1, mpAddX_eq .l751 lb0 lb1]; exact y3) d1 d2,
    x1, x0]

theorem dot_lt {T : Tables} {p : ℕ} (g : Good T p) {x0 x1 y w : ℕ} (h0 : x0 < 16 * p) (h1 : x1 < 16 * p) (h2 : y < 8 * p) :
    x0 * y + x1 * (8 * p - w) < 2 ^ (64 * T.n) * p := by
  have h1 : x1 * (8 * p - w) ≤ 16 * p * (8 * p) := Nat.mul_le_mul h1.le (Nat.sub_le _ _)
  have h2 : x0 * y ≤ 16 * p * (8 * p) := Nat.mul_le_mul h0.le h2.le
  have h3 := Nat.mul_lt_mul_of_pos_right g.room (by omega : 0 < p)
  have h4 : 256 * p * p = 16 * p * (8 * p) + 16 * p * (8 * p) := by ring
  omega

/-- The product of the default build in the quadratic extension: in range and the product of the values -/
theorem fp2mulX_spec (l : Level) [Fact l.p.Prime] {a b : F2} {B C : ℕ} (ha : Rng2 (tables l) (B * l.p) a)
    (hb : Rng2 (tables l) (C * l.p) b) (hB : B ≤ 16) (hC : C ≤ 8) :
    Rng2 (tables l) (2 * l.p) (fp2mulX l a b) ∧
      f2Val (tables l) l.p (fp2mulX l a b) = f2Val (tables l) l.p a * f2Val (tables l) l.p b := by
  have g := good l
  have hn := n_le l
  have ha' : Rng2 (tables l) (16 * l.p) a := ha.mono (Nat.mul_le_mul_right _ hB)
  have hb' : Rng2 (tables l) (8 * l.p) b := hb.mono (Nat.mul_le_mul_right _ hC)
  have hspec := fp2mulC_spec g ha' hb' (by norm_num) (by norm_num) (by norm_num)
  cases hs : small l with
  | none =>
    have := small_none hs
    subst this
    rw [fp2mulX_751 ha'.c0.len ha'.c1.len hb'.c0.len hb'.c1.len ⟨ha'.c0.lt, ha'.c1.lt⟩ ⟨hb'.c0.lt, hb'.c1.lt⟩ (by norm_num)
      (by norm_num) (by norm_num)]
    exact hspec
  | some k =>
    have := small_level hs
    subst this
    have ea := f2At_callMem (args := [a.c0 ++ a.c1, b.c0 ++ b.c1]) (i := 0) (by norm_num) rfl ha.c0.len ha.c1.len (by omega)
    have eb := f2At_callMem (args := [a.c0 ++ a.c1, b.c0 ++ b.c1]) (i := 1) (by norm_num) rfl hb.c0.len hb.c1.len (by omega)
    have hdom : Below (16 * k.level.p) a ∧ Below (8 * k.level.p) b :=
      ⟨⟨ha'.c0.lt, ha'.c1.lt⟩, ⟨hb'.c0.lt, hb'.c1.lt⟩⟩
    obtain ⟨s', hr, hc⟩ := call_eq (mul0F_ok k) [a.c0 ++ a.c1, b.c0 ++ b.c1] (by cases k <;> decide) (by cases k <;> decide)
      (by cases k <;> decide) (by rw [ea, eb]; exact hdom)
    obtain ⟨s'', hr', hc'⟩ := call_eq (mul1F_ok k) [a.c0 ++ a.c1, b.c0 ++ b.c1] (by cases k <;> decide) (by cases k <;> decide)
      (by cases k <;> decide) (by rw [ea, eb]; exact hdom)
    rw [ea, eb] at hr hr'
    have e : fp2mulX k.level a b = ⟨wordsAt s'.mem (ptr (callSt [a.c0 ++ a.c1, b.c0 ++ b.c1]) 2) (tables k.level).n,
        (fp2mulC (tables k.level) a b).c1⟩ := by
      unfold fp2mulX
      rw [hs]
      dsimp only
      rw [hc 2 (le_refl _), hc' 2 (le_refl _), Option.getD_some, Option.getD_some, hr']
    rw [e]
    obtain ⟨q, hq, hv⟩ := hr
    have hb1 := hb'.c1.lt
    have hm := dot_lt g (w := val b.c1) ha'.c0.lt ha'.c1.lt hb'.c0.lt
    refine ⟨⟨⟨wordsAt_length _ _ _, lt_two_of_exact hq hm hv⟩, hspec.1.c1⟩, ?_⟩
    have hv' := exact_val g hv
    ext
    · show fpVal _ _ _ = _
      rw [fpVal, hv', QuadraticAlgebra.re_mul]
      simp only [f2Val, fpVal]
      rw [Nat.cast_add, Nat.cast_mul, Nat.cast_mul, Nat.cast_sub hb1.le, cast_kp]
      ring
    · have := congrArg QuadraticAlgebra.im hspec.2
      exact this

end Secuer.X64
