import Verif.CMem.Mul

/-!
# The functions of `fpx.c` on memory

`Agree s m M`: the memories are the same below `s`.  Each theorem `…_step` says what a call does in a memory `m` that is the same as
`M` below `s`, where `s` is the stack pointer that the function gets: afterwards the memory is, below `s`, the memory `M` with the
result of the functional model at the output array.
-/

namespace Secuer.CMem

open Secuer.Word Secuer.Field

variable {m m' M : Mem} {n k a b c s : ℕ} {v w : List Digit}

/-- The memories are the same at all addresses below `s`. -/
def Agree (s : ℕ) (m M : Mem) : Prop := ∀ x < s, m x = M x

theorem Agree.refl (s : ℕ) (m : Mem) : Agree s m m := fun _ _ => rfl

theorem Agree.trans (h : Agree s m m') (h' : Agree s m' M) : Agree s m M := fun x hx => (h x hx).trans (h' x hx)

theorem Agree.mono (h : Agree s m M) (hk : k ≤ s) : Agree k m M := fun x hx => h x (by omega)

theorem Agree.rd (h : Agree s m M) (ha : a + n ≤ s) : rd m n a = rd M n a :=
  rd_congr fun x _ h2 => h x (by omega)

theorem Agree.wr (h : Agree s m M) (c : ℕ) (v : List Digit) : Agree s (wr m c v) (wr M c v) := by
  intro x hx
  simp only [CMem.wr]
  rw [h x hx]

/-- Writes at or above `s` do not count. -/
theorem Agree.drop (h : Agree s m M) {t : ℕ} (ht : s ≤ t) (v : List Digit) : Agree s (CMem.wr m t v) M := fun x hx => by
  rw [wr_of_lt (by omega), h x hx]

theorem exists_rd (x y : List Digit) (hx : x.length = n) (hy : y.length = n) :
    ∃ m : Mem, rd m n 0 = x ∧ rd m n n = y := by
  refine ⟨wr (wr (fun _ => 0) 0 x) n y, ?_, rd_wr_same hy⟩
  rw [rd_wr_disj (by omega), rd_wr_same hx]

section
variable {T : Tables} {p : ℕ} (g : Good T p)
include g

theorem mpMul_some {x y : List Digit} (hx : x.length = T.n) (hy : y.length = T.n) :
    ∃ r, mpMul T.n x y = some r ∧ r.length = 2 * T.n := by
  obtain ⟨m, rfl, rfl⟩ := exists_rd x y hx hy
  obtain ⟨r, h1, h2, _⟩ := mpMulM_eq (m := m) (a := 0) (b := T.n) (c := 2 * T.n) g.n_pos (Or.inl (by omega)) (Or.inl (by omega))
  exact ⟨r, h1, h2⟩

theorem rdcMont_some {x : List Digit} (hx : x.length = 2 * T.n) : ∃ r, rdcMont T x = some r ∧ r.length = T.n := by
  obtain ⟨m, rfl, -⟩ := exists_rd x x hx hx
  obtain ⟨r, h1, h2, _⟩ := rdcMontM_eq (m := m) (ma := 0) (mc := 2 * T.n) g (Or.inl (by omega))
  exact ⟨r, h1, h2⟩

theorem fpmulC_length {x y : List Digit} (hx : x.length = T.n) (hy : y.length = T.n) : (fpmulC T x y).length = T.n := by
  obtain ⟨r, h1, h2⟩ := mpMul_some g hx hy
  obtain ⟨r', h1', h2'⟩ := rdcMont_some g h2
  simp [fpmulC, fpmul?, h1, h1', h2']

theorem mpAddfastC_length {x y : List Digit} (hx : x.length = n) (hy : y.length = n) : (mpAddfastC x y).length = n := by
  rw [mpAddfastC, mpAdd, addLoop_length _ _ _ (by omega), hx]

theorem subP2C_length {x y : List Digit} (hx : x.length = T.n) (hy : y.length = T.n) : (subP2C T x y).length = T.n := by
  have h := subLoop_length x y 0 (by omega)
  rw [subP2C, addLoop_length _ _ _ (by rw [h, hx, g.len_x2]), h, hx]

theorem subP4_length {x y : List Digit} (hx : x.length = T.n) (hy : y.length = T.n) : (subP4 T x y).length = T.n := by
  have h := subLoop_length x y 0 (by omega)
  rw [subP4, addLoop_length _ _ _ (by rw [h, hx, g.len_x4]), h, hx]

theorem fpaddC_length {x y : List Digit} (hx : x.length = T.n) (hy : y.length = T.n) : (fpaddC T x y).length = T.n := by
  have h := addLoop_length x y 0 (by omega)
  have h' := subLoop_length (addLoop 0 x y).2 T.x2 0 (by rw [h, hx, g.len_x2])
  simp only [fpaddC]
  rw [addLoop_length _ _ _ (by rw [h', h, hx, masked_length, g.len_x2]), h', h, hx]

theorem fpsubC_length {x y : List Digit} (hx : x.length = T.n) (hy : y.length = T.n) : (fpsubC T x y).length = T.n := by
  have h := subLoop_length x y 0 (by omega)
  simp only [fpsubC]
  rw [addLoop_length _ _ _ (by rw [h, hx, masked_length, g.len_x2]), h, hx]

theorem fpneg_length {x : List Digit} (hx : x.length = T.n) : (fpneg T x).length = T.n := by
  rw [fpneg, subLoop_length _ _ _ (by rw [hx, g.len_x2]), g.len_x2]

theorem fpdiv2_length {x : List Digit} (hx : x.length = T.n) : (fpdiv2 T x).length = T.n := by
  simp only [fpdiv2]
  rw [shiftr1_length, addLoop_length _ _ _ (by rw [hx, masked_length, g.len_p]), hx]

theorem fpcorrection_length {x : List Digit} (hx : x.length = T.n) : (fpcorrection T x).length = T.n := by
  have h := subLoop_length x T.p 0 (by rw [hx, g.len_p])
  simp only [fpcorrection]
  rw [addLoop_length _ _ _ (by rw [h, hx, masked_length, g.len_p]), h, hx]

/-! ## Calls of the leaf functions in a known memory -/

theorem mpAddfastM_step (h : Agree s m M) (has : a + T.n ≤ s) (hbs : b + T.n ≤ s) (ha : Ok T.n a c) (hb : Ok T.n b c) :
    Agree s (mpAddfastM T a b c m) (wr M c (mpAddfastC (rd M T.n a) (rd M T.n b))) := by
  rw [mpAddfastM_eq ha hb, h.rd has, h.rd hbs]
  exact h.wr _ _

theorem subP2M_step (h : Agree s m M) (has : a + T.n ≤ s) (hbs : b + T.n ≤ s) (ha : Ok T.n a c) (hb : Ok T.n b c) :
    Agree s (subP2M T a b c m) (wr M c (subP2C T (rd M T.n a) (rd M T.n b))) := by
  rw [subP2M_eq g ha hb, h.rd has, h.rd hbs]
  exact h.wr _ _

theorem subP4M_step (h : Agree s m M) (has : a + T.n ≤ s) (hbs : b + T.n ≤ s) (ha : Ok T.n a c) (hb : Ok T.n b c) :
    Agree s (subP4M T a b c m) (wr M c (subP4 T (rd M T.n a) (rd M T.n b))) := by
  rw [subP4M_eq g ha hb, h.rd has, h.rd hbs]
  exact h.wr _ _

theorem fpaddM_step (h : Agree s m M) (has : a + T.n ≤ s) (hbs : b + T.n ≤ s) (ha : Ok T.n a c) (hb : Ok T.n b c) :
    Agree s (fpaddM T a b c m) (wr M c (fpaddC T (rd M T.n a) (rd M T.n b))) := by
  rw [fpaddM_eq g ha hb, h.rd has, h.rd hbs]
  exact h.wr _ _

theorem fpsubM_step (h : Agree s m M) (has : a + T.n ≤ s) (hbs : b + T.n ≤ s) (ha : Ok T.n a c) (hb : Ok T.n b c) :
    Agree s (fpsubM T a b c m) (wr M c (fpsubC T (rd M T.n a) (rd M T.n b))) := by
  rw [fpsubM_eq g ha hb, h.rd has, h.rd hbs]
  exact h.wr _ _

theorem fpnegM_step (h : Agree s m M) (has : a + T.n ≤ s) : Agree s (fpnegM T a m) (wr M a (fpneg T (rd M T.n a))) := by
  rw [fpnegM_eq g, h.rd has]
  exact h.wr _ _

theorem fpdiv2M_step (h : Agree s m M) (has : a + T.n ≤ s) (ha : Ok T.n a c) :
    Agree s (fpdiv2M T a c m) (wr M c (fpdiv2 T (rd M T.n a))) := by
  rw [fpdiv2M_eq g ha, h.rd has]
  exact h.wr _ _

theorem fpcorrectionM_step (h : Agree s m M) (has : a + T.n ≤ s) :
    Agree s (fpcorrectionM T a m) (wr M a (fpcorrection T (rd M T.n a))) := by
  rw [fpcorrectionM_eq g, h.rd has]
  exact h.wr _ _

omit g in
theorem copyMem_step (h : Agree s m M) (has : a + n ≤ s) (ha : Ok n a c) : Agree s (copyMem n a c m) (wr M c (rd M n a)) := by
  rw [copyMem_eq _ ha, h.rd has]
  exact h.wr _ _

omit g in
theorem fillMem_step (h : Agree s m M) (t : List Digit) (c : ℕ) : Agree s (fillMem t c m) (wr M c t) := by
  rw [fillMem_eq]
  exact h.wr _ _

/-- `fpmul_mont`: the three arrays may overlap in any way, because the product goes to a local array first. -/
theorem fpmulM_step (h : Agree s m M) (ha : a + T.n ≤ s) (hb : b + T.n ≤ s) (hc : c + T.n ≤ s) :
    Agree s (fpmulM T a b c s m) (wr M c (fpmulC T (rd M T.n a) (rd M T.n b))) := by
  have hn := g.n_pos
  simp only [fpmulM]
  rw [fillMem_eq]
  obtain ⟨r, e1, l1, h1⟩ := mpMulM_eq (m := wr m s (List.replicate (2 * T.n) 0)) (c := s) hn (Or.inl ha) (Or.inl hb)
  obtain ⟨r', e2, l2, h2⟩ := rdcMontM_eq (m := wr (wr m s (List.replicate (2 * T.n) 0)) s r) (ma := s) (mc := c) g (Or.inr hc)
  rw [rd_wr_disj (Or.inr ha), rd_wr_disj (Or.inr hb), h.rd ha, h.rd hb] at e1
  rw [rd_wr_same l1] at e2
  have e3 : fpmulC T (rd M T.n a) (rd M T.n b) = r' := by simp [fpmulC, fpmul?, e1, e2]
  rw [h1, h2, e3]
  exact ((h.drop le_rfl _).drop le_rfl _).wr _ _

theorem fpsqrM_step (h : Agree s m M) (ha : a + T.n ≤ s) (hc : c + T.n ≤ s) :
    Agree s (fpsqrM T a c s m) (wr M c (fpsqr T (rd M T.n a))) := fpmulM_step g h ha ha hc

theorem toMontM_step (h : Agree s m M) (ha : a + T.n ≤ s) (hc : c + T.n ≤ s) :
    Agree s (toMontM T a c s m) (wr M c (toMont T (rd M T.n a))) := by
  simp only [toMontM]
  have h1 := fillMem_step (h.mono le_rfl) T.r2 s
  have h2 := fpmulM_step (s := s + T.n) (a := a) (b := s) (c := c) g (Agree.refl _ (fillMem T.r2 s m)) (by omega) (by omega) (by omega)
  rw [fillMem_eq] at h1 h2 ⊢
  rw [rd_wr_same g.len_r2, rd_wr_disj (Or.inr ha), h.rd ha] at h2
  exact (h2.mono (by omega)).trans (((h.drop le_rfl _)).wr _ _)

theorem fromMontM_step (h : Agree s m M) (ha : a + T.n ≤ s) (hc : c + T.n ≤ s) :
    Agree s (fromMontM T a c s m) (wr M c (fromMont T (rd M T.n a))) := by
  have hn := g.n_pos
  simp only [fromMontM]
  have e : upd (fillMem (List.replicate T.n 0) s m) s 1 = wr m s ((List.replicate T.n 0).set 0 1) := by
    rw [fillMem_eq]
    simpa using upd_wr_set (m := m) (c := s) (v := List.replicate T.n 0) (i := 0) (by simpa using hn) 1
  rw [e]
  have h2 := fpmulM_step (s := s + T.n) (a := a) (b := s) (c := c) g (Agree.refl _ (wr m s ((List.replicate T.n 0).set 0 1)))
    (by omega) (by omega) (by omega)
  rw [rd_wr_same (by simp), rd_wr_disj (Or.inr ha), h.rd ha] at h2
  have h3 := fpcorrectionM_step (a := c) g h2 (by omega)
  have l := fpmulC_length (x := rd M T.n a) (y := (List.replicate T.n 0).set 0 1) g (by simp) (by simp)
  rw [rd_wr_same l, wr_wr_same (by rw [l, fpcorrection_length g l])] at h3
  exact (h3.mono (by omega)).trans (((h.drop le_rfl _)).wr _ _)

/-! ## Elements of the quadratic extension -/

end

/-- The `f2elm_t` at address `a` -/
def rdF (n : ℕ) (m : Mem) (a : ℕ) : F2 := ⟨rd m n a, rd m n (a + n)⟩

/-- The memory with the given `f2elm_t` at address `a` -/
def wrF (n : ℕ) (m : Mem) (a : ℕ) (x : F2) : Mem := wr (wr m a x.c0) (a + n) x.c1

/-- Both arrays have `n` digits -/
structure Len (n : ℕ) (x : F2) : Prop where
  c0 : x.c0.length = n
  c1 : x.c1.length = n

theorem rdF_len (n : ℕ) (m : Mem) (a : ℕ) : Len n (rdF n m a) := ⟨by simp [rdF], by simp [rdF]⟩

theorem rdF_wrF_same {x : F2} (hx : Len n x) : rdF n (wrF n m a x) a = x := by
  have := hx.c0
  rw [rdF, wrF, rd_wr_same hx.c1, rd_wr_disj (by omega), rd_wr_same hx.c0]

theorem rdF_wrF_disj {x : F2} (hx : Len n x) (h : a + 2 * n ≤ b ∨ b + 2 * n ≤ a) : rdF n (wrF n m a x) b = rdF n m b := by
  have := hx.c0
  have := hx.c1
  rw [rdF, wrF, rd_wr_disj (by omega), rd_wr_disj (by omega), rd_wr_disj (by omega), rd_wr_disj (by omega), rdF]

theorem wrF_wrF_same {x y : F2} (hx : Len n x) (hy : Len n y) : wrF n (wrF n m a x) a y = wrF n m a y := by
  have h1 := hx.c0
  have h2 := hx.c1
  have h3 := hy.c0
  have h4 := hy.c1
  rw [wrF, wrF, wrF, wr_comm (a := a + n) (by omega), wr_wr_same (by omega), wr_wr_same (by omega)]

theorem Agree.rdF (h : Agree s m M) (ha : a + 2 * n ≤ s) : rdF n m a = rdF n M a := by
  rw [CMem.rdF, CMem.rdF, h.rd (by omega), h.rd (by omega)]

theorem Agree.wrF (h : Agree s m M) (c : ℕ) (x : F2) : Agree s (wrF n m c x) (wrF n M c x) := (h.wr _ _).wr _ _

section
variable {T : Tables} {p : ℕ} (g : Good T p)
include g

/-- `fp2add` and the like: a function that treats the two halves separately -/
theorem two_step {f : ℕ → ℕ → ℕ → Mem → Mem} {F : List Digit → List Digit → List Digit}
    (hf : ∀ {m a b c}, Ok T.n a c → Ok T.n b c → f a b c m = wr m c (F (rd m T.n a) (rd m T.n b)))
    (hl : ∀ {x y : List Digit}, x.length = T.n → y.length = T.n → (F x y).length = T.n)
    (h : Agree s m M) (has : a + 2 * T.n ≤ s) (hbs : b + 2 * T.n ≤ s) (ha : Ok (2 * T.n) a c) (hb : Ok (2 * T.n) b c) :
    Agree s (f (a + T.n) (b + T.n) (c + T.n) (f a b c m))
      (wrF T.n M c ⟨F (rdF T.n M a).c0 (rdF T.n M b).c0, F (rdF T.n M a).c1 (rdF T.n M b).c1⟩) := by
  have l0 := hl (rd_length m T.n a) (rd_length m T.n b)
  unfold Ok at ha hb
  rw [hf (by unfold Ok; omega) (by unfold Ok; omega), hf (a := a) (by unfold Ok; omega) (by unfold Ok; omega),
    rd_wr_disj (by omega), rd_wr_disj (by omega), h.rd (by omega), h.rd (by omega), h.rd (by omega), h.rd (by omega)]
  exact (h.wr _ _).wr _ _

theorem fp2addM_step (h : Agree s m M) (has : a + 2 * T.n ≤ s) (hbs : b + 2 * T.n ≤ s) (ha : Ok (2 * T.n) a c)
    (hb : Ok (2 * T.n) b c) : Agree s (fp2addM T a b c m) (wrF T.n M c (fp2add T (rdF T.n M a) (rdF T.n M b))) :=
  two_step g (fun ha hb => fpaddM_eq g ha hb) (fun hx hy => fpaddC_length g hx hy) h has hbs ha hb

theorem fp2subM_step (h : Agree s m M) (has : a + 2 * T.n ≤ s) (hbs : b + 2 * T.n ≤ s) (ha : Ok (2 * T.n) a c)
    (hb : Ok (2 * T.n) b c) : Agree s (fp2subM T a b c m) (wrF T.n M c (fp2sub T (rdF T.n M a) (rdF T.n M b))) :=
  two_step g (fun ha hb => fpsubM_eq g ha hb) (fun hx hy => fpsubC_length g hx hy) h has hbs ha hb

theorem mp2addM_step (h : Agree s m M) (has : a + 2 * T.n ≤ s) (hbs : b + 2 * T.n ≤ s) (ha : Ok (2 * T.n) a c)
    (hb : Ok (2 * T.n) b c) : Agree s (mp2addM T a b c m) (wrF T.n M c (mp2add (rdF T.n M a) (rdF T.n M b))) :=
  two_step g (fun ha hb => mpAddfastM_eq ha hb) (fun hx hy => mpAddfastC_length g hx hy) h has hbs ha hb

theorem mp2subP2M_step (h : Agree s m M) (has : a + 2 * T.n ≤ s) (hbs : b + 2 * T.n ≤ s) (ha : Ok (2 * T.n) a c)
    (hb : Ok (2 * T.n) b c) : Agree s (mp2subP2M T a b c m) (wrF T.n M c (mp2subP2 T (rdF T.n M a) (rdF T.n M b))) :=
  two_step g (fun ha hb => subP2M_eq g ha hb) (fun hx hy => subP2C_length g hx hy) h has hbs ha hb

theorem fp2div2M_step (h : Agree s m M) (has : a + 2 * T.n ≤ s) (ha : Ok (2 * T.n) a c) :
    Agree s (fp2div2M T a c m) (wrF T.n M c (fp2div2 T (rdF T.n M a))) :=
  two_step (f := fun a _ c => fpdiv2M T a c) (F := fun x _ => fpdiv2 T x) (b := a) g (fun ha _ => fpdiv2M_eq g ha)
    (fun hx _ => fpdiv2_length g hx) h has has ha ha

theorem fp2copyM_step (h : Agree s m M) (has : a + 2 * T.n ≤ s) (ha : Ok (2 * T.n) a c) :
    Agree s (fp2copyM T a c m) (wrF T.n M c (rdF T.n M a)) :=
  two_step (f := fun a _ c => copyMem T.n a c) (F := fun x _ => x) (b := a) g (fun ha _ => copyMem_eq _ ha)
    (fun hx _ => hx) h has has ha ha

theorem fp2negM_step (h : Agree s m M) (has : a + 2 * T.n ≤ s) :
    Agree s (fp2negM T a m) (wrF T.n M a (fp2neg T (rdF T.n M a))) := by
  have l := fpneg_length g (rd_length m T.n a)
  simp only [fp2negM]
  rw [fpnegM_eq g, fpnegM_eq g, rd_wr_disj (by omega), h.rd (by omega), h.rd (by omega)]
  exact (h.wr _ _).wr _ _

theorem fp2correctionM_step (h : Agree s m M) (has : a + 2 * T.n ≤ s) :
    Agree s (fp2correctionM T a m) (wrF T.n M a (fp2correction T (rdF T.n M a))) := by
  have l := fpcorrection_length g (rd_length m T.n a)
  simp only [fp2correctionM]
  rw [fpcorrectionM_eq g, fpcorrectionM_eq g, rd_wr_disj (by omega), h.rd (by omega), h.rd (by omega)]
  exact (h.wr _ _).wr _ _

omit g in
theorem fp2zeroM_step (h : Agree s m M) : Agree s (fp2zeroM T a m) (wrF T.n M a (fp2zero T)) := by
  simp only [fp2zeroM]
  rw [fillMem_eq, fillMem_eq]
  exact (h.wr _ _).wr _ _

omit g in
theorem fp2oneM_step (h : Agree s m M) : Agree s (fp2oneM T a m) (wrF T.n M a (fp2one T)) := by
  simp only [fp2oneM]
  rw [fillMem_eq, fillMem_eq]
  exact (h.wr _ _).wr _ _

theorem toFp2montM_step (h : Agree s m M) (has : a + 2 * T.n ≤ s) (hcs : c + 2 * T.n ≤ s) (ha : Ok (2 * T.n) a c) :
    Agree s (toFp2montM T a c s m) (wrF T.n M c (toFp2mont T (rdF T.n M a))) := by
  unfold Ok at ha
  have h1 := toMontM_step (a := a) (c := c) g h (by omega) (by omega)
  have h2 := toMontM_step (a := a + T.n) (c := c + T.n) g h1 (by omega) (by omega)
  have l : (toMont T (rd M T.n a)).length = T.n := fpmulC_length g (by simp) g.len_r2
  rw [rd_wr_disj (by omega)] at h2
  exact h2

theorem fromMont_length {x : List Digit} (hx : x.length = T.n) : (fromMont T x).length = T.n :=
  fpcorrection_length g (fpmulC_length g hx (by simp))

theorem fromFp2montM_step (h : Agree s m M) (has : a + 2 * T.n ≤ s) (hcs : c + 2 * T.n ≤ s) (ha : Ok (2 * T.n) a c) :
    Agree s (fromFp2montM T a c s m) (wrF T.n M c (fromFp2mont T (rdF T.n M a))) := by
  unfold Ok at ha
  have h1 := fromMontM_step (a := a) (c := c) g h (by omega) (by omega)
  have h2 := fromMontM_step (a := a + T.n) (c := c + T.n) g h1 (by omega) (by omega)
  have l := fromMont_length g (rd_length M T.n a)
  rw [rd_wr_disj (by omega)] at h2
  exact h2

/-- `fp2sqr_mont` -/
theorem fp2sqrM_step (h : Agree s m M) (has : a + 2 * T.n ≤ s) (hcs : c + 2 * T.n ≤ s) (ha : Ok (2 * T.n) a c) :
    Agree s (fp2sqrM T a c s m) (wrF T.n M c (fp2sqr T (rdF T.n M a))) := by
  have hn := g.n_pos
  unfold Ok at ha
  have o : ∀ x y, x + T.n ≤ y ∨ y + T.n ≤ x → Ok T.n x y := fun x y h => Or.inr h
  have f1 := mpAddfastM_step (s := s + 3 * T.n) (a := a) (b := a + T.n) (c := s) g (Agree.refl _ m) (by omega) (by omega)
    (o _ _ (by omega)) (o _ _ (by omega))
  rw [h.rd (by omega), h.rd (by omega)] at f1
  have l1 := mpAddfastC_length g (rd_length M T.n a) (rd_length M T.n (a + T.n))
  generalize e1 : mpAddfastC (rd M T.n a) (rd M T.n (a + T.n)) = v1 at f1 l1
  have f2 := subP4M_step (a := a) (b := a + T.n) (c := s + T.n) g f1 (by omega) (by omega) (o _ _ (by omega)) (o _ _ (by omega))
  rw [rd_wr_disj (by omega), rd_wr_disj (by omega), h.rd (by omega), h.rd (by omega)] at f2
  have l2 := subP4_length g (rd_length M T.n a) (rd_length M T.n (a + T.n))
  generalize e2 : subP4 T (rd M T.n a) (rd M T.n (a + T.n)) = v2 at f2 l2
  have f3 := mpAddfastM_step (a := a) (b := a) (c := s + 2 * T.n) g f2 (by omega) (by omega) (o _ _ (by omega)) (o _ _ (by omega))
  rw [rd_wr_disj (by omega), rd_wr_disj (by omega), h.rd (by omega)] at f3
  have l3 := mpAddfastC_length g (rd_length M T.n a) (rd_length M T.n a)
  generalize e3 : mpAddfastC (rd M T.n a) (rd M T.n a) = v3 at f3 l3
  have f4 := fpmulM_step (a := s) (b := s + T.n) (c := c) g f3 (by omega) (by omega) (by omega)
  rw [rd_wr_disj (by omega), rd_wr_disj (by omega), rd_wr_same l1, rd_wr_disj (by omega), rd_wr_same l2] at f4
  have l4 := fpmulC_length g l1 l2
  generalize e4 : fpmulC T v1 v2 = v4 at f4 l4
  have f5 := fpmulM_step (a := s + 2 * T.n) (b := a + T.n) (c := c + T.n) g f4 (by omega) (by omega) (by omega)
  rw [rd_wr_disj (by omega), rd_wr_same l3, rd_wr_disj (by omega), rd_wr_disj (by omega), rd_wr_disj (by omega),
    rd_wr_disj (by omega), h.rd (by omega)] at f5
  have e : fp2sqr T (rdF T.n M a) = ⟨v4, fpmulC T v3 (rd M T.n (a + T.n))⟩ := by
    show fp2sqrC T (rdF T.n M a) = _
    simp only [fp2sqrC, rdF]
    rw [← e4, ← e1, ← e2, ← e3]
  rw [e]
  refine (f5.mono (by omega)).trans ?_
  exact ((((h.drop (by omega) _).drop (by omega) _).drop (by omega) _).wr _ _).wr _ _

/-- `mp_dblsubfast` -/
theorem mpDblsubfastM_step (h : Agree s m M) (has : a + 2 * T.n ≤ s) (hbs : b + 2 * T.n ≤ s) (hcs : c + 2 * T.n ≤ s)
    (ha : Disj (2 * T.n) a (2 * T.n) c) (hb : Disj (2 * T.n) b (2 * T.n) c) :
    Agree s (mpDblsubfastM T a b c m)
      (wr M c (mpDblsubfast (rd M (2 * T.n) a) (rd M (2 * T.n) b) (rd M (2 * T.n) c))) := by
  have l := subLoop_length (rd m (2 * T.n) c) (rd m (2 * T.n) a) 0 (by simp)
  rw [rd_length] at l
  unfold Disj at ha hb
  simp only [mpDblsubfastM, mpDblsubfast, mpSub]
  rw [subMem_eq _ _ Ok.refl (Or.inr ha), subMem_eq _ _ Ok.refl (Or.inr hb), rd_wr_same l, rd_wr_disj (by omega), wr_wr_same,
    h.rd has, h.rd hbs, h.rd hcs]
  · exact h.wr _ _
  · rw [l, subLoop_length _ _ _ (by rw [l, rd_length]), l]

theorem mpSubaddfast_length {x y : List Digit} (hx : x.length = 2 * T.n) (hy : y.length = 2 * T.n) :
    (mpSubaddfast T x y).length = 2 * T.n := by
  have h := subLoop_length x y 0 (by omega)
  simp only [mpSubaddfast, mpSub, List.length_append, List.length_take, mpAddfastC, mpAdd]
  rw [addLoop_length _ _ _ (by rw [List.length_drop, masked_length, g.len_p]; omega), List.length_drop]
  omega

omit g in
theorem rd_take (m : Mem) (n k a : ℕ) : (rd m (n + k) a).take n = rd m n a := by
  rw [rd_add, List.take_left' (rd_length _ _ _)]

omit g in
theorem rd_drop (m : Mem) (n k a : ℕ) : (rd m (n + k) a).drop n = rd m k (a + n) := by
  rw [rd_add, List.drop_left' (rd_length _ _ _)]

omit g in
/-- Replacing the upper half of an array -/
theorem wr_upper {v w : List Digit} (hv : v.length = 2 * n) (hw : w.length = n) :
    wr (wr m c v) (c + n) w = wr m c (v.take n ++ w) := by
  have hl : (v.take n).length = n := by rw [List.length_take]; omega
  conv_lhs => rw [← List.take_append_drop n v]
  rw [wr_append, wr_append, hl, wr_wr_same (by rw [List.length_drop]; omega)]

/-- `mp_subaddfast`, in place (`a = c`) or not -/
theorem mpSubaddfastM_step (h : Agree s m M) (has : a + 2 * T.n ≤ s) (hbs : b + 2 * T.n ≤ s) (hcs : c + 2 * T.n ≤ s)
    (ha : Ok (2 * T.n) a c) (hb : Ok (2 * T.n) b c) :
    Agree s (mpSubaddfastM T a b c s m) (wr M c (mpSubaddfast T (rd M (2 * T.n) a) (rd M (2 * T.n) b))) := by
  have l := subLoop_length (rd M (2 * T.n) a) (rd M (2 * T.n) b) 0 (by simp)
  rw [rd_length] at l
  simp only [mpSubaddfastM, mpSubaddfast, mpSub]
  rw [subMem_eq _ _ ha hb, h.rd has, h.rd hbs]
  generalize subLoop 0 (rd M (2 * T.n) a) (rd M (2 * T.n) b) = r at l ⊢
  simp only
  rw [fillMem_eq, mpAddfastM_eq Ok.refl (Or.inr (Or.inr (by omega))), rd_wr_same (by rw [masked_length, g.len_p]),
    rd_wr_disj (Or.inr (by omega))]
  have e : rd (wr m c r.2) T.n (c + T.n) = r.2.drop T.n := by
    rw [← rd_drop _ T.n T.n c, ← two_mul, rd_wr_same l]
  have ld : (r.2.drop T.n).length = T.n := by rw [List.length_drop]; omega
  have lw : (mpAddfastC (r.2.drop T.n) (masked (maskOf r.1) T.p)).length = T.n :=
    mpAddfastC_length g ld (by rw [masked_length, g.len_p])
  rw [e, wr_comm (a := s) (Or.inr (by omega)), wr_upper l lw]
  exact ((h.wr _ _).drop le_rfl _)

/-- `fp2mul_mont` -/
theorem fp2mulM_step (h : Agree s m M) (has : a + 2 * T.n ≤ s) (hbs : b + 2 * T.n ≤ s) (hcs : c + 2 * T.n ≤ s) :
    Agree s (fp2mulM T a b c s m) (wrF T.n M c (fp2mul T (rdF T.n M a) (rdF T.n M b))) := by
  have hn := g.n_pos
  have o : ∀ x y, x + T.n ≤ y ∨ y + T.n ≤ x → Ok T.n x y := fun x y h => Or.inr h
  simp only [fp2mulM]
  -- t1, t2
  have f1 := mpAddfastM_step (s := s + 8 * T.n) (a := a) (b := a + T.n) (c := s) g (Agree.refl _ m) (by omega) (by omega)
    (o _ _ (by omega)) (o _ _ (by omega))
  rw [h.rd (by omega), h.rd (by omega)] at f1
  have l1 := mpAddfastC_length g (rd_length M T.n a) (rd_length M T.n (a + T.n))
  generalize e1 : mpAddfastC (rd M T.n a) (rd M T.n (a + T.n)) = v1 at f1 l1
  have f2 := mpAddfastM_step (a := b) (b := b + T.n) (c := s + T.n) g f1 (by omega) (by omega)
    (o _ _ (by omega)) (o _ _ (by omega))
  rw [rd_wr_disj (by omega), rd_wr_disj (by omega), h.rd (by omega), h.rd (by omega)] at f2
  have l2 := mpAddfastC_length g (rd_length M T.n b) (rd_length M T.n (b + T.n))
  generalize e2 : mpAddfastC (rd M T.n b) (rd M T.n (b + T.n)) = v2 at f2 l2
  generalize mpAddfastM T b (b + T.n) (s + T.n) (mpAddfastM T a (a + T.n) s m) = m2 at f2 ⊢
  have f2' : Agree s m2 M := (f2.mono (by omega)).trans ((h.drop (by omega) _).drop (by omega) _)
  -- tt1
  obtain ⟨w1, e3, l3, f3⟩ := mpMulM_eq (m := m2) (a := a) (b := b) (c := s + 2 * T.n) hn (Or.inl (by omega)) (Or.inl (by omega))
  rw [f2'.rd (by omega), f2'.rd (by omega)] at e3
  -- tt2
  obtain ⟨w2, e4, l4, f4⟩ := mpMulM_eq (m := wr m2 (s + 2 * T.n) w1) (a := a + T.n) (b := b + T.n) (c := s + 4 * T.n) hn
    (Or.inl (by omega)) (Or.inl (by omega))
  rw [rd_wr_disj (by omega), rd_wr_disj (by omega), f2'.rd (by omega), f2'.rd (by omega)] at e4
  -- tt3
  obtain ⟨w3, e5, l5, f5⟩ := mpMulM_eq (m := wr (wr m2 (s + 2 * T.n) w1) (s + 4 * T.n) w2) (a := s) (b := s + T.n)
    (c := s + 6 * T.n) hn (Or.inl (by omega)) (Or.inl (by omega))
  rw [rd_wr_disj (by omega), rd_wr_disj (by omega), rd_wr_disj (by omega), rd_wr_disj (by omega), f2.rd (by omega),
    f2.rd (by omega), rd_wr_same l2, rd_wr_disj (by omega), rd_wr_same l1] at e5
  rw [f3, f4, f5]
  -- tt3 := tt3 - tt1 - tt2
  have f6 := mpDblsubfastM_step (s := s + 8 * T.n) (a := s + 2 * T.n) (b := s + 4 * T.n) (c := s + 6 * T.n) g
    (Agree.refl _ (wr (wr (wr m2 (s + 2 * T.n) w1) (s + 4 * T.n) w2) (s + 6 * T.n) w3)) (by omega) (by omega) (by omega)
    (Or.inl (by omega)) (Or.inl (by omega))
  rw [rd_wr_same l5, rd_wr_disj (by omega), rd_wr_disj (by omega), rd_wr_same l3, rd_wr_disj (by omega), rd_wr_same l4] at f6
  have l6 : (mpDblsubfast w1 w2 w3).length = 2 * T.n := by
    simp only [mpDblsubfast, mpSub]
    have := subLoop_length w3 w1 0 (by omega)
    rw [subLoop_length _ _ _ (by omega), this, l5]
  generalize e6 : mpDblsubfast w1 w2 w3 = w4 at f6 l6
  rw [wr_wr_same (by omega)] at f6
  -- tt1 := tt1 - tt2 (+ p R)
  have f7 := mpSubaddfastM_step (s := s + 8 * T.n) (a := s + 2 * T.n) (b := s + 4 * T.n) (c := s + 2 * T.n) g f6
    (by omega) (by omega) (by omega) Ok.refl (Or.inr (Or.inr (by omega)))
  rw [rd_wr_disj (by omega), rd_wr_disj (by omega), rd_wr_same l3, rd_wr_disj (by omega), rd_wr_same l4] at f7
  have l7 := mpSubaddfast_length g l3 l4
  generalize e7 : mpSubaddfast T w1 w2 = w5 at f7 l7
  generalize mpSubaddfastM T (s + 2 * T.n) (s + 4 * T.n) (s + 2 * T.n) (s + 8 * T.n) _ = m7 at f7 ⊢
  -- c1
  obtain ⟨r1, e8, l8, f8⟩ := rdcMontM_eq (m := m7) (ma := s + 6 * T.n) (mc := c + T.n) g (Or.inr (by omega))
  rw [f7.rd (by omega), rd_wr_disj (by omega), rd_wr_same l6] at e8
  -- c0
  obtain ⟨r0, e9, l9, f9⟩ := rdcMontM_eq (m := wr m7 (c + T.n) r1) (ma := s + 2 * T.n) (mc := c) g (Or.inr (by omega))
  rw [rd_wr_disj (by omega), f7.rd (by omega), rd_wr_same l7] at e9
  rw [f8, f9]
  have e : fp2mul T (rdF T.n M a) (rdF T.n M b) = ⟨r0, r1⟩ := by
    show fp2mulC T (rdF T.n M a) (rdF T.n M b) = _
    simp only [fp2mulC, fp2mul?, rdF]
    rw [e1, e2, e3, e4, e5]
    simp only [Option.bind_eq_bind, Option.bind_some]
    rw [e6, e7, e8, e9]
    rfl
  rw [e, wrF, wr_comm (a := c + T.n) (Or.inr (by omega))]
  refine Agree.wr (Agree.wr ((f7.mono (by omega)).trans ?_) _ _) _ _
  exact (((f2'.drop (by omega) _).drop (by omega) _).drop (by omega) _).drop (by omega) _

theorem fp2mulC_len {x y : F2} (hx : Len T.n x) (hy : Len T.n y) : Len T.n (fp2mulC T x y) := by
  obtain ⟨w1, e1, l1⟩ := mpMul_some g hx.c0 hy.c0
  obtain ⟨w2, e2, l2⟩ := mpMul_some g hx.c1 hy.c1
  obtain ⟨w3, e3, l3⟩ := mpMul_some g (mpAddfastC_length g hx.c0 hx.c1) (mpAddfastC_length g hy.c0 hy.c1)
  have l4 : (mpDblsubfast w1 w2 w3).length = 2 * T.n := by
    simp only [mpDblsubfast, mpSub]
    have := subLoop_length w3 w1 0 (by omega)
    rw [subLoop_length _ _ _ (by omega), this, l3]
  obtain ⟨r1, e4, l5⟩ := rdcMont_some g l4
  obtain ⟨r0, e5, l6⟩ := rdcMont_some g (mpSubaddfast_length g l1 l2)
  simp only [fp2mulC, fp2mul?]
  rw [e1, e2, e3]
  simp only [Option.bind_eq_bind, Option.bind_some]
  rw [e4, e5]
  exact ⟨l6, l5⟩

/-! ## Inversion -/

omit g in
theorem slot_lt {i size : ℕ} (h : i < size) (n : ℕ) : i * n + n ≤ size * n := by
  have := Nat.mul_le_mul_right n (show i + 1 ≤ size from h)
  rwa [Nat.add_mul, Nat.one_mul] at this

/-- What the variables of `fpinv_chain_mont` hold; `t` is the address of the table and everything below it is as in `M` -/
structure ChainMem (T : Tables) (t size : ℕ) (M : Mem) (st : ChainState (List Digit)) (m : Mem) : Prop where
  len : st.t.length = size
  tab : ∀ {i v}, st.t[i]?.join = some v → i < size ∧ rd m T.n (t + i * T.n) = v
  acc : ∀ {v}, st.tt = some v → rd m T.n (t + size * T.n) = v
  frame : Agree t m M

omit g in
theorem ChainMem.setAcc {t size : ℕ} {st : ChainState (List Digit)} (h : ChainMem T t size M st m) {r : List Digit}
    (hr : r.length = T.n) (hm : Agree (t + size * T.n + T.n) m' (wr m (t + size * T.n) r)) :
    ChainMem T t size M { st with tt := some r } m' := by
  refine ⟨h.len, fun {i v} hv => ?_, fun {v} hv => ?_, ?_⟩
  · obtain ⟨hi, hv'⟩ := h.tab hv
    have := slot_lt hi T.n
    refine ⟨hi, ?_⟩
    rw [hm.rd (by omega), rd_wr_disj (by omega), hv']
  · cases hv
    rw [hm.rd (by omega), rd_wr_same hr]
  · intro x hx
    rw [hm x (by omega), wr_of_lt (by omega), h.frame x hx]

omit g in
theorem ChainMem.setTab {t size : ℕ} {st : ChainState (List Digit)} (h : ChainMem T t size M st m) {r : List Digit} {j : ℕ}
    (hj : j < size) (hr : r.length = T.n) (hm : Agree (t + size * T.n + T.n) m' (wr m (t + j * T.n) r)) :
    ChainMem T t size M { st with t := st.t.set j (some r) } m' := by
  have hj' := slot_lt hj T.n
  refine ⟨by simp [h.len], fun {i v} hv => ?_, fun {v} hv => ?_, ?_⟩
  · simp only [List.getElem?_set] at hv
    by_cases hij : j = i
    · subst hij
      rw [if_pos rfl, if_pos (by rw [h.len]; exact hj)] at hv
      cases hv
      exact ⟨hj, by rw [hm.rd (by omega), rd_wr_same hr]⟩
    · rw [if_neg hij] at hv
      obtain ⟨hi, hv'⟩ := h.tab hv
      have h1 := slot_lt hi T.n
      have h2 : i * T.n + T.n ≤ j * T.n ∨ j * T.n + T.n ≤ i * T.n := by
        rcases Nat.lt_or_gt_of_ne hij with h | h
        · exact Or.inr (slot_lt h T.n)
        · exact Or.inl (slot_lt h T.n)
      exact ⟨hi, by rw [hm.rd (by omega), rd_wr_disj (by omega), hv']⟩
  · rw [hm.rd (by omega), rd_wr_disj (by omega), h.acc hv]
  · intro x hx
    rw [hm x (by omega), wr_of_lt (by omega), h.frame x hx]

theorem primM_step {t size : ℕ} {st st' : ChainState (List Digit)} (h : ChainMem T t size M st m) (ha : a + T.n ≤ t) (c : Prim)
    (hc : Prim.run (fpsqr T) (fpmul T) (rd M T.n a) st c = some st') :
    ChainMem T t size M st' (primM T a t (t + size * T.n) (t + size * T.n + T.n) m c) := by
  have hra : rd m T.n a = rd M T.n a := h.frame.rd ha
  have R := Agree.refl (t + size * T.n + T.n) m
  cases c with
  | sqA =>
    cases hc
    refine h.setAcc (fpmulC_length g (by simp) (by simp)) ?_
    have := fpsqrM_step (a := a) (c := t + size * T.n) g R (by omega) (by omega)
    rw [hra] at this
    exact this
  | setA j =>
    simp only [Prim.run, Option.bind_eq_bind, Option.bind_eq_some_iff] at hc
    obtain ⟨x, hx, hc⟩ := hc
    by_cases hj : j < st.t.length
    · rw [if_pos hj] at hc
      cases hc
      rw [h.len] at hj
      have hj' := slot_lt hj T.n
      have hl : x.length = T.n := by rw [← h.acc hx, rd_length]
      have := fpmulM_step (a := a) (b := t + size * T.n) (c := t + j * T.n) g R (by omega) (by omega) (by omega)
      rw [hra, h.acc hx] at this
      exact h.setTab hj (fpmulC_length g (by simp) hl) this
    · rw [if_neg hj] at hc
      cases hc
  | tab i j =>
    simp only [Prim.run, Option.bind_eq_bind, Option.bind_eq_some_iff] at hc
    obtain ⟨x, hx, y, hy, hc⟩ := hc
    by_cases hj : j < st.t.length
    · rw [if_pos hj] at hc
      cases hc
      rw [h.len] at hj
      have hj' := slot_lt hj T.n
      obtain ⟨hi, hy⟩ := h.tab hy
      have hi' := slot_lt hi T.n
      have hl : x.length = T.n := by rw [← h.acc hx, rd_length]
      have hl' : y.length = T.n := by rw [← hy, rd_length]
      have := fpmulM_step (a := t + i * T.n) (b := t + size * T.n) (c := t + j * T.n) g R (by omega) (by omega) (by omega)
      rw [hy, h.acc hx] at this
      exact h.setTab hj (fpmulC_length g hl' hl) this
    · rw [if_neg hj] at hc
      cases hc
  | load =>
    cases hc
    refine h.setAcc (by simp) ?_
    have := copyMem_step (n := T.n) (a := a) (c := t + size * T.n) R (by omega) (Or.inr (Or.inl (by omega)))
    rw [hra] at this
    exact this
  | sq =>
    simp only [Prim.run, Option.bind_eq_bind, Option.bind_eq_some_iff] at hc
    obtain ⟨x, hx, hc⟩ := hc
    cases hc
    have hl : x.length = T.n := by rw [← h.acc hx, rd_length]
    have := fpsqrM_step (a := t + size * T.n) (c := t + size * T.n) g R (by omega) (by omega)
    rw [h.acc hx] at this
    exact h.setAcc (fpmulC_length g hl hl) this
  | mt i =>
    simp only [Prim.run, Option.bind_eq_bind, Option.bind_eq_some_iff] at hc
    obtain ⟨x, hx, y, hy, hc⟩ := hc
    cases hc
    obtain ⟨hi, hy⟩ := h.tab hy
    have hi' := slot_lt hi T.n
    have hl : x.length = T.n := by rw [← h.acc hx, rd_length]
    have hl' : y.length = T.n := by rw [← hy, rd_length]
    have := fpmulM_step (a := t + i * T.n) (b := t + size * T.n) (c := t + size * T.n) g R (by omega) (by omega) (by omega)
    rw [hy, h.acc hx] at this
    exact h.setAcc (fpmulC_length g hl' hl) this
  | ma =>
    simp only [Prim.run, Option.bind_eq_bind, Option.bind_eq_some_iff] at hc
    obtain ⟨x, hx, hc⟩ := hc
    cases hc
    have hl : x.length = T.n := by rw [← h.acc hx, rd_length]
    have := fpmulM_step (a := a) (b := t + size * T.n) (c := t + size * T.n) g R (by omega) (by omega) (by omega)
    rw [hra, h.acc hx] at this
    exact h.setAcc (fpmulC_length g (by simp) hl) this

theorem prims_step {t size : ℕ} (ha : a + T.n ≤ t) : ∀ (cs : List Prim) {st st' : ChainState (List Digit)} {m : Mem},
    ChainMem T t size M st m → runPrims (fpsqr T) (fpmul T) (rd M T.n a) cs st = some st' →
    ChainMem T t size M st' (cs.foldl (primM T a t (t + size * T.n) (t + size * T.n + T.n)) m)
  | [], st, st', m, h, hr => by cases hr; exact h
  | c :: cs, st, st', m, h, hr => by
    simp only [runPrims, Option.bind_eq_bind, Option.bind_eq_some_iff] at hr
    obtain ⟨u, hu, hr⟩ := hr
    exact prims_step ha cs (primM_step g h ha c hu) hr

theorem fpinvChain_run {chain : ℕ × List Instr} {e : ℕ} (he : chainExp chain.1 chain.2 = some e) {x : List Digit}
    (hx : x.length = T.n) : ∃ r, runChain (fpsqr T) (fpmul T) x chain.1 chain.2 = some r ∧ r.length = T.n := by
  obtain ⟨y, hy, hl⟩ := runChain_rel (R := fun (_ : ZMod 3) (x : List Digit) => x.length = T.n) (sqr' := fpsqr T)
    (mul' := fpmul T) (a' := x) (fun _ y h => fpmulC_length g h h) (fun _ _ y z h h' => fpmulC_length g h h') hx
    (runChain_pow (0 : ZMod 3) he)
  exact ⟨y, hy, hl⟩

theorem fpinvChain_length {chain : ℕ × List Instr} {e : ℕ} (he : chainExp chain.1 chain.2 = some e) {x : List Digit}
    (hx : x.length = T.n) : (fpinvChain T chain x).length = T.n := by
  obtain ⟨r, h1, h2⟩ := fpinvChain_run g he hx
  rw [fpinvChain, h1]
  exact h2

/-- `fpinv_chain_mont` -/
theorem fpinvChainM_step {chain : ℕ × List Instr} {e : ℕ} (he : chainExp chain.1 chain.2 = some e) (h : Agree s m M)
    (ha : a + T.n ≤ s) : Agree s (fpinvChainM T chain a s m) (wr M a (fpinvChain T chain (rd M T.n a))) := by
  obtain ⟨r, h1, h2⟩ := fpinvChain_run g he (rd_length M T.n a)
  have e2 : fpinvChain T chain (rd M T.n a) = r := by rw [fpinvChain, h1]; rfl
  rw [e2]
  simp only [runChain, Option.bind_eq_bind, Option.bind_eq_some_iff] at h1
  obtain ⟨st, h1, h3⟩ := h1
  have h0 : ChainMem T s chain.1 M (⟨List.replicate chain.1 none, none⟩ : ChainState (List Digit)) m := by
    refine ⟨by simp, fun {i v} hv => ?_, fun {v} hv => (by cases hv), h⟩
    rw [List.getElem?_replicate] at hv
    split at hv <;> cases hv
  have hf := prims_step g ha _ h0 h1
  simp only [fpinvChainM]
  generalize List.foldl _ _ _ = m' at hf ⊢
  rw [copyMem_eq _ (Or.inr (Or.inr (by omega))), hf.acc h3]
  exact hf.frame.wr _ _

/-- `fpinv_mont` -/
theorem fpinvM_step {chain : ℕ × List Instr} {e : ℕ} (he : chainExp chain.1 chain.2 = some e) (h : Agree s m M)
    (ha : a + T.n ≤ s) : Agree s (fpinvM T chain a s m) (wr M a (fpinv T chain (rd M T.n a))) := by
  simp only [fpinvM]
  have f1 := copyMem_step (s := s + T.n) (n := T.n) (a := a) (c := s) (Agree.refl _ m) (by omega) (Or.inr (Or.inl (by omega)))
  rw [h.rd ha] at f1
  have f2 := fpinvChainM_step (a := s) g he f1 le_rfl
  rw [rd_wr_same (by simp)] at f2
  have l2 := fpinvChain_length g he (rd_length M T.n a)
  generalize e2 : fpinvChain T chain (rd M T.n a) = v2 at f2 l2
  rw [wr_wr_same (by rw [l2, rd_length])] at f2
  have f3 := fpsqrM_step (a := s) (c := s) g f2 le_rfl le_rfl
  rw [rd_wr_same l2] at f3
  have l3 : (fpsqr T v2).length = T.n := fpmulC_length g l2 l2
  rw [wr_wr_same (by omega)] at f3
  have f4 := fpsqrM_step (a := s) (c := s) g f3 le_rfl le_rfl
  rw [rd_wr_same l3] at f4
  have l4 : (fpsqr T (fpsqr T v2)).length = T.n := fpmulC_length g l3 l3
  rw [wr_wr_same (by omega)] at f4
  have f5 := fpmulM_step (a := a) (b := s) (c := a) g f4 (by omega) le_rfl (by omega)
  rw [rd_wr_same l4, rd_wr_disj (by omega), h.rd ha] at f5
  have e : fpinv T chain (rd M T.n a) = fpmulC T (rd M T.n a) (fpsqr T (fpsqr T v2)) := by
    rw [fpinv, e2]
    rfl
  rw [e]
  exact (f5.mono (by omega)).trans ((h.drop le_rfl _).wr _ _)

theorem fpinv_length {chain : ℕ × List Instr} {e : ℕ} (he : chainExp chain.1 chain.2 = some e) {x : List Digit}
    (hx : x.length = T.n) : (fpinv T chain x).length = T.n := by
  have l := fpinvChain_length g he hx
  have l' : (fpsqr T (fpinvChain T chain x)).length = T.n := fpmulC_length g l l
  exact fpmulC_length g hx (fpmulC_length g l' l')

theorem fp2inv_len {chain : ℕ × List Instr} {e : ℕ} (he : chainExp chain.1 chain.2 = some e) {x : F2} (hx : Len T.n x) :
    Len T.n (fp2inv T chain x) := by
  have l := fpinv_length g he (fpaddC_length g (fpmulC_length g hx.c0 hx.c0) (fpmulC_length g hx.c1 hx.c1))
  exact ⟨fpmulC_length g hx.c0 l, fpmulC_length g (fpneg_length g hx.c1) l⟩

/-- `fp2inv_mont` -/
theorem fp2invM_step {chain : ℕ × List Instr} {e : ℕ} (he : chainExp chain.1 chain.2 = some e) (h : Agree s m M)
    (ha : a + 2 * T.n ≤ s) : Agree s (fp2invM T chain a s m) (wrF T.n M a (fp2inv T chain (rdF T.n M a))) := by
  have hn := g.n_pos
  simp only [fp2invM]
  have f1 := fpsqrM_step (s := s + 2 * T.n) (a := a) (c := s) g (Agree.refl _ m) (by omega) (by omega)
  rw [h.rd (by omega)] at f1
  have l1 : (fpsqr T (rd M T.n a)).length = T.n := fpmulC_length g (by simp) (by simp)
  generalize e1 : fpsqr T (rd M T.n a) = v1 at f1 l1
  have f2 := fpsqrM_step (a := a + T.n) (c := s + T.n) g f1 (by omega) (by omega)
  rw [rd_wr_disj (by omega), h.rd (by omega)] at f2
  have l2 : (fpsqr T (rd M T.n (a + T.n))).length = T.n := fpmulC_length g (by simp) (by simp)
  generalize e2 : fpsqr T (rd M T.n (a + T.n)) = v2 at f2 l2
  have f3 := fpaddM_step (a := s) (b := s + T.n) (c := s) g f2 (by omega) (by omega) Ok.refl (Or.inr (Or.inr (by omega)))
  rw [rd_wr_same l2, rd_wr_disj (by omega), rd_wr_same l1] at f3
  have l3 := fpaddC_length g l1 l2
  generalize e3 : fpaddC T v1 v2 = v3 at f3 l3
  have f4 := fpinvM_step (a := s) g he f3 (by omega)
  rw [rd_wr_same l3] at f4
  have l4 := fpinv_length g he l3
  generalize e4 : fpinv T chain v3 = v4 at f4 l4
  have f5 := fpnegM_step (a := a + T.n) g f4 (by omega)
  rw [rd_wr_disj (by omega), rd_wr_disj (by omega), rd_wr_disj (by omega), rd_wr_disj (by omega), h.rd (by omega)] at f5
  have l5 := fpneg_length g (rd_length M T.n (a + T.n))
  generalize e5 : fpneg T (rd M T.n (a + T.n)) = v5 at f5 l5
  have f6 := fpmulM_step (a := a) (b := s) (c := a) g f5 (by omega) (by omega) (by omega)
  rw [rd_wr_disj (by omega), rd_wr_disj (by omega), rd_wr_disj (by omega), rd_wr_disj (by omega), rd_wr_disj (by omega),
    rd_wr_disj (by omega), rd_wr_same l4, h.rd (by omega)] at f6
  have l6 := fpmulC_length g (rd_length M T.n a) l4
  generalize e6 : fpmulC T (rd M T.n a) v4 = v6 at f6 l6
  have f7 := fpmulM_step (a := a + T.n) (b := s) (c := a + T.n) g f6 (by omega) (by omega) (by omega)
  rw [rd_wr_disj (by omega), rd_wr_same l5, rd_wr_disj (by omega), rd_wr_disj (by omega), rd_wr_same l4] at f7
  have l7 := fpmulC_length g l5 l4
  have e : fp2inv T chain (rdF T.n M a) = ⟨v6, fpmulC T v5 v4⟩ := by
    simp only [fp2inv, rdF]
    rw [e1, e2, show fpadd T v1 v2 = v3 from e3, e4, e5, show fpmul T (rd M T.n a) v4 = v6 from e6]
    rfl
  rw [e]
  refine (f7.mono (by omega)).trans ?_
  rw [wr_comm (a := a + T.n) (by omega), wr_wr_same (by omega)]
  exact (((((h.drop (by omega) _).drop (by omega) _).drop (by omega) _).drop (by omega) _).wr _ _).wr _ _

end

end Secuer.CMem
