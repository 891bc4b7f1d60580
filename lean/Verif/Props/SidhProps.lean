import Verif.Sidh.Valid
import Verif.Sidh.Order
import Verif.Props.ChainProps
import Verif.Props.KemProps

/-!
# Properties of the key exchange and of the key encapsulation built on it (C75 – C79)
-/

namespace Secuer.SidhProps

set_option exponentiation.threshold 1000

open Secuer.Curve Secuer.Mont Secuer.Field Secuer.Word Secuer.Scalar Secuer.Text Secuer.Protocol Secuer.Sidh Secuer.Kem Secuer.KemProps

/-! ### Specification -/

/-- `t` holds the x-coordinates of `P`, `Q`, `P - Q`. -/
def Holds (l : Level) {A : l.K} (t : Three l.F) (P Q : (W A).Point) : Prop :=
  Rep ⟨l.φ t.P, 1⟩ P ∧ Rep ⟨l.φ t.Q, 1⟩ Q ∧ Rep ⟨l.φ t.R, 1⟩ (P - Q)

/-- `P`, `Q` form a basis of a group `(ℤ/n^e)²`. -/
def Independent {G : Type} [AddCommGroup G] (n e : ℕ) (P Q : G) : Prop :=
  n ^ e • P = 0 ∧ n ^ e • Q = 0 ∧ ∀ i j : ℤ, i • P + j • Q = 0 → (n : ℤ) ^ e ∣ i ∧ (n : ℤ) ^ e ∣ j

/-- The private key of Alice: the bytes as a little-endian integer below the order of the generators -/
def scalarA (l : Level) (k : Bytes) : ℕ := leNat k % 2 ^ l.iso.e2

/-- The private key of Bob: an integer below the largest power of two in the order of the generators -/
def scalarB (l : Level) (k : Bytes) : ℕ := leNat k % 2 ^ Nat.log 2 (3 ^ l.iso.e3)

/-- The j-invariant of `y² = x³ + a x² + x` -/
def jInvariant {F : Type} [Field F] (a : F) : F := 256 * (a ^ 2 - 3) ^ 3 / (a ^ 2 - 4)

/-- How many bits of the imaginary parts the validation compares -/
def comparedBits : Level → ℕ
  | .l434 => 432
  | .l503 => 496
  | .l610 => 592
  | .l751 => 736

/-- The Montgomery representative of a residue -/
def montgomery (l : Level) (x : ZMod l.p) : ℕ := (x * 2 ^ (64 * (tables l).n)).val

/-- Different elements that look the same to the validation -/
def Confused (l : Level) (x y : l.F) : Prop :=
  x ≠ y ∧ x.re = y.re ∧ montgomery l x.im % 2 ^ comparedBits l = montgomery l y.im % 2 ^ comparedBits l

/-- The two values the validation compares for a public key: the cross products of `[3^(e-1)]P` and `[3^(e-1)]Q` as computed. -/
def compared (l : Level) (pk : Bytes) : l.F × l.F :=
  let t := decodePk l pk
  tops (cfg l) t (getA t.P t.Q t.R)

/-! ### Lemmas -/

theorem same_iff (l : Level) (x y : l.F) : sameBytes l x y = true ↔ x = y ∨ Confused l x y := by
  have h : sameBytes l x y = true ↔ x.re = y.re ∧
      montgomery l x.im % 2 ^ comparedBits l = montgomery l y.im % 2 ^ comparedBits l := by
    cases l
    · exact sameBytes_iff .l434 54 (by decide) (by decide) x y
    · exact sameBytes_iff .l503 62 (by decide) (by decide) x y
    · exact sameBytes_iff .l610 74 (by decide) (by decide) x y
    · exact sameBytes_iff .l751 92 (by decide) (by decide) x y
  rw [h, Confused]
  by_cases e : x = y
  · simp [e]
  · simp [e]

theorem same_refl (l : Level) (x : l.F) : (cfg l).same x x = true := (same_iff l x x).2 (.inl rfl)

theorem good (l : Level) : (cfg l).toEnv.toIsoParams.Good := l.shipped.good

/-- Independence can be tested one level above zero. -/
theorem independent_of_top {G : Type} [AddCommGroup G] {n e : ℕ} {P Q : G} (he : 0 < e) (hP : n ^ e • P = 0) (hQ : n ^ e • Q = 0)
    (h : ∀ i j : ℤ, i • (n ^ (e - 1) • P) + j • (n ^ (e - 1) • Q) = 0 → (n : ℤ) ∣ i ∧ (n : ℤ) ∣ j) : Independent n e P Q := by
  refine ⟨hP, hQ, fun i j hij => ?_⟩
  suffices ∀ k, k ≤ e → (n : ℤ) ^ k ∣ i ∧ (n : ℤ) ^ k ∣ j from this e le_rfl
  intro k
  induction k with
  | zero => intro _; simp
  | succ k ih =>
    intro hk
    obtain ⟨⟨i', rfl⟩, ⟨j', rfl⟩⟩ := ih (by omega)
    have := congrArg (fun T => (n ^ (e - 1 - k) : ℕ) • T) hij
    have e1 : e - 1 = (e - 1 - k) + k := by omega
    have key : ∀ (z : ℤ) (T : G), n ^ (e - 1 - k) • (((n : ℤ) ^ k * z) • T) = z • (n ^ (e - 1) • T) := by
      intro z T
      rw [e1, pow_add, ← natCast_zsmul, ← natCast_zsmul, smul_smul, smul_smul, ← e1]
      congr 1
      push_cast
      ring
    simp only [smul_add, key, smul_zero] at this
    obtain ⟨⟨a, rfl⟩, ⟨b, rfl⟩⟩ := h i' j' this
    exact ⟨⟨a, by ring⟩, ⟨b, by ring⟩⟩

theorem dvd_of_zsmul {G : Type} [AddCommGroup G] {n : ℕ} (hn : n.Prime) {T : G} (hT : T ≠ 0) (h : n • T = 0) {i : ℤ}
    (hi : i • T = 0) : (n : ℤ) ∣ i := by
  have := Fact.mk hn
  rw [← addOrderOf_eq_prime h hT]
  exact addOrderOf_dvd_iff_zsmul_eq_zero.2 hi

theorem independent3 {K : Type} [Field K] [DecidableEq K] {A : K} {e : ℕ} {P Q : (W A).Point} (h : Basis3 e P Q) :
    Independent 3 e P Q := by
  obtain ⟨t1, t2⟩ := h.three_top
  refine independent_of_top h.pos h.killP h.killQ fun i j hij => ?_
  have h3 := Nat.prime_three
  rcases zsmul_three_torsion t2 j with hj | hj | hj
  · rw [hj, add_zero] at hij
    exact ⟨dvd_of_zsmul h3 h.topP t1 hij, dvd_of_zsmul h3 h.topQ t2 hj⟩
  all_goals
    exfalso
    rw [hj] at hij
    rcases zsmul_three_torsion t1 i with hi | hi | hi <;> rw [hi] at hij
    · simp only [zero_add, neg_eq_zero] at hij; exact h.topQ hij
    · first
        | exact h.ne' (eq_neg_of_add_eq_zero_left hij)
        | exact h.ne (by simpa using eq_neg_of_add_eq_zero_left hij)
    · first
        | exact h.ne (by simpa using eq_neg_of_add_eq_zero_left hij)
        | exact h.ne' (by rw [← neg_eq_iff_eq_neg]; simpa using eq_neg_of_add_eq_zero_left hij)

theorem independent2 {K : Type} [Field K] [DecidableEq K] {A : K} {e : ℕ} {P Q : (W A).Point} (h : Basis2 e P Q) :
    Independent 2 e P Q := by
  obtain ⟨t1, t2⟩ := h.two_top
  refine independent_of_top (by have := h.pos; omega) h.killP h.killQ fun i j hij => ?_
  have h2 := Nat.prime_two
  rcases zsmul_two_torsion t2 j with hj | hj
  · rw [hj, add_zero] at hij
    exact ⟨dvd_of_zsmul h2 h.topP t1 hij, dvd_of_zsmul h2 h.topQ t2 hj⟩
  · exfalso
    rw [hj] at hij
    rcases zsmul_two_torsion t1 i with hi | hi <;> rw [hi] at hij
    · rw [zero_add] at hij; exact h.topQ hij
    · apply h.awayP
      rw [eq_neg_of_add_eq_zero_left hij, neg_eq_of_add_eq_zero_left (by rw [← two_smul ℕ]; exact t2)]
      exact h.zeroQ

theorem holds_iff {l : Level} {A : l.K} {t : Three l.F} {P Q : (W A).Point} : Holds l t P Q ↔ Repr3 l.φ t P Q :=
  ⟨fun h => ⟨h.1, h.2.1, h.2.2⟩, fun h => ⟨h.xP, h.xQ, h.xR⟩⟩

theorem leNat_take_mod (k : Bytes) {n m : ℕ} (h : m ≤ 8 * n) : leNat (k.take n) % 2 ^ m = leNat k % 2 ^ m := by
  by_cases hn : n ≤ k.length
  · rw [leNat_take _ _ hn, show 256 ^ n = 2 ^ (8 * n) by rw [pow_mul]; norm_num]
    exact Nat.mod_mod_of_dvd _ (pow_dvd_pow 2 h)
  · rw [List.take_of_length_le (by omega)]

theorem scalarA_eq (l : Level) (k : Bytes) : decodeKey (skABytes l) k % 2 ^ l.iso.e2 = scalarA l k :=
  leNat_take_mod k (by rw [skABytes]; omega)

theorem log_three (l : Level) : Nat.log 2 (3 ^ l.iso.e3) = obobBits l - 1 := by
  rw [Nat.log_eq_iff (.inl (by cases l <;> decide))]
  cases l <;> decide +kernel

theorem scalarB_eq (l : Level) (k : Bytes) : decodeKey (skBBytes l) k % 2 ^ (obobBits l - 1) = scalarB l k := by
  rw [scalarB, log_three]
  exact leNat_take_mod k (by rw [skBBytes]; omega)

/-! ### C75 -/

/-- **C75.** The generators compiled into the program are bases of the `2^e2`- and `3^e3`-torsion of `y² = x³ + 6x² + x`. -/
theorem C75_generators (l : Level) : ∃ PA QA PB QB : (W (l.φ 6)).Point,
    Holds l (initBasis l (aGen l)) PA QA ∧ Independent 2 l.iso.e2 PA QA ∧
    Holds l (initBasis l (bGen l)) PB QB ∧ Independent 3 l.iso.e3 PB QB := by
  obtain ⟨PA, QA, PB, QB, h⟩ := gens_ok l
  exact ⟨PA, QA, PB, QB, holds_iff.2 h.a, independent2 h.basisA, holds_iff.2 h.b, independent3 h.basisB⟩

/-- **C75.** Whatever the keys are, none of the functions leaves an array, and the results have the documented lengths. -/
theorem C75_total (l : Level) (k pk : Bytes) (sike : ℕ) :
    (∃ r, ephGenA l k = some r ∧ r.length = 6 * (params l).fpBytes) ∧
    (∃ r, ephGenB l k = some r ∧ r.length = 6 * (params l).fpBytes) ∧
    (∃ r, ephAgreeA l k pk = some r ∧ r.length = 2 * (params l).fpBytes) ∧
    (∃ r, ephAgreeBExt l sike k pk = some r ∧ ∀ j ∈ r, j.length = 2 * (params l).fpBytes) ∧
    ∃ r, ephAgreeB l k pk = some (some r) := by
  have hj : ∀ j : l.F, (flat (encode l j)).length = 2 * (params l).fpBytes := fun j => by
    rw [flat, List.length_append, (encode_wf l j).1, (encode_wf l j).2]; ring
  obtain ⟨a, ha⟩ := keyGenA_total (good l) (decodeKey (skABytes l) k)
  obtain ⟨b, hb⟩ := keyGenB_total (good l) (decodeKey (skBBytes l) k)
  obtain ⟨c, hc⟩ := secretA_total (good l) (decodeKey (skABytes l) k) (decodePk l pk)
  obtain ⟨d, hd⟩ := secretB_total (good l) sike (decodeKey (skBBytes l) k) (decodePk l pk)
  obtain ⟨e, he⟩ := secretB_total (good l) 0 (decodeKey (skBBytes l) k) (decodePk l pk)
  refine ⟨⟨_, by rw [ephGenA, ha]; rfl, encodePk_length l _⟩, ⟨_, by rw [ephGenB, hb]; rfl, encodePk_length l _⟩,
    ⟨_, by rw [ephAgreeA, hc]; rfl, hj _⟩, ⟨_, by rw [ephAgreeBExt, hd]; rfl, ?_⟩, ?_⟩
  · intro j hj'
    cases d with
    | none => cases hj'
    | some d => cases hj'; exact hj _
  · rw [ephAgreeB, ephAgreeBExt, he]
    cases e with
    | some e => exact ⟨_, rfl⟩
    | none =>
      exfalso
      simp only [secretB, zero_ne_one, false_and, if_false] at he
      split at he
      · cases he
      · cases he

/-- **C75.** A public key of Alice is the image of Bob's generators under an isogeny with kernel `⟨PA + m QA⟩`, and the other way
round. -/
theorem C75_public (l : Level) (k : Bytes) : ∃ PA QA PB QB : (W (l.φ 6)).Point,
    Holds l (initBasis l (aGen l)) PA QA ∧ Holds l (initBasis l (bGen l)) PB QB ∧
    (∃ (t : Three l.F) (a : l.F) (ψ : (W (l.φ 6)).Point →+ (W (l.φ a)).Point), ephGenA l k = some (encodePk l t) ∧
      Super l.φ l.σ l.p a ∧ Function.Surjective ψ ∧
      ψ.ker = AddSubgroup.zmultiples (PA + scalarA l k • QA) ∧
      Nat.card ψ.ker = 2 ^ l.iso.e2 ∧ Holds l t (ψ PB) (ψ QB)) ∧
    (∃ (t : Three l.F) (a : l.F) (ψ : (W (l.φ 6)).Point →+ (W (l.φ a)).Point), ephGenB l k = some (encodePk l t) ∧
      Super l.φ l.σ l.p a ∧ Function.Surjective ψ ∧
      ψ.ker = AddSubgroup.zmultiples (PB + scalarB l k • QB) ∧
      Nat.card ψ.ker = 3 ^ l.iso.e3 ∧ Holds l t (ψ PA) (ψ QA)) := by
  obtain ⟨PA, QA, PB, QB, h⟩ := gens_ok l
  obtain ⟨t, a, gF, gK, ψ, h1, h2, h3, h4, -, h5⟩ := keyGenA_ok l.two (good l) h (decodeKey (skABytes l) k)
  obtain ⟨t', a', gF', gK', b', ψ', g1, g2, g3, g4, -, g5⟩ := keyGenB_ok l.two (good l) h (decodeKey (skBBytes l) k)
  have e1 := scalarA_eq l k
  have e2 := scalarB_eq l k
  rw [show (cfg l).e2 = l.iso.e2 from rfl, e1] at h5
  rw [show (cfg l).bobBits = obobBits l from rfl, e2] at g5
  refine ⟨PA, QA, PB, QB, holds_iff.2 h.a, holds_iff.2 h.b,
    ⟨t, a, ψ, by rw [ephGenA, h1]; rfl, h2.super l.setting (super_six l), h3.surj, h5, h3.card, holds_iff.2 h4⟩,
    ⟨t', a', ψ', by rw [ephGenB, g1]; rfl, g2.super l.setting (super_six l), g3.surj, g5, g3.card, holds_iff.2 g4⟩⟩

/-- **C75.** For all private keys both sides obtain the same bytes: the j-invariant of the quotient of the starting curve by the
two kernels. With validation this is so unless the two values compared, which are different, agree in the bits looked at; then
the honest key is rejected. -/
theorem C75_agree (l : Level) (kA kB : Bytes) : ∃ (pkA pkB : Bytes) (d : l.F) (PA QA PB QB : (W (l.φ 6)).Point),
    Holds l (initBasis l (aGen l)) PA QA ∧ Holds l (initBasis l (bGen l)) PB QB ∧
    ephGenA l kA = some pkA ∧ ephGenB l kB = some pkB ∧
    ephAgreeA l kA pkB = some (flat (encode l (jInvariant d))) ∧
    ephAgreeB l kB pkA = some (some (flat (encode l (jInvariant d)))) ∧
    (Confused l (compared l pkA).1 (compared l pkA).2 → ephAgreeBExt l 1 kB pkA = some none) ∧
    (¬ Confused l (compared l pkA).1 (compared l pkA).2 →
      ephAgreeBExt l 1 kB pkA = some (some (flat (encode l (jInvariant d))))) ∧
    ∃ χ : (W (l.φ 6)).Point →+ (W (l.φ d)).Point, Function.Surjective χ ∧
      χ.ker = AddSubgroup.zmultiples (PA + scalarA l kA • QA) ⊔
        AddSubgroup.zmultiples (PB + scalarB l kB • QB) := by
  obtain ⟨PA, QA, PB, QB, h⟩ := gens_ok l
  obtain ⟨pA, pB, j, a, d, gF, gK, h1, h2, h3, h4, h5, ⟨P, Q, h6, h7⟩, rfl, h8⟩ := exchange_agrees l.two l.three_ne (good l) h
    (decodeKey (skABytes l) kA) (decodeKey (skBBytes l) kB) 0
  rw [show (cfg l).e2 = l.iso.e2 from rfl, show (cfg l).bobBits = obobBits l from rfl, scalarA_eq, scalarB_eq] at h8
  obtain ⟨pA', pB', j', a', d', gF', gK', g1, g2, g3, g4, -, ⟨P', Q', g6, g7⟩, rfl, -⟩ := exchange_agrees l.two l.three_ne
    (good l) h (decodeKey (skABytes l) kA) (decodeKey (skBBytes l) kB) 1
  have h2K := two_map l.φ l.two
  obtain rfl : pA' = pA := Option.some.inj (g1.symm.trans h1)
  obtain rfl : pB' = pB := Option.some.inj (g2.symm.trans h2)
  have hj : jOf d' = jOf d := Option.some.inj (g3.symm.trans h3)
  have ha := getA_ok h2K h6 (h7.away_P h2K) (h7.away_Q h2K) (h7.away_PQ h2K)
  have ha' := getA_ok h2K g6 (g7.away_P h2K) (g7.away_Q h2K) (g7.away_PQ h2K)
  obtain rfl : a' = a := ha'.symm.trans ha
  obtain ⟨hne, hv⟩ := validate_honest l.two (good l) h6 h7 (fun _ => by
    have hs := super_squares l (h5.super l.setting (super_six l))
    exact ⟨(isSqrFp2_iff l _).2 hs.1, (isSqrFp2_iff l _).2 hs.2⟩)
  have hc : compared l (encodePk l pA') = tops (cfg l) pA' a' := by
    simp only [compared, decode_encodePk, ha]
  have hsame : (cfg l).same (tops (cfg l) pA' a').1 (tops (cfg l) pA' a').2 = true ↔
      Confused l (compared l (encodePk l pA')).1 (compared l (encodePk l pA')).2 := by
    rw [hc]
    exact (same_iff l _ _).trans ⟨fun h => h.resolve_left hne, Or.inr⟩
  refine ⟨encodePk l pA', encodePk l pB', d, PA, QA, PB, QB, holds_iff.2 h.a, holds_iff.2 h.b, by rw [ephGenA, h1]; rfl,
    by rw [ephGenB, h2]; rfl, ?_, ?_, fun hcf => ?_, fun hcf => ?_, h8⟩
  · rw [ephAgreeA, decode_encodePk, h3]; rfl
  · rw [ephAgreeB, ephAgreeBExt, decode_encodePk, h4, if_neg (by simp)]; rfl
  · rw [ephAgreeBExt, decode_encodePk, g4, hv, hsame.2 hcf, if_pos (by simp)]; rfl
  · rw [ephAgreeBExt, decode_encodePk, g4, hv, Bool.eq_false_iff.2 (fun h => hcf (hsame.1 h)), if_neg (by simp), hj]; rfl

/-! ### C76 -/

/-- The sizes of `sike.c` for a level -/
def sizes : Level → Sizes
  | .l434 => sizes434
  | .l503 => sizes503
  | .l610 => sizes610
  | .l751 => sizes751

theorem sizes_known (l : Level) : Known (sizes l) := by cases l <;> simp [sizes, Known]

/-- The functions of `sidh.c` that `sike.c` calls -/
def kex (l : Level) : Kex where
  genA k := (ephGenA l k).getD []
  genB k := (ephGenB l k).getD []
  agreeA k pk := (ephAgreeA l k pk).getD []
  agreeB k pk := (ephAgreeBExt l 1 k pk).getD none

theorem pk_size (l : Level) : 6 * (params l).fpBytes = (sizes l).pk := by cases l <;> rfl

/-- The functions of `sidh.c` have the lengths that `sike.c` relies on. -/
theorem kex_lengths (l : Level) : Lengths KeccakProps.shakeHash (kex l) (sizes l) := by
  refine ⟨fun n x => (KeccakProps.C13_hash n x).1, fun k => ?_, fun k => ?_⟩
  · obtain ⟨⟨r, h, hl⟩, -⟩ := C75_total l k [] 0
    simp only [kex, h, Option.getD_some, hl, pk_size]
  · obtain ⟨-, ⟨r, h, hl⟩, -⟩ := C75_total l k [] 0
    simp only [kex, h, Option.getD_some, hl, pk_size]

/-- **C76.** The key encapsulation of the library, with its own key exchange and SHAKE256: key generation and encapsulation with
any random bytes succeed, and decapsulation gives the shared secret of the encapsulation, unless the validation confuses the two
values it compares; then decapsulation gives the secret for invalid ciphertexts. -/
theorem C76_kem (l : Level) (s b m pk₀ sk₀ temp₀ temp₁ ct₀ ss₀ ss₁ : Bytes) (hs : s.length = (sizes l).msg)
    (hb : b.length = (sizes l).skB) (hm : m.length = (sizes l).msg) (h1 : pk₀.length = (sizes l).pk) (h2 : sk₀.length = (sizes l).sk)
    (ht : temp₀.length = (sizes l).ct + (sizes l).msg) (ht' : temp₁.length = (sizes l).ct + (sizes l).msg)
    (hc : ct₀.length = (sizes l).ct) (hss : ss₀.length = (sizes l).ss) (hss' : ss₁.length = (sizes l).ss) :
    ∃ pk sk c₀ c₁ ss, keypair (kex l) (sizes l) (some s) (some b) pk₀ sk₀ = some (0, pk, sk) ∧
      enc KeccakProps.shakeHash (kex l) (sizes l) (some m) temp₀ ct₀ ss₀ pk = some (0, c₀ ++ c₁, ss) ∧
      c₀.length = (sizes l).pk ∧ c₁.length = (sizes l).msg ∧ ss.length = (sizes l).ss ∧
      (¬ Confused l (compared l c₀).1 (compared l c₀).2 →
        dec KeccakProps.shakeHash (kex l) (sizes l) temp₁ ss₁ (c₀ ++ c₁) sk = some (0, ss)) ∧
      (Confused l (compared l c₀).1 (compared l c₀).2 →
        dec KeccakProps.shakeHash (kex l) (sizes l) temp₁ ss₁ (c₀ ++ c₁) sk =
          some (0, KeccakProps.shakeHash.out (sizes l).ss (s ++ (c₀ ++ c₁)))) := by
  have hP := sizes_known l
  have hL := kex_lengths l
  obtain ⟨skB, hkB, -, hkey⟩ := C58_keypair hP hL s b pk₀ sk₀ hs hb h1 h2
  obtain ⟨c₀, c₁, e0, e1, henc⟩ := C58_encapsulation hP hL m temp₀ ct₀ ss₀ ((kex l).genB skB) hm ht hc hss (hL.genB _)
  have hc0 : c₀.length = (sizes l).pk := by rw [e0]; exact hL.genA _
  have hc1 : c₁.length = (sizes l).msg := by rw [e1]; exact xor_length hm (hL.hash _ _)
  obtain ⟨pkA, pkB, d, -, -, -, -, -, -, a1, a2, a3, -, a5, a6, -⟩ :=
    C75_agree l (ephemeral KeccakProps.shakeHash (sizes l) m ((kex l).genB skB)) skB
  have eA : c₀ = pkA := by rw [e0]; simp only [kex] at a1 ⊢; rw [a1]; rfl
  have eB : (kex l).genB skB = pkB := by simp only [kex, a2, Option.getD_some]
  refine ⟨_, _, c₀, c₁, _, hkey, henc, hc0, hc1, hL.hash _ _, fun hcf => ?_, fun hcf => ?_⟩
  · apply C58_correct hP hL s b m pk₀ sk₀ temp₀ temp₁ ct₀ ss₀ ss₁ hs hb hm h1 h2 ht ht' hc hss hss' hkey henc
    intro skB' he
    obtain rfl : skB' = skB := by
      have := List.append_inj_left' he rfl
      exact (List.append_cancel_left this).symm
    rw [← e0, eA]
    rw [eA] at hcf
    simp only [kex, a6 hcf, Option.getD_some]
    simp only [kex] at eB a3
    rw [eB] at a3 ⊢
    rw [a3]
    rfl
  · obtain ⟨ss', hd, -, hrej⟩ := C57_decapsulation hP hL temp₁ ss₁ s skB ((kex l).genB skB) c₀ c₁ ht' hss' hs hkB (hL.genB _)
      hc0 hc1
    rw [hd, hrej]
    rintro ⟨m', j, hj, -⟩
    rw [eA] at hcf hj
    simp only [kex, a5 hcf, Option.getD_some] at hj
    cases hj

/-! ### C77 -/

/-- **C77.** What decapsulation accepts: if Bob's side with validation returns a secret, the coefficient computed from the public
key is that of a smooth curve, the first two coordinates are those of a basis of the `3^e3`-torsion (and for p610 both `A + 2`
and `A - 2` are squares). If the third coordinate is not zero, it belongs to the difference, and the secret is the j-invariant of
the quotient by `⟨P + m Q⟩`. -/
theorem C77_accepted (l : Level) (k pk j : Bytes) (h : ephAgreeBExt l 1 k pk = some (some j)) :
    let t := decodePk l pk
    let a := getA t.P t.Q t.R
    a ^ 2 ≠ 4 ∧ (l = .l610 → IsSquare (a + 2) ∧ IsSquare (a - 2)) ∧
    ∃ P Q : (W (l.φ a)).Point, Rep ⟨l.φ t.P, 1⟩ P ∧ Rep ⟨l.φ t.Q, 1⟩ Q ∧ Independent 3 l.iso.e3 P Q ∧
      (t.R ≠ 0 → Holds l t P Q ∧ ∃ (d : l.F) (ψ : (W (l.φ a)).Point →+ (W (l.φ d)).Point), Function.Surjective ψ ∧
        ψ.ker = AddSubgroup.zmultiples (P + scalarB l k • Q) ∧
        j = flat (encode l (jInvariant d))) := by
  intro t a
  have hv : validate (cfg l) t a (a + 2) (a - 2) = true := by
    by_contra hn
    have e1 : (1 + 1 : l.F) = 2 := by norm_num
    have : secretB (cfg l) 1 (decodeKey (skBBytes l) k) t = some none := by
      simp only [secretB, e1]
      exact if_pos ⟨trivial, Bool.eq_false_iff.2 hn⟩
    rw [ephAgreeBExt, this] at h
    cases h
  obtain ⟨hA, h8, P, Q, hP, hQ, hb, hR⟩ := validate_sound (φ := l.φ) l.two l.three_ne (good l)
    (by cases l <;> decide) (same_refl l) hv
  refine ⟨hA, ?_, P, Q, hP, hQ, independent3 hb, fun h0 => ?_⟩
  · intro h6
    have he : (cfg l).eight = true := by rw [h6]; rfl
    exact ⟨(isSqrFp2_iff l _).1 (h8 he).1, (isSqrFp2_iff l _).1 (h8 he).2⟩
  · have hr : Repr3 l.φ t P Q := ⟨hP, hQ, hR h0⟩
    refine ⟨holds_iff.2 hr, ?_⟩
    obtain ⟨d, gF, gK, b, e, hi⟩ := secretB_ok l.two (good l) hA hr hb (decodeKey (skBBytes l) k) 1
    obtain ⟨ψ, i1, i2⟩ := hi.isog (two_map l.φ l.two) Nat.prime_three
    rw [show (cfg l).bobBits = obobBits l from rfl, scalarB_eq] at i2
    refine ⟨d, ψ, i1.surj, i2, ?_⟩
    rw [ephAgreeBExt, e, hv, if_neg (by simp)] at h
    cases h
    rfl

/-- If the third coordinate is zero, nothing relates it to the other two: the coefficient is minus their sum. -/
theorem C77_zero (l : Level) (xP xQ : l.F) : getA xP xQ 0 = -(xP + xQ) := by
  simp [getA]

/-! ### C78 -/

/-- **C78.** For every parameter set there are different elements that the comparison of the validation takes for equal. -/
theorem C78_confused (l : Level) : ∃ x y : l.F, Confused l x y ∧ sameBytes l x y = true := by
  have hR := R_ne_zero (Word.good l)
  have hlt : 2 ^ comparedBits l < l.p := by cases l <;> decide +kernel
  have hy : montgomery l ((2 ^ comparedBits l : ℕ) / 2 ^ (64 * (tables l).n)) = 2 ^ comparedBits l := by
    rw [montgomery, div_mul_cancel₀ _ hR, ZMod.val_natCast_of_lt hlt]
  have hx : montgomery l 0 = 0 := by rw [montgomery, zero_mul, ZMod.val_zero]
  have hc : Confused l (0 : l.F) ⟨0, (2 ^ comparedBits l : ℕ) / 2 ^ (64 * (tables l).n)⟩ := by
    refine ⟨fun h => ?_, rfl, ?_⟩
    · have h1 : (0 : ZMod l.p) = (2 ^ comparedBits l : ℕ) / 2 ^ (64 * (tables l).n) := congrArg QuadraticAlgebra.im h
      rw [← h1, hx] at hy
      exact absurd hy.symm (pow_ne_zero _ two_ne_zero)
    · show montgomery l 0 % _ = montgomery l _ % _
      rw [hx, hy, Nat.mod_self, Nat.zero_mod]
  exact ⟨_, _, hc, (same_iff l _ _).2 (.inr hc)⟩

/-! ### C79 -/

/-- What an accepted public key guarantees, whatever its third coordinate is. -/
theorem accepted (l : Level) {k pk j : Bytes} (h : ephAgreeBExt l 1 k pk = some (some j)) :
    let t := decodePk l pk
    let a := getA t.P t.Q t.R
    a ^ 2 ≠ 4 ∧ ∃ P Q : (W (l.φ a)).Point, Rep ⟨l.φ t.P, 1⟩ P ∧ Rep ⟨l.φ t.Q, 1⟩ Q ∧ Basis3 l.iso.e3 P Q ∧
      (Super l.φ l.σ l.p a ∨ l = .l610 ∧ Nat.card (W a).Point = (l.p - 1) ^ 2 + 4 * 3 ^ (2 * l.iso.e3)) ∧
      (t.R ≠ 0 → ∃ d gF gK b, FIsog l.φ 3 l.iso.e3 a d gF gK (P + scalarB l k • Q) b ∧
        j = flat (encode l (jInvariant d))) := by
  intro t a
  have hv : validate (cfg l) t a (a + 2) (a - 2) = true := by
    by_contra hn
    have e1 : (1 + 1 : l.F) = 2 := by norm_num
    have : secretB (cfg l) 1 (decodeKey (skBBytes l) k) t = some none := by
      simp only [secretB, e1]
      exact if_pos ⟨trivial, Bool.eq_false_iff.2 hn⟩
    rw [ephAgreeBExt, this] at h
    cases h
  obtain ⟨hA, h8, P, Q, hP, hQ, hb, hR⟩ := validate_sound (φ := l.φ) l.two l.three_ne (good l)
    (by cases l <;> decide) (same_refl l) hv
  refine ⟨hA, P, Q, hP, hQ, hb, order_of_basis l hA hP hQ hb ?_, fun h0 => ?_⟩
  · intro h6
    have he : (cfg l).eight = true := by rw [h6]; rfl
    exact ⟨(isSqrFp2_iff l _).1 (h8 he).1, (isSqrFp2_iff l _).1 (h8 he).2⟩
  · obtain ⟨d, gF, gK, b, e, hi⟩ := secretB_ok l.two (good l) hA ⟨hP, hQ, hR h0⟩ hb (decodeKey (skBBytes l) k) 1
    rw [show (cfg l).bobBits = obobBits l from rfl, scalarB_eq] at hi
    refine ⟨d, gF, gK, b, hi, ?_⟩
    rw [ephAgreeBExt, e, hv, if_neg (by simp)] at h
    cases h
    rfl

/-- A point over the closure that is killed by `3^e3`, on a curve with `(p + 1)²` points, has its coordinates in `GF(p²)`. -/
theorem rational_of_kill (l : Level) {a x : l.F} (hs : Super l.φ l.σ l.p a) {P : (W (l.φ a)).Point} (hP : Rep ⟨l.φ x, 1⟩ P)
    (hk : 3 ^ l.iso.e3 • P = 0) {ι : (W a).Point →+ (W (l.φ a)).Point}
    (hι : ∀ x y h, ∃ h', ι (.some x y h) = .some (l.φ x) (l.φ y) h') : ∃ P' : (W a).Point, ι P' = P ∧ Rep ⟨x, 1⟩ P' := by
  cases P with
  | zero => exact absurd ((rep_zero_iff _).1 hP).1 one_ne_zero
  | some x' y hn =>
    obtain ⟨-, hx⟩ := (rep_some_iff hn _).1 hP
    have hx : l.φ x = x' := by simpa using hx
    subst hx
    have hk' : (l.p + 1) • (.some (l.φ x) y hn : (W (l.φ a)).Point) = 0 := by
      rw [l.p_succ, mul_comm, mul_nsmul, hk]; exact nsmul_zero _
    obtain ⟨-, b, -, rfl⟩ := hs.rational l.setting.frob hk'
    have he := (W_equation _ _ _).1 hn.1
    have hn' : (W a).Nonsingular x b := W_nonsingular l.two hs.1 (l.φ.injective (by simpa using he))
    obtain ⟨h', e⟩ := hι x b hn'
    exact ⟨.some x b hn', e, (rep_some_iff hn' _).2 ⟨one_ne_zero, by simp⟩⟩

/-- **C79.** The curve of every public key that decapsulation accepts has `(p + 1)²` points over `GF(p²)`, for the parameter sets
434, 503 and 751. For 610 there is one other number that the validation does not exclude. -/
theorem C79_order (l : Level) (k pk j : Bytes) (h : ephAgreeBExt l 1 k pk = some (some j)) :
    let t := decodePk l pk
    let a := getA t.P t.Q t.R
    ChainProps.RightOrder l a ∨ l = .l610 ∧ Nat.card (W a).Point = (l.p - 1) ^ 2 + 4 * 3 ^ (2 * l.iso.e3) := by
  intro t a
  obtain ⟨-, P, Q, -, -, -, h1, -⟩ := accepted l h
  exact h1.imp (ChainProps.rightOrder_iff l).2 id

/-- **C79.** On such a curve the first two coordinates are those of points over `GF(p²)`, a basis of the `3^e3`-torsion there; and,
if the third is not zero, the secret is the j-invariant of a curve with the same number of points. -/
theorem C79_points (l : Level) (k pk j : Bytes) (h : ephAgreeBExt l 1 k pk = some (some j)) :
    let t := decodePk l pk
    let a := getA t.P t.Q t.R
    ChainProps.RightOrder l a →
      (∃ P Q : (W a).Point, Rep ⟨t.P, 1⟩ P ∧ Rep ⟨t.Q, 1⟩ Q ∧ Independent 3 l.iso.e3 P Q) ∧
      (t.R ≠ 0 → ∃ d : l.F, ChainProps.RightOrder l d ∧ j = flat (encode l (jInvariant d))) := by
  intro t a ha
  have hs := (ChainProps.rightOrder_iff l).1 ha
  obtain ⟨-, P, Q, hP, hQ, hb, -, h2⟩ := accepted l h
  obtain ⟨ι, hinj, hι⟩ := exists_pointMap l.φ a
  obtain ⟨P', eP, rP⟩ := rational_of_kill l hs hP hb.killP hι
  obtain ⟨Q', eQ, rQ⟩ := rational_of_kill l hs hQ hb.killQ hι
  obtain ⟨i1, i2, i3⟩ := independent3 hb
  refine ⟨⟨P', Q', rP, rQ, ?_, ?_, fun i j hij => ?_⟩, fun h0 => ?_⟩
  · apply hinj; rw [map_nsmul, eP, i1, map_zero]
  · apply hinj; rw [map_nsmul, eQ, i2, map_zero]
  · apply i3; rw [← eP, ← eQ, ← map_zsmul, ← map_zsmul, ← map_add, hij, map_zero]
  · obtain ⟨d, gF, gK, b, hi, hj⟩ := h2 h0
    exact ⟨d, (ChainProps.rightOrder_iff l).2 (hi.super l.setting hs), hj⟩

/-! ### The premises can be met -/

theorem map_xTPLeFast {F F' : Type} [Field F] [Field F'] (f : F →+* F') (A2 : F) (n : ℕ) : ∀ p : Pt F,
    (xTPLeFast p A2 n).map f = xTPLeFast (p.map f) (f A2) n := by
  induction n with
  | zero => intro p; rfl
  | succ n ih => intro p; rw [xTPLeFast, ih, xTPLeFast]; congr 1; simp [xTPLfast, Pt.map]

/-- For real coordinates and a real coefficient nothing can be confused. -/
theorem real_not_confused (l : Level) (u v w a : ZMod l.p) :
    let f := algebraMap (ZMod l.p) l.F
    let c := tops (cfg l) ⟨f u, f v, f w⟩ (f a)
    ¬ Confused l c.1 c.2 := by
  intro f c
  have key : ∀ x : ZMod l.p, xTPLeFast (⟨f x, 1⟩ : Pt l.F) (f a / 2) ((cfg l).maxB - 1) =
      (xTPLeFast ⟨x, 1⟩ (a / 2) ((cfg l).maxB - 1)).map f := by
    intro x
    have h2 : f 2 = 2 := map_ofNat f 2
    rw [map_xTPLeFast]
    simp [Pt.map, h2]
  have h1 : ∃ x, c.1 = f x := ⟨_, by simp only [c, tops, key, Pt.map, ← map_mul]; rfl⟩
  have h2 : ∃ x, c.2 = f x := ⟨_, by simp only [c, tops, key, Pt.map, ← map_mul]; rfl⟩
  obtain ⟨x, hx⟩ := h1
  obtain ⟨y, hy⟩ := h2
  rintro ⟨hne, hre, -⟩
  rw [hx, hy] at hne hre
  exact hne (by rw [show x = y from hre])

/-- Bob's generators, on the starting curve itself, are a public key that is accepted. -/
example (l : Level) (k : Bytes) : ∃ j, ephAgreeBExt l 1 k (encodePk l (initBasis l (bGen l))) = some (some j) := by
  obtain ⟨PA, QA, PB, QB, h⟩ := gens_ok l
  have h2K := two_map l.φ l.two
  have h6 := h.b
  have h7 := h.basisB
  have ha := getA_ok h2K h6 (h7.away_P h2K) (h7.away_Q h2K) (h7.away_PQ h2K)
  obtain ⟨hne, hv⟩ := validate_honest l.two (good l) h6 h7 (fun _ => by
    have hs := super_squares l (super_six l)
    exact ⟨(isSqrFp2_iff l _).2 hs.1, (isSqrFp2_iff l _).2 hs.2⟩)
  have hreal : ∃ u v, (cfg l).genB.P = algebraMap (ZMod l.p) l.F u ∧ (cfg l).genB.Q = algebraMap (ZMod l.p) l.F v := by
    have him : (cfg l).genB.P.im = 0 ∧ (cfg l).genB.Q.im = 0 := by
      cases l <;> simp [cfg, initBasis, bGen, bGen434, bGen503, bGen610, bGen751, f2Val, fpVal, val]
    exact ⟨_, _, by ext <;> [rfl; exact him.1], by ext <;> [rfl; exact him.2]⟩
  obtain ⟨u, v, hu, hv'⟩ := hreal
  have hnc : ¬ Confused l (tops (cfg l) (cfg l).genB 6).1 (tops (cfg l) (cfg l).genB 6).2 := by
    have := real_not_confused l u v 0 6
    have h6' : algebraMap (ZMod l.p) l.F 6 = 6 := map_ofNat _ 6
    dsimp only at this
    rw [h6', ← hu, ← hv'] at this
    exact this
  have hs : (cfg l).same (tops (cfg l) (cfg l).genB 6).1 (tops (cfg l) (cfg l).genB 6).2 = false := by
    rw [Bool.eq_false_iff]
    intro h
    exact ((same_iff l _ _).1 h).elim hne hnc
  obtain ⟨d, gF, gK, b, e, -⟩ := secretB_ok l.two (good l) (six_ne l.two) h6 h7 (decodeKey (skBBytes l) k) 1
  rw [hv, hs, if_neg (by simp)] at e
  exact ⟨_, by rw [ephAgreeBExt, decode_encodePk]; erw [e]; rfl⟩

/-- Buffers of the right sizes for the key encapsulation -/
example (l : Level) : ∃ s b m pk₀ sk₀ temp₀ temp₁ ct₀ ss₀ ss₁ : Bytes, s.length = (sizes l).msg ∧
    b.length = (sizes l).skB ∧ m.length = (sizes l).msg ∧ pk₀.length = (sizes l).pk ∧ sk₀.length = (sizes l).sk ∧
    temp₀.length = (sizes l).ct + (sizes l).msg ∧ temp₁.length = (sizes l).ct + (sizes l).msg ∧ ct₀.length = (sizes l).ct ∧
    ss₀.length = (sizes l).ss ∧ ss₁.length = (sizes l).ss :=
  ⟨List.replicate _ 1, List.replicate _ 2, List.replicate _ 3, List.replicate _ 0, List.replicate _ 0, List.replicate _ 0,
    List.replicate _ 0, List.replicate _ 0, List.replicate _ 0, List.replicate _ 0, List.length_replicate, List.length_replicate,
    List.length_replicate, List.length_replicate, List.length_replicate, List.length_replicate, List.length_replicate,
    List.length_replicate, List.length_replicate, List.length_replicate⟩

end Secuer.SidhProps
