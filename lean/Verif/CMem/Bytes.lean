import Verif.CMem.Sqrt
import Verif.WCurve.Refine

/-!
# `ct_cmov` on memory

The bytes of the memory (little-endian digits), and the function that `poik.c` uses to select a Montgomery model.
-/

namespace Secuer.CMem

open Secuer.Word Secuer.Field
open Secuer.Curve (Pt Crv Iso)

/-- The byte at byte address `x` -/
def byteAt (m : Mem) (x : ℕ) : UInt8 := UInt8.ofBitVec ((m (x / 8) >>> (8 * (x % 8))).setWidth 8)

/-- The memory with the byte at byte address `x` replaced -/
def setByte (m : Mem) (x : ℕ) (b : UInt8) : Mem :=
  upd m (x / 8) ((m (x / 8) &&& ~~~ ((255 : Digit) <<< (8 * (x % 8)))) ||| (b.toBitVec.setWidth 64 <<< (8 * (x % 8))))

/-- `ct_cmov` (`fpx.c:36-42`): `r`, `a` are byte addresses. -/
def ctCmovM (selector : UInt8) : (len r a : ℕ) → Mem → Mem
  | 0, _, _, m => m
  | len + 1, r, a, m =>
    ctCmovM selector len (r + 1) (a + 1) (setByte m r (byteAt m r ^^^ (selector &&& (byteAt m a ^^^ byteAt m r))))

theorem byte_eq_iff {a b : Digit} : a = b ↔ ∀ k < 8, (a >>> (8 * k)).setWidth 8 = (b >>> (8 * k)).setWidth 8 := by
  refine ⟨fun h k _ => by rw [h], fun h => ?_⟩
  apply BitVec.eq_of_getLsbD_eq
  intro i hi
  have := congrArg (fun v : BitVec 8 => v.getLsbD (i % 8)) (h (i / 8) (by omega))
  simp only [BitVec.getLsbD_setWidth, BitVec.getLsbD_ushiftRight] at this
  rw [show 8 * (i / 8) + i % 8 = i by omega] at this
  simpa [show i % 8 < 8 by omega] using this

theorem byteAt_setByte (m : Mem) (x y : ℕ) (b : UInt8) : byteAt (setByte m x b) y = if y = x then b else byteAt m y := by
  by_cases hd : y / 8 = x / 8
  · simp only [byteAt, setByte, upd, if_pos hd]
    rw [hd]
    generalize m (x / 8) = d
    by_cases hxy : y = x
    · subst hxy
      rw [if_pos rfl]
      have hk : y % 8 < 8 := Nat.mod_lt _ (by norm_num)
      generalize y % 8 = k at hk
      apply UInt8.toBitVec_inj.1
      apply BitVec.eq_of_getLsbD_eq
      intro i hi
      have h1 : 8 * k + i < 64 := by omega
      have h255 : (255 : Digit).getLsbD i = true := by interval_cases i <;> rfl
      simp [BitVec.getLsbD_ushiftRight, h1, hi]
      intro _ h
      rw [← BitVec.getLsbD_eq_getElem] at h
      exact absurd (h255.symm.trans h) (by decide)
    · rw [if_neg hxy]
      have hne : y % 8 ≠ x % 8 := by omega
      have hk : y % 8 < 8 := Nat.mod_lt _ (by norm_num)
      have hj : x % 8 < 8 := Nat.mod_lt _ (by norm_num)
      generalize y % 8 = k at hk hne
      generalize x % 8 = j at hj hne
      congr 1
      apply BitVec.eq_of_getLsbD_eq
      intro i hi
      have h1 : 8 * k + i < 64 := by omega
      simp only [BitVec.getLsbD_setWidth, BitVec.getLsbD_ushiftRight, BitVec.getLsbD_or, BitVec.getLsbD_and, BitVec.getLsbD_not,
        BitVec.getLsbD_shiftLeft, h1, hi, decide_true, Bool.true_and]
      rcases Nat.lt_or_gt_of_ne hne with h | h
      · simp [show 8 * k + i < 8 * j by omega]
      · have h2 : ¬ 8 * k + i < 8 * j := by omega
        have h3 : (255 : Digit).getLsbD (8 * k + i - 8 * j) = false := by
          have : 8 ≤ 8 * k + i - 8 * j := by omega
          generalize 8 * k + i - 8 * j = t at this
          rw [show (255 : Digit) = BitVec.ofNat 64 255 from rfl, BitVec.getLsbD_ofNat]
          rw [Nat.testBit_lt_two_pow (show 255 < 2 ^ t from lt_of_lt_of_le (by norm_num) (Nat.pow_le_pow_right (by norm_num) this))]
          simp
        have h4 : b.toBitVec.getLsbD (8 * k + i - 8 * j) = false := BitVec.getLsbD_of_ge _ _ (by omega)
        simp [h2, h4]
        exact fun _ => h3
  · have hxy : y ≠ x := fun e => hd (by rw [e])
    simp only [byteAt, setByte, upd, if_neg hd, if_neg hxy]

theorem mem_eq_of_bytes {m m' : Mem} {x : ℕ} (h : ∀ k < 8, byteAt m (8 * x + k) = byteAt m' (8 * x + k)) : m x = m' x := by
  rw [byte_eq_iff]
  intro k hk
  have := h k hk
  simp only [byteAt] at this
  rw [show (8 * x + k) / 8 = x by omega, show (8 * x + k) % 8 = k by omega] at this
  exact congrArg UInt8.toBitVec this

theorem ctCmovM_byte (sel : UInt8) : ∀ (len r a : ℕ) (m : Mem), r + len ≤ a ∨ a + len ≤ r → ∀ y,
    byteAt (ctCmovM sel len r a m) y =
      if r ≤ y ∧ y < r + len then byteAt m y ^^^ (sel &&& (byteAt m (a + (y - r)) ^^^ byteAt m y)) else byteAt m y
  | 0, r, a, m, _, y => by rw [if_neg (by omega)]; rfl
  | len + 1, r, a, m, h, y => by
    rw [ctCmovM, ctCmovM_byte sel len (r + 1) (a + 1) _ (by omega) y]
    simp only [byteAt_setByte]
    by_cases h1 : y = r
    · subst h1
      rw [if_neg (by omega), if_pos rfl, if_pos (by omega), Nat.sub_self, Nat.add_zero]
    · by_cases h2 : r ≤ y ∧ y < r + (len + 1)
      · rw [if_pos (by omega), if_pos h2, if_neg h1, if_neg (by omega), show a + 1 + (y - (r + 1)) = a + (y - r) by omega]
      · rw [if_neg (by omega), if_neg h1, if_neg h2]

theorem digitBytes_rd : ∀ (n : ℕ) (m : Mem) (a i : ℕ), (digitBytes (rd m n a))[i]? = if i < 8 * n then some (byteAt m (8 * a + i)) else none
  | 0, m, a, i => by simp [rd, digitBytes]
  | n + 1, m, a, i => by
    rw [rd, show digitBytes (m a :: rd m n (a + 1)) =
      ((List.range 8).map fun k => UInt8.ofBitVec ((m a >>> (8 * k)).setWidth 8)) ++ digitBytes (rd m n (a + 1)) from rfl]
    by_cases hi : i < 8
    · rw [List.getElem?_append_left (by simpa using hi), if_pos (by omega), List.getElem?_map, List.getElem?_range hi]
      simp only [Option.map_some, byteAt]
      rw [show (8 * a + i) / 8 = a by omega, show (8 * a + i) % 8 = i by omega]
    · rw [List.getElem?_append_right (by simpa using hi), digitBytes_rd n m (a + 1) _]
      simp only [List.length_map, List.length_range]
      by_cases h2 : i < 8 * (n + 1)
      · rw [if_pos (by omega), if_pos h2, show 8 * (a + 1) + (i - 8) = 8 * a + i by omega]
      · rw [if_neg (by omega), if_neg h2]

theorem ctCmov_getElem? (sel : UInt8) : ∀ (r a : List UInt8), r.length = a.length → ∀ i : ℕ,
    (Util.ctCmov sel r a)[i]? = match r[i]?, a[i]? with
      | some x, some y => some (x ^^^ (sel &&& (y ^^^ x)))
      | _, _ => none
  | [], [], _, i => by simp [Util.ctCmov]
  | x :: r, y :: a, h, 0 => by simp [Util.ctCmov]
  | x :: r, y :: a, h, i + 1 => by
    rw [Util.ctCmov]
    simpa using ctCmov_getElem? sel r a (by simpa using h) i

/-- `ct_cmov` on arrays of `N` digits -/
theorem ctCmovM_rd {N R A : ℕ} (sel : UInt8) (m : Mem) (h : R + N ≤ A ∨ A + N ≤ R) :
    rd (ctCmovM sel (8 * N) (8 * R) (8 * A) m) N R =
      digitsOf N (Util.ctCmov sel (digitBytes (rd m N R)) (digitBytes (rd m N A))) := by
  have h8 : 8 * R + 8 * N ≤ 8 * A ∨ 8 * A + 8 * N ≤ 8 * R := by omega
  have e : digitBytes (rd (ctCmovM sel (8 * N) (8 * R) (8 * A) m) N R) =
      Util.ctCmov sel (digitBytes (rd m N R)) (digitBytes (rd m N A)) := by
    apply List.ext_getElem?
    intro i
    rw [ctCmov_getElem? _ _ _ (by simp only [digitBytes_length, rd_length]), digitBytes_rd, digitBytes_rd, digitBytes_rd]
    by_cases hi : i < 8 * N
    · rw [if_pos hi, if_pos hi, if_pos hi, ctCmovM_byte _ _ _ _ _ h8, if_pos (by omega), show 8 * A + (8 * R + i - 8 * R) = 8 * A + i by omega]
    · rw [if_neg hi, if_neg hi]
  rw [← e]
  have := WCurve.digitsOf_digitBytes (rd (ctCmovM sel (8 * N) (8 * R) (8 * A) m) N R)
  rw [rd_length] at this
  exact this.symm

theorem ctCmovM_out {N R A x : ℕ} (sel : UInt8) (m : Mem) (h : R + N ≤ A ∨ A + N ≤ R) (hx : x < R ∨ R + N ≤ x) :
    ctCmovM sel (8 * N) (8 * R) (8 * A) m x = m x := by
  apply mem_eq_of_bytes
  intro k hk
  rw [ctCmovM_byte _ _ _ _ _ (by omega), if_neg (by omega)]

/-! ## Structures of type `mont_iso` -/

/-- The three variables of the `mont_iso` at `I`, with values -/
def isoVars (n I : ℕ) (x : Iso F2) : List (ℕ × F2) := [(I, x.B), (I + 2 * n, x.r), (I + 2 * n + 2 * n, x.u2)]

theorem rdI_words (n : ℕ) (m : Mem) (I : ℕ) : WCurve.isoWords (rdI n m I) = rd m (6 * n) I := by
  rw [show 6 * n = n + (n + (n + (n + (n + n)))) by ring]
  simp only [WCurve.isoWords, rdI, rdF, rd_add, List.append_assoc]
  simp only [show I + 2 * n = I + n + n by ring, show I + n + n + 2 * n = I + n + n + n + n by ring]

theorem isoOfWords_rd (n : ℕ) (m : Mem) (I : ℕ) : WCurve.isoOfWords n (rd m (6 * n) I) = rdI n m I := by
  rw [← rdI_words]
  have hl : ∀ a, (rd m n a).length = n := fun a => rd_length m n a
  simp only [WCurve.isoWords, WCurve.isoOfWords, rdI, rdF, List.append_assoc]
  rw [List.take_left' (hl _), List.drop_left' (hl _), List.take_left' (hl _), List.drop_left' (hl _), List.take_left' (hl _),
    List.drop_left' (hl _), List.take_left' (hl _), List.drop_left' (hl _), List.take_left' (hl _), List.drop_left' (hl _),
    List.take_of_length_le (hl _).le]

/-- The effect of a function that writes the whole `mont_iso` at `I` -/
theorem iso_effect {n s I : ℕ} {m m' : Mem} (h : ∀ x < s, x < I ∨ I + 6 * n ≤ x → m' x = m x) :
    Effect n s m m' (isoVars n I (rdI n m' I)) := by
  refine ⟨by simp [isoVars, rdI], fun x hx hx' => h x hx ?_⟩
  simp only [isoVars, List.forall_mem_cons] at hx'
  omega

/-- `ct_cmov((void *) iso, (void const *) other, sizeof(iso), selector)` (`poik.c:501, 575`) -/
def cmovIsoM (n : ℕ) (sel : BitVec 8) (iso other : ℕ) (m : Mem) : Mem := ctCmovM (.ofBitVec sel) (8 * (6 * n)) (8 * iso) (8 * other) m

theorem cmovIsoM_effect (l : Level) {s I J : ℕ} (sel : BitVec 8) (m : Mem) (h : I + 6 * nw l ≤ J ∨ J + 6 * nw l ≤ I) :
    Effect (nw l) s m (cmovIsoM (nw l) sel I J m) (isoVars (nw l) I (WCurve.cmovIso l sel (rdI (nw l) m I) (rdI (nw l) m J))) := by
  have e : rdI (nw l) (cmovIsoM (nw l) sel I J m) I = WCurve.cmovIso l sel (rdI (nw l) m I) (rdI (nw l) m J) := by
    rw [← isoOfWords_rd, cmovIsoM, ctCmovM_rd _ _ h, WCurve.cmovIso, rdI_words, rdI_words]
  rw [← e]
  exact iso_effect fun x _ hx => ctCmovM_out _ _ h hx

/-- `*J = *I` for structures of type `mont_iso` (`poik.c:419, 489, 510, 512`) -/
def copyIsoM (n I J : ℕ) (m : Mem) : Mem := copyMem (6 * n) I J m

theorem copyIsoM_effect {n s I J : ℕ} (m : Mem) (h : I + 6 * n ≤ J ∨ J + 6 * n ≤ I) :
    Effect n s m (copyIsoM n I J m) (isoVars n J (rdI n m I)) := by
  have hok : Ok (6 * n) I J := Or.inr h
  have e : rdI n (copyIsoM n I J m) J = rdI n m I := by
    rw [← isoOfWords_rd, ← isoOfWords_rd]
    exact congrArg _ (rd_shift fun i hi => copyMem_at hok hi)
  rw [← e]
  exact iso_effect fun x _ hx => copyMem_out hok hx

end Secuer.CMem
