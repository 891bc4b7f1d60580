import Verif.CMem.Bytes
import Verif.WProtocol.Refine

/-!
# `fp2_encode` and `fp2_decode` on memory

Strings of bytes are at byte addresses; the digit at address `a` consists of the bytes `8 a … 8 a + 7` (little-endian).
-/

namespace Secuer.CMem

open Secuer.Word Secuer.Field
open Secuer.Curve (Pt Crv Iso)

attribute [local instance] Arith.portable

/-! ## The programs -/

/-- `memcpy(dst, src, len)` -/
def memcpyM : (len dst src : ℕ) → Mem → Mem
  | 0, _, _, m => m
  | len + 1, dst, src, m => memcpyM len (dst + 1) (src + 1) (setByte m dst (byteAt m src))

/-- The `len` bytes at byte address `x` -/
def rdBytes (m : Mem) (x len : ℕ) : List UInt8 := (List.range len).map fun i => byteAt m (x + i)

/-- `encode_to_bytes` (`fpx.c:45-59`) on a little-endian machine -/
def encodeToBytesM (x enc nbytes : ℕ) (m : Mem) : Mem := memcpyM nbytes enc (8 * x) m

/-- `decode_to_digits` (`fpx.c:62-72`) on a little-endian machine -/
def decodeToDigitsM (x dec nbytes ndigits : ℕ) (m : Mem) : Mem := memcpyM nbytes (8 * dec) x (upd m (dec + (ndigits - 1)) 0)

/-- `fp2_encode` (`fpx.c:74-82`); local: `t` -/
def fp2encodeM (T : Tables) (x enc sp : ℕ) (m : Mem) : Mem :=
  let t := sp
  let m := fromFp2montM T x t (sp + 2 * T.n) m
  let m := encodeToBytesM t enc (half T) m
  encodeToBytesM (t + T.n) (enc + half T) (half T) m

/-- `fp2_decode` (`fpx.c:85-91`) -/
def fp2decodeM (T : Tables) (x dec sp : ℕ) (m : Mem) : Mem :=
  let m := decodeToDigitsM x dec (half T) T.n m
  let m := decodeToDigitsM (x + half T) (dec + T.n) (half T) T.n m
  toFp2montM T dec dec sp m

/-! ## Their effects -/

theorem memcpyM_byte : ∀ (len dst src : ℕ) (m : Mem), dst + len ≤ src ∨ src + len ≤ dst → ∀ y,
    byteAt (memcpyM len dst src m) y = if dst ≤ y ∧ y < dst + len then byteAt m (src + (y - dst)) else byteAt m y
  | 0, dst, src, m, _, y => by rw [if_neg (by omega)]; rfl
  | len + 1, dst, src, m, h, y => by
    rw [memcpyM, memcpyM_byte len (dst + 1) (src + 1) _ (by omega) y]
    simp only [byteAt_setByte]
    by_cases h1 : y = dst
    · subst h1
      rw [if_neg (by omega), if_pos rfl, if_pos (by omega), Nat.sub_self, Nat.add_zero]
    · by_cases h2 : dst ≤ y ∧ y < dst + (len + 1)
      · rw [if_pos (by omega), if_pos h2, if_neg (by omega), show src + 1 + (y - (dst + 1)) = src + (y - dst) by omega]
      · rw [if_neg (by omega), if_neg h1, if_neg h2]

theorem memcpyM_out {len dst src x : ℕ} {m : Mem} (h : dst + len ≤ src ∨ src + len ≤ dst) (hx : 8 * x + 8 ≤ dst ∨ dst + len ≤ 8 * x) :
    memcpyM len dst src m x = m x := by
  apply mem_eq_of_bytes
  intro k hk
  rw [memcpyM_byte _ _ _ _ h, if_neg (by omega)]

theorem rdBytes_length (m : Mem) (x len : ℕ) : (rdBytes m x len).length = len := by simp [rdBytes]

theorem rdBytes_getElem? (m : Mem) (x len i : ℕ) : (rdBytes m x len)[i]? = if i < len then some (byteAt m (x + i)) else none := by
  rw [rdBytes, List.getElem?_map]
  by_cases h : i < len
  · rw [if_pos h, List.getElem?_range h]; rfl
  · rw [if_neg h, List.getElem?_eq_none (by simpa using h)]; rfl

theorem rdBytes_drop (m : Mem) (x a b : ℕ) : (rdBytes m x (a + b)).drop a = rdBytes m (x + a) b := by
  apply List.ext_getElem?
  intro i
  rw [List.getElem?_drop, rdBytes_getElem?, rdBytes_getElem?, ← Nat.add_assoc]
  by_cases h : i < b
  · rw [if_pos (by omega), if_pos h]
  · rw [if_neg (by omega), if_neg h]

theorem rdBytes_take (m : Mem) (x a b : ℕ) : (rdBytes m x (a + b)).take a = rdBytes m x a := by
  apply List.ext_getElem?
  intro i
  rw [List.getElem?_take, rdBytes_getElem?, rdBytes_getElem?]
  by_cases h : i < a
  · rw [if_pos h, if_pos (by omega), if_pos h]
  · rw [if_neg h, if_neg h]

theorem rdBytes_append (m : Mem) (x a b : ℕ) : rdBytes m x (a + b) = rdBytes m x a ++ rdBytes m (x + a) b := by
  rw [← rdBytes_drop, ← rdBytes_take m x a b, List.take_append_drop]

theorem byteAt_congr {m m' : Mem} {x : ℕ} (h : m (x / 8) = m' (x / 8)) : byteAt m x = byteAt m' x := by rw [byteAt, byteAt, h]

theorem rdBytes_congr {m m' : Mem} {x len : ℕ} (h : ∀ y, x ≤ y → y < x + len → byteAt m y = byteAt m' y) : rdBytes m x len = rdBytes m' x len := by
  apply List.ext_getElem?
  intro i
  rw [rdBytes_getElem?, rdBytes_getElem?]
  by_cases hi : i < len
  · rw [if_pos hi, if_pos hi, h _ (by omega) (by omega)]
  · rw [if_neg hi, if_neg hi]

theorem rd_set {m : Mem} {n a : ℕ} (hn : 0 < n) : rd (upd m (a + (n - 1)) 0) n a = (rd m n a).set (n - 1) 0 := by
  apply List.ext_getElem?
  intro i
  rw [List.getElem?_set, rd_getElem?, rd_getElem?, rd_length, upd]
  by_cases hi : i < n
  · rw [if_pos hi, if_pos hi]
    by_cases h : n - 1 = i
    · subst h
      rw [if_pos rfl, if_pos rfl, if_pos (by omega)]
    · rw [if_neg (by omega), if_neg h]
  · rw [if_neg hi, if_neg hi, if_neg (by omega)]

/-- `decode_to_digits` on memory -/
theorem decodeToDigitsM_rd {x dec nbytes n : ℕ} (m : Mem) (hn : 0 < n) (hb : nbytes ≤ 8 * n) (h : 8 * (dec + n) ≤ x ∨ x + nbytes ≤ 8 * dec) :
    rd (decodeToDigitsM x dec nbytes n m) n dec = decodeToDigits (rd m n dec) (rdBytes m x nbytes) nbytes n := by
  have e : digitBytes (rd (decodeToDigitsM x dec nbytes n m) n dec) =
      (rdBytes m x nbytes).take nbytes ++ (digitBytes ((rd m n dec).set (n - 1) 0)).drop nbytes := by
    rw [← rd_set hn, List.take_of_length_le (by rw [rdBytes_length])]
    apply List.ext_getElem?
    intro i
    rw [digitBytes_rd, List.getElem?_append, rdBytes_length, rdBytes_getElem?, List.getElem?_drop, digitBytes_rd]
    rw [decodeToDigitsM, memcpyM_byte _ _ _ _ (by omega)]
    by_cases hi : i < nbytes
    · rw [if_pos (by omega), if_pos (by omega), if_pos hi, if_pos hi, show x + (8 * dec + i - 8 * dec) = x + i by omega]
      refine congrArg some (byteAt_congr ?_)
      rw [upd, if_neg (by omega)]
    · rw [if_neg (show ¬ (8 * dec ≤ 8 * dec + i ∧ 8 * dec + i < 8 * dec + nbytes) by omega), if_neg hi, show nbytes + (i - nbytes) = i by omega]
  rw [decodeToDigits, ← e]
  have := WCurve.digitsOf_digitBytes (rd (decodeToDigitsM x dec nbytes n m) n dec)
  rw [rd_length] at this
  exact this.symm

theorem decodeToDigitsM_out {x dec nbytes n y : ℕ} {m : Mem} (hn : 0 < n) (hb : nbytes ≤ 8 * n) (h : 8 * (dec + n) ≤ x ∨ x + nbytes ≤ 8 * dec)
    (hy : y < dec ∨ dec + n ≤ y) : decodeToDigitsM x dec nbytes n m y = m y := by
  rw [decodeToDigitsM, memcpyM_out (by omega) (by omega), upd, if_neg (by omega)]

variable {l : Level}

/-- `FP2_ENCODED_BYTES` -/
abbrev sz (l : Level) : ℕ := half (tables l) + half (tables l)

/-- The element of `GF(p²)` that `fp2_decode` reads from a string -/
def dec (l : Level) (b : List UInt8) : F2 := fp2decode (tables l) ⟨List.replicate (nw l) 0, List.replicate (nw l) 0⟩ b

/-- What `fp2_decode` writes does not depend on what was there. -/
theorem fp2decode_indep {x : F2} (hx : Len (nw l) x) {b : List UInt8} (hb : b.length = sz l) : fp2decode (tables l) x b = dec l b := by
  have hb' := half_bounds l
  have hs : sz l = half (tables l) + half (tables l) := rfl
  have g := good l
  have key : ∀ {d d' : List Digit} {b : List UInt8}, d.length = (tables l).n → d'.length = (tables l).n → half (tables l) ≤ b.length →
      decodeToDigits d b (half (tables l)) (tables l).n = decodeToDigits d' b (half (tables l)) (tables l).n := by
    intro d d' b hd hd' hl
    obtain ⟨l0, v0⟩ := decodeToDigits_val g.n_pos hd hl hb'.1 hb'.2.1
    obtain ⟨l1, v1⟩ := decodeToDigits_val g.n_pos hd' hl hb'.1 hb'.2.1
    exact val_inj (l0.trans l1.symm) (v0.trans v1.symm)
  unfold dec fp2decode
  rw [key (d' := List.replicate (nw l) 0) hx.c0 (by simp [nw]) (by omega),
    key (d' := List.replicate (nw l) 0) hx.c1 (by simp [nw]) (by rw [List.length_drop]; omega)]

/-- `fp2_decode` on memory -/
theorem fp2decodeM_effect {x d s : ℕ} (m : Mem) (hd : d + 2 * nw l ≤ s) (h : 8 * (d + 2 * nw l) ≤ x ∨ x + sz l ≤ 8 * d) :
    Effect (nw l) s m (fp2decodeM (tables l) x d s m) [(d, dec l (rdBytes m x (sz l)))] := by
  have g := good l
  have hn := g.n_pos
  have hb := half_bounds l
  have hs : sz l = half (tables l) + half (tables l) := rfl
  have en : (tables l).n = nw l := rfl
  rw [en] at hb hn
  rw [← fp2decode_indep (x := rdF (nw l) m d) ⟨rd_length _ _ _, rd_length _ _ _⟩ (rdBytes_length _ _ _)]
  simp only [fp2decodeM]
  rw [en]
  have r1 := decodeToDigitsM_rd (x := x) (dec := d) (nbytes := half (tables l)) (n := nw l) m hn hb.2.1 (by omega)
  have o1 : ∀ y, y < d ∨ d + nw l ≤ y → decodeToDigitsM x d (half (tables l)) (nw l) m y = m y := fun y hy =>
    decodeToDigitsM_out hn hb.2.1 (by omega) hy
  generalize decodeToDigitsM x d (half (tables l)) (nw l) m = m1 at r1 o1 ⊢
  have r2 := decodeToDigitsM_rd (x := x + half (tables l)) (dec := d + nw l) (nbytes := half (tables l)) (n := nw l) m1 hn hb.2.1 (by omega)
  have o2 : ∀ y, y < d + nw l ∨ d + nw l + nw l ≤ y → decodeToDigitsM (x + half (tables l)) (d + nw l) (half (tables l)) (nw l) m1 y = m1 y := fun y hy =>
    decodeToDigitsM_out hn hb.2.1 (by omega) hy
  generalize decodeToDigitsM (x + half (tables l)) (d + nw l) (half (tables l)) (nw l) m1 = m2 at r2 o2 ⊢
  have e1 : rd m2 (nw l) d = decodeToDigits (rd m (nw l) d) (rdBytes m x (sz l)) (half (tables l)) (nw l) := by
    rw [rd_congr (m' := m1) fun y h1 h2 => o2 y (by omega), r1, decodeToDigits, decodeToDigits, ← rdBytes_take m x _ (half (tables l)),
      List.take_take, Nat.min_self]
  have e2 : rd m2 (nw l) (d + nw l) = decodeToDigits (rd m (nw l) (d + nw l)) ((rdBytes m x (sz l)).drop (half (tables l))) (half (tables l)) (nw l) := by
    rw [r2, rdBytes_drop, rd_congr (m' := m) fun y h1 h2 => o1 y (by omega),
      rdBytes_congr (m' := m) fun y h1 h2 => byteAt_congr (o1 _ (by omega))]
  have h3 := toFp2montM_step (s := s) (a := d) (c := d) (m := m2) g (Agree.refl _ _) hd hd (Or.inl rfl)
  have ef : toFp2mont (tables l) (rdF (tables l).n m2 d) = fp2decode (tables l) (rdF (nw l) m d) (rdBytes m x (sz l)) := by
    rw [en, rdF, e1, e2]; rfl
  rw [ef] at h3
  have hl : Len (nw l) (fp2decode (tables l) (rdF (nw l) m d) (rdBytes m x (sz l))) := by
    rw [← ef]
    exact ⟨fpmulC_length g (rd_length _ _ _) g.len_r2, fpmulC_length g (rd_length _ _ _) g.len_r2⟩
  generalize fp2decode (tables l) (rdF (nw l) m d) (rdBytes m x (sz l)) = y at h3 hl ⊢
  have hy0 := hl.c0
  have hy1 := hl.c1
  rw [en] at h3
  refine ⟨?_, fun z hz hz' => ?_⟩
  · intro w hw
    rw [List.mem_singleton.1 hw]
    change rdF (nw l) _ d = y
    have := h3.rdF (n := nw l) (a := d) hd
    rw [this, rdF_wrF_same hl]
  · have hz' := hz' _ (List.mem_singleton.2 rfl)
    simp only [not_and, not_lt] at hz'
    rw [h3 z hz, wrF]
    rcases Nat.lt_or_ge z d with h4 | h4
    · rw [wr_of_lt (by omega), wr_of_lt h4, o2 z (by omega), o1 z (by omega)]
    · have := hz' h4
      rw [wr_of_ge (by omega), wr_of_ge (by omega), o2 z (by omega), o1 z (by omega)]

/-- `fp2_encode` on memory: the string is that of the element, and all bytes before the local variables but those of the string are unchanged. -/
theorem fp2encodeM_spec {x e s : ℕ} (m : Mem) (hx : x + 2 * nw l ≤ s) (he : e + sz l ≤ 8 * s) :
    rdBytes (fp2encodeM (tables l) x e s m) e (sz l) = fp2encode (tables l) (rdF (nw l) m x) ∧
      ∀ y < 8 * s, ¬ (e ≤ y ∧ y < e + sz l) → byteAt (fp2encodeM (tables l) x e s m) y = byteAt m y := by
  have g := good l
  have hn := g.n_pos
  have hb := half_bounds l
  have hs : sz l = half (tables l) + half (tables l) := rfl
  have en : (tables l).n = nw l := rfl
  rw [en] at hb hn
  simp only [fp2encodeM, encodeToBytesM]
  rw [en]
  have h1 := fromFp2montM_step (s := s + 2 * nw l) (a := x) (c := s) (m := m) g (Agree.refl _ _) (by rw [en]; omega) (by rw [en]) (Or.inr (by rw [en]; omega))
  rw [en] at h1
  have hl : Len (nw l) (fromFp2mont (tables l) (rdF (nw l) m x)) := ⟨fromMont_length g (rd_length _ _ _), fromMont_length g (rd_length _ _ _)⟩
  have ef : fp2encode (tables l) (rdF (nw l) m x) = encodeToBytes (fromFp2mont (tables l) (rdF (nw l) m x)).c0 (half (tables l)) ++
      encodeToBytes (fromFp2mont (tables l) (rdF (nw l) m x)).c1 (half (tables l)) := rfl
  rw [ef]
  generalize fromFp2mont (tables l) (rdF (nw l) m x) = y at h1 hl ⊢
  generalize fromFp2montM (tables l) x s (s + 2 * nw l) m = m1 at h1 ⊢
  have hy0 := hl.c0
  have hy1 := hl.c1
  have r1 := h1.rdF (n := nw l) (a := s) (le_refl _)
  rw [rdF_wrF_same hl] at r1
  have f1 : ∀ z < s, m1 z = m z := fun z hz => by rw [h1 z (by omega), wrF, wr_of_lt (by omega), wr_of_lt hz]
  have b0 : rdBytes m1 (8 * s) (half (tables l)) = encodeToBytes y.c0 (half (tables l)) := by
    rw [← r1, encodeToBytes]
    apply List.ext_getElem?
    intro i
    rw [List.getElem?_take, rdBytes_getElem?, rdF, digitBytes_rd]
    by_cases hi : i < half (tables l)
    · rw [if_pos hi, if_pos hi, if_pos (by omega)]
    · rw [if_neg hi, if_neg hi]
  have b1 : rdBytes m1 (8 * (s + nw l)) (half (tables l)) = encodeToBytes y.c1 (half (tables l)) := by
    rw [← r1, encodeToBytes]
    apply List.ext_getElem?
    intro i
    rw [List.getElem?_take, rdBytes_getElem?, rdF, digitBytes_rd]
    by_cases hi : i < half (tables l)
    · rw [if_pos hi, if_pos hi, if_pos (by omega)]
    · rw [if_neg hi, if_neg hi]
  have c1 := memcpyM_byte (half (tables l)) e (8 * s) m1 (by omega)
  generalize memcpyM (half (tables l)) e (8 * s) m1 = m2 at c1 ⊢
  have c2 := memcpyM_byte (half (tables l)) (e + half (tables l)) (8 * (s + nw l)) m2 (by omega)
  generalize memcpyM (half (tables l)) (e + half (tables l)) (8 * (s + nw l)) m2 = m3 at c2 ⊢
  constructor
  · rw [← b0, ← b1, rdBytes_append]
    congr 1
    · apply List.ext_getElem?
      intro i
      rw [rdBytes_getElem?, rdBytes_getElem?]
      by_cases hi : i < half (tables l)
      · rw [if_pos hi, if_pos hi, c2, if_neg (by omega), c1, if_pos (by omega), Nat.add_sub_cancel_left]
      · rw [if_neg hi, if_neg hi]
    · apply List.ext_getElem?
      intro i
      rw [rdBytes_getElem?, rdBytes_getElem?]
      by_cases hi : i < half (tables l)
      · rw [if_pos hi, if_pos hi, c2, if_pos (by omega), Nat.add_sub_cancel_left, c1, if_neg (by omega)]
      · rw [if_neg hi, if_neg hi]
  · intro z hz hz'
    rw [c2, if_neg (by omega), c1, if_neg (by omega), byteAt_congr (f1 _ (by omega))]

end Secuer.CMem
