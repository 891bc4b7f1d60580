import Verif.CMem.Chain
import Verif.Props.MemIsogProps

/-!
# Strings, `Check_Curve` and chains on memory (C98)

`fp2_encode`, `fp2_decode`, `Check_Curve`, `Unpack_Chain_A` and `Unpack_Chain_B`, executed on memory digit by digit and byte by byte, in the
portable build.
-/

set_option maxRecDepth 100000

namespace Secuer.MemProps

open Secuer.Word Secuer.Field Secuer.CMem
open Secuer.Scalar (leNat leBytes)
open Secuer.WCurve (V VC VP VL Draw TapeLen)
open Secuer.Curve (Pt Crv Out Tape)
open Secuer.ChainProps (RightOrder rightOrder_iff rightOrder_zero CyclicIsogeny ChainOutcome)

attribute [local instance] Arith.portable

variable {l : Level}

/-- The number of bytes of an element of GF(p) in a string -/
abbrev fb (l : Level) : ℕ := (Protocol.params l).fpBytes

/-- The `n` bytes at byte address `x`: the byte `x % 8` of the digit `x / 8`, little-endian, and so on -/
def bytesAt (m : Mem) (x n : ℕ) : List UInt8 := (List.range n).map fun i => UInt8.ofNat ((m ((x + i) / 8)).toNat / 256 ^ ((x + i) % 8) % 256)

/-- The element of GF(p²) in the string at `x`: two integers, little-endian, modulo `p` -/
def strVal (l : Level) (m : Mem) (x : ℕ) : l.F := ⟨(leNat (bytesAt m x (fb l)) : ZMod l.p), (leNat (bytesAt m (x + fb l) (fb l)) : ZMod l.p)⟩

theorem rdBytes_eq (m : Mem) (x n : ℕ) : rdBytes m x n = bytesAt m x n := by
  refine List.map_congr_left fun i _ => ?_
  rw [byteAt]
  apply UInt8.toNat.inj
  rw [UInt8.toNat_ofBitVec, BitVec.toNat_setWidth, BitVec.toNat_ushiftRight, Nat.shiftRight_eq_div_pow, UInt8.toNat_ofNat', pow_mul]
  simp

theorem sz_eq : 2 * fb l = sz l := by
  rw [sz, half_eq]
  exact Nat.two_mul _

theorem dec_v (m : Mem) (x : ℕ) : V l 2 (dec l (rdBytes m x (sz l))) (strVal l m x) := by
  have e : rdBytes m x (sz l) = bytesAt m x (fb l) ++ bytesAt m (x + fb l) (fb l) := by
    rw [← rdBytes_eq, ← rdBytes_eq, ← rdBytes_append, sz, half_eq]
  rw [e]
  obtain ⟨h1, h2⟩ := fp2decode_spec l ⟨List.replicate (nw l) 0, List.replicate (nw l) 0⟩ (by simp) (by simp) (bytesAt m x (fb l))
    (bytesAt m (x + fb l) (fb l)) (by simp [bytesAt]) (by simp [bytesAt])
  exact ⟨h1, h2⟩

/-! ## Strings -/

/-- `fp2_decode` writes the element that the string stands for, and nothing else. -/
theorem C98_decode {x d s : ℕ} (m : Mem) (hd : d + 2 * nw l ≤ s) (h : 8 * (d + 2 * nw l) ≤ x ∨ x + 2 * fb l ≤ 8 * d) :
    V l 2 (rdF (nw l) (fp2decodeM (tables l) x d s m) d) (strVal l m x) ∧
      ∀ y < s, (y < d ∨ d + 2 * nw l ≤ y) → fp2decodeM (tables l) x d s m y = m y := by
  have e := fp2decodeM_effect (l := l) (x := x) (s := s) m hd (by rw [← sz_eq]; exact h)
  refine ⟨?_, fun y hy h' => e.frame y hy ?_⟩
  · rw [e.out _ (List.mem_singleton.2 rfl)]
    exact dec_v m x
  · intro w hw
    rw [List.mem_singleton.1 hw]
    change ¬ (d ≤ y ∧ y < d + 2 * nw l)
    omega

/-- `fp2_encode` writes the string of the element, which consists of the two least residues, and changes no other byte.  The string may lie
in the element itself. -/
theorem C98_encode {x e s : ℕ} (m : Mem) (hx : x + 2 * nw l ≤ s) (he : e + 2 * fb l ≤ 8 * s) {u : l.F} (hu : V l 120 (rdF (nw l) m x) u) :
    bytesAt (fp2encodeM (tables l) x e s m) e (2 * fb l) = leBytes (fb l) u.re.val ++ leBytes (fb l) u.im.val ∧
      ∀ y < 8 * s, y < e ∨ e + 2 * fb l ≤ y → bytesAt (fp2encodeM (tables l) x e s m) y 1 = bytesAt m y 1 := by
  have h2 := sz_eq (l := l)
  obtain ⟨e1, e2⟩ := fp2encodeM_spec (l := l) m hx (by rw [← h2]; exact he)
  have g := good l
  rw [h2, ← rdBytes_eq, e1, fp2encode_of l (fromMont_spec g hu.rng.c0) (fromMont_spec g hu.rng.c1), hu.val]
  refine ⟨rfl, fun y hy h => ?_⟩
  rw [← rdBytes_eq, ← rdBytes_eq]
  exact rdBytes_congr fun z h1 h3 => e2 z (by omega) (by omega)

/-- What `fp2_encode` writes, `fp2_decode` reads. -/
theorem C98_roundtrip {x e d s : ℕ} (m : Mem) (hx : x + 2 * nw l ≤ s) (he : e + 2 * fb l ≤ 8 * s) (hd : d + 2 * nw l ≤ s)
    (h : 8 * (d + 2 * nw l) ≤ e ∨ e + 2 * fb l ≤ 8 * d) {u : l.F} (hu : V l 120 (rdF (nw l) m x) u) :
    V l 2 (rdF (nw l) (fp2decodeM (tables l) e d s (fp2encodeM (tables l) x e s m)) d) u := by
  have h1 := (C98_encode m hx he hu).1
  obtain ⟨h2, -⟩ := C98_decode (s := s) (fp2encodeM (tables l) x e s m) hd h
  have h3 : strVal l (fp2encodeM (tables l) x e s m) e = u := by
    have hb := half_bounds l
    rw [half_eq] at hb
    have hlt : ∀ v : ZMod l.p, v.val < 256 ^ fb l := fun v => lt_of_lt_of_le (ZMod.val_lt v) hb.2.2
    rw [← rdBytes_eq, Nat.two_mul, rdBytes_append, rdBytes_eq, rdBytes_eq] at h1
    obtain ⟨k1, k2⟩ := List.append_inj h1 (by rw [Scalar.leBytes_length]; simp [bytesAt])
    rw [strVal, k1, k2, Scalar.leNat_leBytes _ _ (hlt _), Scalar.leNat_leBytes _ _ (hlt _), ZMod.natCast_zmod_val, ZMod.natCast_zmod_val]
  rwa [h3] at h2

/-! ## `Check_Curve` -/

/-- `Check_Curve` has no undefined behaviour, and if it returns, it has decided whether the curve is one with `(p+1)²` points; it changes
nothing in the memory of its caller. -/
theorem C98_check {E s : ℕ} (hL : Layout (nw l) s [E, E + 2 * nw l]) (t : Tape Draw) (ht : TapeLen l t) (m : Mem) {A : l.F}
    (hA : V l 2 (rdF (nw l) m E) A) (hC : V l 2 (rdF (nw l) m (E + 2 * nw l)) 1) :
    checkCurveM l E s t m ≠ .ub ∧ ∀ b m' t', checkCurveM l E s t m = .ok ((b, m'), t') → (b = true ↔ RightOrder l A) ∧ ∀ x < s, m' x = m x := by
  obtain ⟨junk, r⟩ := checkCurveM_spec hL t m
  have q := WCurve.checkCurve_ref junk (fun _ => (⟨0, 0⟩, ⟨0, 0⟩)) (E := rdC (nw l) m E) (E' := ⟨A, 1⟩) ⟨hA.n, hC⟩ hA t ht
  have hu := ChainProps.c28_no_ub l (fun _ => (⟨0, 0⟩, ⟨0, 0⟩)) ⟨A, 1⟩ (WCurve.fieldTape l t)
  have hv := fun t' b => ChainProps.c27_c28_verdict l (fun _ => (⟨0, 0⟩, ⟨0, 0⟩)) A (WCurve.fieldTape l t) t' b
  generalize Curve.checkCurve l.env l.po _ _ _ = c at q hu hv
  generalize WCurve.checkCurve l _ _ t = o at q r
  generalize checkCurveM l E s t m = o' at r ⊢
  refine ⟨?_, ?_⟩
  · rintro rfl
    cases q <;> first | exact r | exact hu rfl
  · rintro b m' t' rfl
    cases q with
    | abort => exact r.elim
    | ub => exact r.elim
    | starved => exact r.elim
    | ok q =>
    rename_i x y
    obtain ⟨x, tx⟩ := x
    obtain ⟨y, ty⟩ := y
    obtain ⟨q, -, -⟩ := q
    obtain ⟨-, h1, h2⟩ := r
    dsimp only at q h1 h2
    subst q h1
    exact ⟨hv _ _ rfl, fun z hz => h2.frame z hz (by simp)⟩

/-! ## Chains -/

/-- What is claimed about the end of `Unpack_Chain_A` and `Unpack_Chain_B`, from memory `m`: no undefined behaviour; if they return, they have
changed `E` at most; if they return true, there is a curve with `(p+1)²` points at `E`, to which a cyclic isogeny of degree `d` leads from
the curve `a`. -/
def ChainEnd (l : Level) (d : ℕ) (a : l.F) (E s : ℕ) (m : Mem) (o : Out ((Bool × Mem) × Tape Draw)) : Prop :=
  o ≠ .ub ∧ ∀ b m' t', o = .ok ((b, m'), t') → OnlyAt (nw l) s [E] m m' ∧
    (b = true → ∃ E' : Crv l.F, VC l (rdC (nw l) m' E) E' ∧ E'.C ≠ 0 ∧ RightOrder l (E'.A / E'.C) ∧ CyclicIsogeny l d a (E'.A / E'.C))

theorem chainEnd {d : ℕ} {a : l.F} {E s : ℕ} {m : Mem} {o' : Out ((Bool × Mem) × Tape Draw)} {o : Out (Option (Crv F2) × Tape Draw)}
    {c : Out (Option (Crv l.F) × Tape l.F)} (r : ResT (ChainRes (nw l) s m E) o o')
    (q : WCurve.OR (fun a b => Option.Rel (VC l) a.1 b.1 ∧ TapeLen l a.2 ∧ b.2 = WCurve.fieldTape l a.2) o c) (h : ChainOutcome l d a c) :
    ChainEnd l d a E s m o' := by
  refine ⟨?_, ?_⟩
  · rintro rfl
    cases q <;> first | exact r | exact h
  · rintro b m' t' rfl
    cases q with
    | abort => exact r.elim
    | ub => exact r.elim
    | starved => exact r.elim
    | ok q =>
    rename_i x y
    obtain ⟨x, tx⟩ := x
    obtain ⟨y, ty⟩ := y
    obtain ⟨q, -, -⟩ := q
    obtain ⟨-, r⟩ := r
    dsimp only at q r
    have key : ∀ {x : Crv F2}, Effect (nw l) s m m' (crvVars (nw l) E x) → OnlyAt (nw l) s [E] m m' := fun {x} e z hz hn => e.frame z hz (by
      have := hn E (by simp)
      simp only [crvVars, List.forall_mem_cons]
      exact ⟨by omega, by omega, by simp⟩)
    rcases x with _ | x <;> rcases b with _ | _ <;> simp only [ChainRes] at r
    · obtain ⟨x, r⟩ := r
      exact ⟨key r, by simp⟩
    · refine ⟨key r, fun _ => ?_⟩
      cases q with
      | some q =>
      refine ⟨_, ?_, h⟩
      rw [crv_out (Q := some E) r (fun w hw => hw) E rfl]
      exact q

theorem strs_v (m : Mem) (n x : ℕ) :
    VL (V l 2) ((List.range n).map fun i => dec l (rdBytes m (x + i * sz l) (sz l))) ((List.range n).map fun i => strVal l m (x + i * (2 * fb l))) := by
  have h2 := sz_eq (l := l)
  rw [h2]
  induction List.range n with
  | nil => exact .nil
  | cons i is ih => exact .cons (dec_v m _) ih

/-- The string of `len` bytes at byte address `x` lies below `s`, and outside the curve at `E`. -/
structure StrIn (l : Level) (s E x len : ℕ) : Prop where
  below : x + len ≤ 8 * s
  apart : x + len ≤ 8 * E ∨ 8 * (E + 4 * nw l) ≤ x

theorem StrIn.str {s E x len : ℕ} (h : StrIn l s E x len) : Str (nw l) s (argU l E) x len := by
  refine ⟨h.below, ?_⟩
  have := h.apart
  simp only [argU, List.forall_mem_cons]
  exact ⟨by omega, by omega, by simp⟩

/-- `Unpack_Chain_A` for `n` strings at `x`, if the string at `E0` is that of a curve with `(p+1)²` points -/
theorem C98_chain_A {E s n E0 x : ℕ} (hn : 0 < n) (hL : Layout (nw l) s [E, E + 2 * nw l]) (h0 : StrIn l s E E0 (2 * fb l))
    (hx : StrIn l s E x (n * (2 * fb l))) (t : Tape Draw) (ht : TapeLen l t) (m : Mem) (ha : RightOrder l (strVal l m E0)) :
    ChainEnd l (2 ^ (l.iso.e2 * n)) (strVal l m E0) E s m (unpackChainAM l n E0 x E s t m) := by
  have h2 := sz_eq (l := l)
  obtain ⟨junk, r⟩ := unpackChainAM_spec hL (n := n) (E0 := E0) (x := x) (by rw [← h2]; exact h0.str) (by rw [← h2]; exact hx.str) t m
  have q := WCurve.unpackChainA_ref junk (fun _ => (⟨0, 0⟩, ⟨0, 0⟩)) (dec_v m E0) (strs_v m n x) t ht
  have hc := ChainProps.c40_chain_A l (fun _ => (⟨0, 0⟩, ⟨0, 0⟩)) ha (xs := (List.range n).map fun i => strVal l m (x + i * (2 * fb l)))
    (by simp; omega) (WCurve.fieldTape l t)
  rw [List.length_map, List.length_range] at hc
  exact chainEnd r q hc

/-- `Unpack_Chain_B` for `n` strings at `x`, if the string at `E0` is that of a curve with `(p+1)²` points -/
theorem C98_chain_B {E s n E0 x : ℕ} (hn : 0 < n) (hL : Layout (nw l) s [E, E + 2 * nw l]) (h0 : StrIn l s E E0 (2 * fb l))
    (hx : StrIn l s E x (n * (2 * fb l))) (t : Tape Draw) (ht : TapeLen l t) (m : Mem) (ha : RightOrder l (strVal l m E0)) :
    ChainEnd l (3 ^ (l.iso.e3 * n)) (strVal l m E0) E s m (unpackChainBM l n E0 x E s t m) := by
  have h2 := sz_eq (l := l)
  obtain ⟨junk, r⟩ := unpackChainBM_spec hL (n := n) (E0 := E0) (x := x) (by rw [← h2]; exact h0.str) (by rw [← h2]; exact hx.str) t m
  have q := WCurve.unpackChainB_ref junk (fun _ => (⟨0, 0⟩, ⟨0, 0⟩)) (dec_v m E0) (strs_v m n x) t ht
  have hc := ChainProps.c40_chain_B l (fun _ => (⟨0, 0⟩, ⟨0, 0⟩)) ha (xs := (List.range n).map fun i => strVal l m (x + i * (2 * fb l)))
    (by simp; omega) (WCurve.fieldTape l t)
  rw [List.length_map, List.length_range] at hc
  exact chainEnd r q hc

/-! ## The hypotheses can be met

Memory that is zero everywhere: every string in it stands for 0, the coefficient of the starting curve. -/

def zeroMem : Mem := fun _ => 0

theorem strVal_zero (x : ℕ) : strVal l zeroMem x = 0 := by
  have h : ∀ x n, leNat (bytesAt zeroMem x n) = 0 := by
    intro x n
    have : bytesAt zeroMem x n = List.replicate n 0 := by
      simp [bytesAt, zeroMem]
    rw [this]
    induction n with
    | zero => rfl
    | succ n ih => rw [List.replicate_succ, leNat, ih (by simp [bytesAt, zeroMem])]; rfl
  rw [strVal, h, h, Nat.cast_zero]
  rfl

example (t : Tape Draw) (ht : TapeLen .l434 t) :
    ChainEnd .l434 (2 ^ (Level.l434.iso.e2 * 2)) 0 100 200 zeroMem (unpackChainAM .l434 2 3 113 100 200 t zeroMem) := by
  have := C98_chain_A (l := .l434) (n := 2) (E := 100) (s := 200) (E0 := 3) (x := 113) (by decide) ⟨by decide, by decide⟩
    ⟨by decide, by decide⟩ ⟨by decide, by decide⟩ t ht zeroMem (by rw [strVal_zero]; exact rightOrder_zero _)
  rwa [strVal_zero] at this

example (t : Tape Draw) (ht : TapeLen .l434 t) :
    ChainEnd .l434 (3 ^ (Level.l434.iso.e3 * 5)) 0 100 200 zeroMem (unpackChainBM .l434 5 3 113 100 200 t zeroMem) := by
  have := C98_chain_B (l := .l434) (n := 5) (E := 100) (s := 200) (E0 := 3) (x := 113) (by decide) ⟨by decide, by decide⟩
    ⟨by decide, by decide⟩ ⟨by decide, by decide⟩ t ht zeroMem (by rw [strVal_zero]; exact rightOrder_zero _)
  rwa [strVal_zero] at this

example (t : Tape Draw) (ht : TapeLen .l434 t) (b : Bool) (m' : Mem) (t' : Tape Draw)
    (h : checkCurveM .l434 46 120 t exMemE = .ok ((b, m'), t')) : b = true :=
  ((C98_check (l := .l434) (E := 46) (s := 120) ⟨by decide, by decide⟩ t ht exMemE
    (by rw [show rdF (nw .l434) exMemE 46 = fp2zero (tables .l434) by decide +kernel]; exact WCurve.zero_v)
    (by rw [show rdF (nw .l434) exMemE (46 + 2 * nw .l434) = fp2one (tables .l434) by decide +kernel]; exact WCurve.one_v)).2 b m' t' h).1.2
    (rightOrder_zero _)

example : V .l434 2 (rdF (nw .l434) (fp2decodeM (tables .l434) 803 20 300 (fp2encodeM (tables .l434) 60 803 300 exMemE)) 20) 1 :=
  C98_roundtrip (l := .l434) (x := 60) (e := 803) (d := 20) (s := 300) exMemE (by decide) (by decide) (by decide) (by decide) (by
    rw [show rdF (nw .l434) exMemE 60 = fp2one (tables .l434) by decide +kernel]
    exact WCurve.one_v.mono (by norm_num))

end Secuer.MemProps
