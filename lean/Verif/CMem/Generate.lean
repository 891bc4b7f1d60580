import Verif.CMem.Pack
import Verif.CMem.Verify

/-!
# `Generate` on memory
-/

set_option maxRecDepth 100000

namespace Secuer.CMem

open Secuer.Word Secuer.Field
open Secuer.Text (PFp2)
open Secuer.Protocol (params Secret)
open Secuer.Curve (Pt Crv Out Tape M Chain)
open Secuer.WCurve (Draw V VC VP VL VCh TapeLen fieldTape)

attribute [local instance] Arith.portable

variable {l : Level}

/-! ## The programs -/

/-- The two loops at the end of `Generate` (`poik.c:1398-1401`): `n` calls of `fp2div_enc` on the pairs at `X` -/
def encLoopM (l : Level) (sp : ℕ) : (n X x : ℕ) → Mem → Mem
  | 0, _, _, m => m
  | n + 1, X, x, m => encLoopM l sp n (X + 4 * nw l) (x + sz l) (fp2divEncM l X (X + 2 * nw l) x sp m)

/-- `sizeof(struct secret)` (`poik.h:57-60`) -/
def secretSize (l : Level) : ℕ := ((params l).width + 1) * sz l + (params l).width * sz l

/-- `Generate` (`poik.c:1389-1404`), with the `packed_fp2` at `E0` and the `struct secret` at `sec`; locals: `E`, `chain` -/
def generateM (l : Level) (E0 sec sp : ℕ) (t : Tape Draw) (m : Mem) : Out ((Bool × Mem) × Tape Draw) :=
  let n := (params l).width
  let E := loc (nw l) sp 0
  let cE := E + 4 * nw l
  let cP := cE + (n + 1) * (4 * nw l)
  let sp := cP + n * (4 * nw l)
  bindT (unpackCurveM l E0 E sp t m) fun q t =>
    if q.1 = false then .ok ((false, q.2), t) else
    bindT (randomChainAM l n E cE cP sp t q.2) fun m t =>
      let m := encLoopM l sp (n + 1) cE sec m
      let m := encLoopM l sp n cP (sec + (n + 1) * sz l) m
      .ok ((true, m), t)

/-- The `struct secret` at `sec` -/
def rdSecret (l : Level) (m : Mem) (sec : ℕ) : Secret :=
  ⟨rdPFs l m sec ((params l).width + 1), rdPFs l m (sec + ((params l).width + 1) * sz l) (params l).width⟩

/-! ## The loops -/

theorem encLoopM_spec {s : ℕ} : ∀ (n X x : ℕ) (m : Mem), X + n * (4 * nw l) ≤ s → x + n * sz l ≤ 8 * s →
    (x + n * sz l ≤ 8 * X ∨ 8 * (X + n * (4 * nw l)) ≤ x) →
    rdPFs l (encLoopM l s n X x m) x n = (rdPs l m n X).map (fun P => WProtocol.encode l (WCurve.div l P.X P.Z)) ∧
      BF s [(x, n * sz l)] m (encLoopM l s n X x m)
  | 0, X, x, m, _, _, _ => ⟨rfl, (BF.refl _ _).mono (le_refl _) (by simp)⟩
  | n + 1, X, x, m, h1, h2, h3 => by
    rw [Nat.succ_mul n (4 * nw l)] at h1 h3
    rw [Nat.succ_mul n (sz l)] at h2 h3 ⊢
    obtain ⟨a1, b1⟩ := fp2divEncM_spec (l := l) (X := X) (Z := X + 2 * nw l) (r := x) (s := s) m ⟨by simp; omega, by simp⟩ (by omega)
    rw [encLoopM]
    generalize fp2divEncM l X (X + 2 * nw l) x s m = m1 at a1 b1 ⊢
    obtain ⟨a2, b2⟩ := encLoopM_spec (s := s) n (X + 4 * nw l) (x + sz l) m1 (by omega) (by omega) (by omega)
    generalize encLoopM l s n (X + 4 * nw l) (x + sz l) m1 = m2 at a2 b2 ⊢
    have e : rdPs l m1 n (X + 4 * nw l) = rdPs l m n (X + 4 * nw l) := b1.rdPs (by omega) (by simp; omega)
    rw [e] at a2
    refine ⟨?_, (b1.trans b2).mono (le_refl _) (by simp; omega)⟩
    rw [rdPFs_succ, a2, b2.pf (by omega) (by simp), a1]
    rfl

/-- The same memory, read as curves -/
theorem rdCs_points (m : Mem) (f : F2 → F2 → PFp2) : ∀ n X, (rdPs l m n X).map (fun P => f P.X P.Z) = (rdCs l m n X).map fun E => f E.A E.C
  | 0, _ => rfl
  | n + 1, X => by
    change f _ _ :: _ = f _ _ :: _
    rw [rdCs_points m f n (X + 4 * nw l)]
    rfl

theorem encode_curves {as : List (Crv F2)} {bs : List (Crv l.F)} (h : VL (VC l) as bs) :
    (as.map fun E => WProtocol.encode l (WCurve.div l E.A E.C)) = bs.map fun E => Protocol.encode l (Curve.fp2div E.A E.C) := by
  induction h with
  | nil => rfl
  | cons h _ ih => rw [List.map_cons, List.map_cons, WProtocol.encode_v h.div, ih]

theorem encode_points {as : List (Pt F2)} {bs : List (Pt l.F)} (h : VL (VP l) as bs) :
    (as.map fun P => WProtocol.encode l (WCurve.div l P.X P.Z)) = bs.map fun P => Protocol.encode l (Curve.fp2div P.X P.Z) := by
  induction h with
  | nil => rfl
  | cons h _ ih => rw [List.map_cons, List.map_cons, WProtocol.encode_v ((h.X.mono (show 2 ≤ 4 by norm_num)).divN h.Z), ih]

/-- What `Generate` leaves in memory -/
def GenRes (l : Level) (s sec : ℕ) (m : Mem) : Option Secret → Bool × Mem → Prop
  | none, (b, m') => b = false ∧ BF s [] m m'
  | some v, (b, m') => b = true ∧ rdSecret l m' sec = v ∧ BF s [(sec, secretSize l)] m m'

theorem randomChainAM_f {s n E0 cE cP : ℕ} (h : WalkArgs l s n E0 cE cP) {t : Tape Draw} (ht : TapeLen l t) (m : Mem) {E' : Crv l.F}
    (hE : VC l (rdC (nw l) m E0) E') :
    FRes l (fun c m' => VL (VC l) (rdCs l m' (n + 1) cE) c.E ∧ VL (VP l) (rdPs l m' n cP) c.P ∧
      BF s [(8 * cE, 8 * ((n + 1) * (4 * nw l))), (8 * cP, 8 * (n * (4 * nw l)))] m m')
      (Curve.randomChainA l.env n E' (fieldTape l t)) (randomChainAM l n E0 cE cP s t m) :=
  (FRes.of (randomChainAM_spec h t m) (WCurve.randomChainA_ref n hE t ht)).mono fun c m' ⟨a, h1, h2, h3, h4⟩ => by
    rw [← h2, ← h3]
    exact ⟨h1.E, h1.P, h4⟩

theorem randomChainBM_f {s n E0 cE cP : ℕ} (h : WalkArgs l s n E0 cE cP) {t : Tape Draw} (ht : TapeLen l t) (m : Mem) {E' : Crv l.F}
    (hE : VC l (rdC (nw l) m E0) E') :
    FRes l (fun c m' => VL (VC l) (rdCs l m' (n + 1) cE) c.E ∧ VL (VP l) (rdPs l m' n cP) c.P ∧
      BF s [(8 * cE, 8 * ((n + 1) * (4 * nw l))), (8 * cP, 8 * (n * (4 * nw l)))] m m')
      (Curve.randomChainB l.env n E' (fieldTape l t)) (randomChainBM l n E0 cE cP s t m) :=
  (FRes.of (randomChainBM_spec h t m) (WCurve.randomChainB_ref n hE t ht)).mono fun c m' ⟨a, h1, h2, h3, h4⟩ => by
    rw [← h2, ← h3]
    exact ⟨h1.E, h1.P, h4⟩

/-- `Generate` on memory -/
theorem generateM_f (pmem : Protocol.Mem l) {E0 sec s : ℕ} (h0 : E0 + sz l ≤ 8 * s) (hs : sec + secretSize l ≤ 8 * s) {t : Tape Draw}
    (ht : TapeLen l t) (m : Mem) :
    FRes l (GenRes l s sec m) (Protocol.generate l pmem (rdPF l m E0) (fieldTape l t)) (generateM l E0 sec s t m) := by
  have l0 : loc (nw l) s 0 = s := by rw [loc_eq]; omega
  have hz : secretSize l = ((params l).width + 1) * sz l + (params l).width * sz l := rfl
  simp only [Protocol.generate, generateM]
  generalize hn : (params l).width = n at hz ⊢
  generalize hcE : loc (nw l) s 0 + 4 * nw l = cE
  generalize hcP : cE + (n + 1) * (4 * nw l) = cP
  generalize hS : cP + n * (4 * nw l) = S
  have hL : Layout (nw l) S (argU l (loc (nw l) s 0)) := by
    constructor <;> (simp [argU]; try omega)
  refine (unpackCurveM_f pmem hL (a := E0) (Str.below h0 (by omega) (by simp [argU]; omega)) ht m).bind fun o q t ht h => ?_
  obtain ⟨b, m1⟩ := q
  obtain ⟨rfl, hE, b1⟩ := h
  dsimp only at hE b1 ⊢
  by_cases hb : o = false
  · subst hb
    exact ⟨ht, rfl, rfl, b1.mono (by omega) (by simp; omega)⟩
  rw [if_neg hb, if_neg hb]
  refine (randomChainAM_f (l := l) (s := S) (n := n) (cE := cE) (cP := cP) ⟨by omega, by omega, by omega, by omega, by omega⟩ ht m1 hE).bind
    fun c m2 t ht h => ?_
  obtain ⟨g1, g2, b2⟩ := h
  obtain ⟨a3, b3⟩ := encLoopM_spec (l := l) (s := S) (n + 1) cE sec m2 (by omega) (by omega) (by omega)
  rw [rdCs_points m2 (fun a b => WProtocol.encode l (WCurve.div l a b)), encode_curves g1] at a3
  generalize encLoopM l S (n + 1) cE sec m2 = m3 at a3 b3 ⊢
  obtain ⟨a4, b4⟩ := encLoopM_spec (l := l) (s := S) n cP (sec + (n + 1) * sz l) m3 (by omega) (by omega) (by omega)
  rw [b3.rdPs (by omega) (by simp; omega), encode_points g2] at a4
  generalize encLoopM l S n cP (sec + (n + 1) * sz l) m3 = m4 at a4 b4 ⊢
  refine ⟨ht, rfl, rfl, ?_, ?_⟩
  · rw [rdSecret, hn, a4, b4.pfs (by omega) (by simp), a3]
  · rw [hz]
    exact (((b1.trans b2).trans b3).trans b4).mono (by omega) (by simp; omega)

end Secuer.CMem
