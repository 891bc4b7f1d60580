import Verif.CMem.Grid

/-!
# `Instance` on memory

`struct instance` (`poik.c:28-35`) at word address `v`: the two strings, then the curves and the chains.  With `HIDE_BYTES` divisible by eight
there is no padding.  The two strings of `randombytes_strict` are given by the tape.
-/

set_option maxRecDepth 100000

namespace Secuer.CMem

open Secuer.Word Secuer.Field
open Secuer.Text (PFp2)
open Secuer.Protocol (params Secret Hash Comm roCommit flat)
open Secuer.Curve (Pt Crv Out Tape M Chain)
open Secuer.WCurve (Draw V VC VP VL VCh TapeLen fieldTape)
open Secuer.WProtocol (RCP)

attribute [local instance] Arith.portable

variable {l : Level}

/-! ## The programs -/

/-- `unpack_curve` (`poik.c:948`) with `check` false -/
def unpackCurve0M (l : Level) (a E sp : ℕ) (m : Mem) : Mem := (portable l).runs sp [.one (E + 2 * nw l)] (fp2decodeM (tables l) a E sp m)

/-- The first loop of `Instance` (`poik.c:1105-1106`), `n` iterations left -/
def unpackCurvesM (l : Level) (sp : ℕ) : (n a E : ℕ) → Mem → Mem
  | 0, _, _, m => m
  | n + 1, a, E, m => unpackCurvesM l sp n (a + sz l) (E + 4 * nw l) (unpackCurve0M l a E sp m)

/-- The second loop of `Instance` (`poik.c:1107-1108`), `n` iterations left -/
def unpackPointsM (l : Level) (sp : ℕ) : (n x P : ℕ) → Mem → Mem
  | 0, _, _, m => m
  | n + 1, x, P, m => unpackPointsM l sp n (x + sz l) (P + 4 * nw l) (unpackPointM l x P sp m)

/-- The last call of `Isogeny_A` in `Instance` (`poik.c:1134`), the result at `EE` -/
def lastAM (l : Level) (E K EE sp : ℕ) (t : Tape Draw) (m : Mem) : Out (Mem × Tape Draw) :=
  match isogenyAM l E K (some EE) none none sp m with
  | none => .ub
  | some (false, _) => .ub
  | some (true, m) => .ok (m, t)

/-- The last call of `Isogeny_B` in `Instance` (`poik.c:1135`) -/
def lastBM (l : Level) (E K EE sp : ℕ) (t : Tape Draw) (m : Mem) : Out (Mem × Tape Draw) :=
  bindT (isogenyBM l E K (some EE) none none sp t m) fun q t => if q.1 = false then .ub else .ok (q.2, t)

/-- `randombytes_strict(r, HIDE_BYTES)` (`poik.c:1148-1149`) -/
def hideM (l : Level) (r : ℕ) (t : Tape Draw) (m : Mem) : Out (Mem × Tape Draw) :=
  match t.hide with
  | [] => .starved
  | b :: bs => if b.length = (params l).hide then .ok (wrBytes r b m, { t with hide := bs }) else .starved

/-- The number of words of a `chain_A` or `chain_B` (`poik.c:18-26`) of length `n` -/
def chainW (l : Level) (n : ℕ) : ℕ := (n + 1) * (4 * nw l) + n * (4 * nw l)

/-- `v->r3` -/
def atR3 (l : Level) (v : ℕ) : ℕ := 8 * v + (params l).hide
/-- `v->E2` -/
def atE2 (l : Level) (v : ℕ) : ℕ := v + (2 * (params l).hide + 7) / 8
/-- `v->E3` -/
def atE3 (l : Level) (v : ℕ) : ℕ := atE2 l v + 4 * nw l
/-- `v->left` -/
def atL (l : Level) (v : ℕ) : ℕ := atE3 l v + 4 * nw l
/-- `v->bottom` -/
def atB (l : Level) (v : ℕ) : ℕ := atL l v + chainW l (params l).height
/-- `v->right` -/
def atR (l : Level) (v : ℕ) : ℕ := atB l v + chainW l (params l).width
/-- The number of words of a `struct instance` -/
def instW (l : Level) : ℕ :=
  (2 * (params l).hide + 7) / 8 + 4 * nw l + 4 * nw l + chainW l (params l).height + chainW l (params l).width + chainW l (params l).height

/-- `Instance` (`poik.c:1102-1152`) with `assert` compiled out, on the `struct secret` at byte address `sec`, the `struct instance` at word
address `v` and the `struct commitment1` at byte address `c`; locals: `bottom`, `left`, `right`, `j2`, `j3` -/
def instanceMM (l : Level) (H : Hash) (sec v c sp : ℕ) (t : Tape Draw) (m : Mem) : Out (Mem × Tape Draw) :=
  let w := (params l).width
  let h := (params l).height
  let k := 4 * nw l
  let bE := sp
  let bP := bE + (w + 1) * k
  let lE := bP + w * k
  let lP := lE + (h + 1) * k
  let rE := lP + h * k
  let rP := rE + (h + 1) * k
  let g := rP + h * k
  let j2 := 8 * loc (nw l) g 0
  let j3 := 8 * loc (nw l) g 1
  let sp := loc (nw l) g 2
  let m := unpackCurvesM l sp (w + 1) sec bE m
  let m := unpackPointsM l sp w (sec + (w + 1) * sz l) bP m
  bindT (randomChainBM l h bE lE lP sp t m) fun m t =>
  bindT (gridLoopM l sp w bE bP h lE lP rE rP t m) fun m t =>
  bindT (lastAM l (bE + (w - 1) * k) (bP + (w - 1) * k) (bE + w * k) sp t m) fun m t =>
  bindT (lastBM l (rE + (h - 1) * k) (rP + (h - 1) * k) (rE + h * k) sp t m) fun m t =>
  let m := copyPtM (nw l) (lE + h * k) (atE2 l v) m
  let m := copyPtM (nw l) (rE + h * k) (atE3 l v) m
  let m := copyMem (chainW l h) lE (atL l v) m
  let m := copyMem (chainW l w) bE (atB l v) m
  let m := copyMem (chainW l h) rE (atR l v) m
  let m := encJM l (atE2 l v) j2 sp m
  let m := encJM l (atE3 l v) j3 sp m
  bindT (hideM l (8 * v) t m) fun m t =>
  bindT (hideM l (atR3 l v) t m) fun m t =>
  let m := hashHidingM l H (8 * v) j2 c sp m
  let m := hashHidingM l H (atR3 l v) j3 (c + (params l).hash) sp m
  .ok (m, t)

/-! ## The strings of the secret -/

theorem unpackCurve0M_bf {a E s : ℕ} (m : Mem) (hE : E + 4 * nw l ≤ s) (ha : 8 * (E + 4 * nw l) ≤ a ∨ a + sz l ≤ 8 * E) :
    rdC (nw l) (unpackCurve0M l a E s m) E = ⟨dec l (rdBytes m a (sz l)), fp2one (tables l)⟩ ∧ BF s [(8 * E, 32 * nw l)] m (unpackCurve0M l a E s m) := by
  have hL : Layout (nw l) s [E, E + 2 * nw l] := ⟨by simp; omega, by simp⟩
  have e := fp2decodeM_effect (l := l) (x := a) (d := E) (s := s) m (by omega) (by omega)
  have a1 := (At.start (k := 0) m).call hL [(0, dec l (rdBytes m a (sz l)))] (by simp) rfl e
  have a2 := a1.sim (Sim.ops (portable l) hL [.one 1] rfl)
  have e2 : Effect (nw l) s m _ (crvVars (nw l) E ⟨dec l (rdBytes m a (sz l)), fp2one (tables l)⟩) :=
    a2.holds.effect a2.frame [(0, dec l (rdBytes m a (sz l))), (1, fp2one (tables l))] [] rfl rfl (by simp; exact ⟨rfl, rfl⟩) (by simp)
  change Effect (nw l) s m (unpackCurve0M l a E s m) _ at e2
  exact ⟨crv_rd e2, crv_bf e2⟩

theorem unpackCurvesM_f {s : ℕ} : ∀ (n a E : ℕ) (m : Mem), E + n * (4 * nw l) ≤ s → a + n * sz l ≤ 8 * s →
    (8 * (E + n * (4 * nw l)) ≤ a ∨ a + n * sz l ≤ 8 * E) →
    VL (VC l) (rdCs l (unpackCurvesM l s n a E m) n E) ((rdPFs l m a n).map fun x => (⟨Protocol.decode l x, 1⟩ : Crv l.F)) ∧
      BF s [(8 * E, 8 * (n * (4 * nw l)))] m (unpackCurvesM l s n a E m)
  | 0, a, E, m, _, _, _ => ⟨.nil, (BF.refl _ _).mono (le_refl _) (by simp)⟩
  | n + 1, a, E, m, h1, h0, h2 => by
    rw [Nat.succ_mul n (sz l)] at h0 h2
    simp only [Nat.succ_mul n (4 * nw l)] at h1 h2 ⊢
    obtain ⟨c1, d1⟩ := unpackCurve0M_bf (l := l) (a := a) (E := E) (s := s) m (by omega) (by omega)
    rw [unpackCurvesM]
    generalize unpackCurve0M l a E s m = m1 at c1 d1 ⊢
    obtain ⟨c2, d2⟩ := unpackCurvesM_f (s := s) n (a + sz l) (E + 4 * nw l) m1 (by omega) (by omega) (by omega)
    rw [d1.pfs (by omega) (by simp; omega)] at c2
    generalize unpackCurvesM l s n (a + sz l) (E + 4 * nw l) m1 = m2 at c2 d2 ⊢
    refine ⟨?_, (d1.trans d2).mono (le_refl _) (by simp; omega)⟩
    rw [rdPFs_succ, rdCs, d2.rdC (by omega) (by simp; omega), c1]
    exact .cons ⟨(rdPF_v m a).n, WCurve.one_v⟩ c2

theorem unpackPointM_bf {x P s : ℕ} (m : Mem) (hP : P + 4 * nw l ≤ s) (hx : 8 * (P + 4 * nw l) ≤ x ∨ x + sz l ≤ 8 * P) :
    rdP (nw l) (unpackPointM l x P s m) P = ⟨dec l (rdBytes m x (sz l)), fp2one (tables l)⟩ ∧ BF s [(8 * P, 32 * nw l)] m (unpackPointM l x P s m) := by
  obtain ⟨h1, h2⟩ := unpackCurve0M_bf (l := l) m hP hx
  refine ⟨?_, h2⟩
  have e1 := congrArg Crv.A h1
  have e2 := congrArg Crv.C h1
  exact congr (congrArg Pt.mk e1) e2

theorem unpackPointsM_f {s : ℕ} : ∀ (n x P : ℕ) (m : Mem), P + n * (4 * nw l) ≤ s → x + n * sz l ≤ 8 * s →
    (8 * (P + n * (4 * nw l)) ≤ x ∨ x + n * sz l ≤ 8 * P) →
    VL (VP l) (rdPs l (unpackPointsM l s n x P m) n P) ((rdPFs l m x n).map fun x => Curve.unpackPoint (Protocol.decode l x)) ∧
      BF s [(8 * P, 8 * (n * (4 * nw l)))] m (unpackPointsM l s n x P m)
  | 0, x, P, m, _, _, _ => ⟨.nil, (BF.refl _ _).mono (le_refl _) (by simp)⟩
  | n + 1, x, P, m, h1, h0, h2 => by
    rw [Nat.succ_mul n (sz l)] at h0 h2
    simp only [Nat.succ_mul n (4 * nw l)] at h1 h2 ⊢
    obtain ⟨c1, d1⟩ := unpackPointM_bf (l := l) (x := x) (P := P) (s := s) m (by omega) (by omega)
    rw [unpackPointsM]
    generalize unpackPointM l x P s m = m1 at c1 d1 ⊢
    obtain ⟨c2, d2⟩ := unpackPointsM_f (s := s) n (x + sz l) (P + 4 * nw l) m1 (by omega) (by omega) (by omega)
    rw [d1.pfs (by omega) (by simp; omega)] at c2
    generalize unpackPointsM l s n (x + sz l) (P + 4 * nw l) m1 = m2 at c2 d2 ⊢
    refine ⟨?_, (d1.trans d2).mono (le_refl _) (by simp; omega)⟩
    rw [rdPFs_succ, rdPs, d2.rdP (by omega) (by simp), c1]
    exact .cons (WCurve.unpackPoint_ref (rdPF_v m x)) c2

/-! ## Lists of curves and points -/

theorem zip_last (m : Mem) : ∀ n E P, (rdCs l m (n + 1) E).zip (rdPs l m n P) = rdCPs l m n E P
  | 0, _, _ => rfl
  | n + 1, E, P => congrArg ((rdC (nw l) m E, rdP (nw l) m P) :: ·) (zip_last m n (E + 4 * nw l) (P + 4 * nw l))

theorem rdCs_last (m : Mem) (n E : ℕ) : rdCs l m (n + 1) E = rdCs l m n E ++ [rdC (nw l) m (E + n * (4 * nw l))] := by
  rw [rdCs_eq, rdCs_eq, List.range_succ, List.map_append]
  rfl

theorem rdCs_length (m : Mem) : ∀ n E, (rdCs l m n E).length = n
  | 0, _ => rfl
  | n + 1, E => congrArg Nat.succ (rdCs_length m n (E + 4 * nw l))

theorem rdPs_length (m : Mem) : ∀ n E, (rdPs l m n E).length = n
  | 0, _ => rfl
  | n + 1, E => congrArg Nat.succ (rdPs_length m n (E + 4 * nw l))

theorem rdCPs_fst (m : Mem) (n E P : ℕ) : (rdCPs l m n E P).map Prod.fst = rdCs l m n E :=
  List.map_fst_zip (by rw [rdCs_length, rdPs_length])

theorem rdCPs_snd (m : Mem) (n E P : ℕ) : (rdCPs l m n E P).map Prod.snd = rdPs l m n P :=
  List.map_snd_zip (by rw [rdCs_length, rdPs_length])

theorem rdCPs_last (m : Mem) : ∀ n E P, (rdCPs l m (n + 1) E P).getLast? = some (rdC (nw l) m (E + n * (4 * nw l)), rdP (nw l) m (P + n * (4 * nw l)))
  | 0, E, P => by rw [Nat.zero_mul, Nat.add_zero, Nat.add_zero]; rfl
  | n + 1, E, P => by
    have e : rdCPs l m (n + 1 + 1) E P = (rdC (nw l) m E, rdP (nw l) m P) :: (rdC (nw l) m (E + 4 * nw l), rdP (nw l) m (P + 4 * nw l)) ::
      rdCPs l m n (E + 4 * nw l + 4 * nw l) (P + 4 * nw l + 4 * nw l) := rfl
    have ih := rdCPs_last m n (E + 4 * nw l) (P + 4 * nw l)
    rw [e, List.getLast?_cons_cons, Nat.succ_mul n (4 * nw l)]
    rw [show E + (n * (4 * nw l) + 4 * nw l) = E + 4 * nw l + n * (4 * nw l) by omega,
      show P + (n * (4 * nw l) + 4 * nw l) = P + 4 * nw l + n * (4 * nw l) by omega, ← ih]
    rfl

/-! ## The last isogenies -/

theorem lastAM_f {s n bE bP : ℕ} (h1 : bE + (n + 1 + 1) * (4 * nw l) ≤ s) (h2 : bP + (n + 1) * (4 * nw l) ≤ s)
    (h3 : bE + (n + 1 + 1) * (4 * nw l) ≤ bP ∨ bP + (n + 1) * (4 * nw l) ≤ bE) {t : Tape Draw} (ht : TapeLen l t) (m : Mem) {b : List (Crv l.F × Pt l.F)}
    (hb : VL (RCP l) (rdCPs l m (n + 1) bE bP) b) :
    FRes l (fun E m' => VC l (rdC (nw l) m' (bE + (n + 1) * (4 * nw l))) E ∧ BF s [(8 * (bE + (n + 1) * (4 * nw l)), 32 * nw l)] m m')
      (Protocol.lastA l b (fieldTape l t)) (lastAM l (bE + n * (4 * nw l)) (bP + n * (4 * nw l)) (bE + (n + 1) * (4 * nw l)) s t m) := by
  have k1 := Nat.succ_mul n (4 * nw l)
  have k2 := Nat.succ_mul (n + 1) (4 * nw l)
  rw [Nat.succ_eq_add_one] at k1 k2
  have args : IsoArgs (nw l) s (bE + n * (4 * nw l)) (bP + n * (4 * nw l)) (some (bE + (n + 1) * (4 * nw l))) none none :=
    ⟨⟨by simp; omega, by simp; omega⟩, ⟨by simp; omega, by simp⟩⟩
  have r := isogenyAM_spec args m
  have q : ResT (fun E m' => rdC (nw l) m' (bE + (n + 1) * (4 * nw l)) = E ∧ BF s [(8 * (bE + (n + 1) * (4 * nw l)), 32 * nw l)] m m')
      (WProtocol.lastA l (rdCPs l m (n + 1) bE bP) t)
      (lastAM l (bE + n * (4 * nw l)) (bP + n * (4 * nw l)) (bE + (n + 1) * (4 * nw l)) s t m) := by
    rw [WProtocol.lastA, rdCPs_last, lastAM]
    dsimp only
    change ResT _ (M.bind (M.lift (WCurve.isogenyA l (rdC (nw l) m (bE + n * (4 * nw l))) (rdP (nw l) m (bP + n * (4 * nw l))) none)) _ t) _
    simp only [M.bind, M.lift]
    change IsoRes _ _ _ _ _ _ (WCurve.isogenyA l (rdC (nw l) m (bE + n * (4 * nw l))) (rdP (nw l) m (bP + n * (4 * nw l))) none) _ at r
    generalize WCurve.isogenyA l (rdC (nw l) m (bE + n * (4 * nw l))) (rdP (nw l) m (bP + n * (4 * nw l))) none = o at r ⊢
    generalize isogenyAM l _ _ _ none none s m = o' at r ⊢
    rcases o with (_ | ⟨E', q, b⟩) | _ | _ | _ <;> rcases o' with _ | ⟨_ | _, m5⟩ <;> simp only [IsoRes] at r
    · trivial
    · have e : Effect (nw l) s m m5 (crvVars (nw l) (bE + (n + 1) * (4 * nw l)) E') := by
        have := r.2
        rcases q with _ | q
        · simpa [optVars] using this
        · exact absurd r.1 (by simp)
      exact ⟨rfl, crv_rd e, crv_bf e⟩
    · trivial
  refine (FRes.of q (WProtocol.lastA_ref hb t ht)).mono ?_
  rintro E m' ⟨a, g1, g2, g3⟩
  rw [g2]
  exact ⟨g1, g3⟩

theorem lastBM_f {s n bE bP : ℕ} (h1 : bE + (n + 1 + 1) * (4 * nw l) ≤ s) (h2 : bP + (n + 1) * (4 * nw l) ≤ s)
    (h3 : bE + (n + 1 + 1) * (4 * nw l) ≤ bP ∨ bP + (n + 1) * (4 * nw l) ≤ bE) {t : Tape Draw} (ht : TapeLen l t) (m : Mem) {b : List (Crv l.F × Pt l.F)}
    (hb : VL (RCP l) (rdCPs l m (n + 1) bE bP) b) :
    FRes l (fun E m' => VC l (rdC (nw l) m' (bE + (n + 1) * (4 * nw l))) E ∧ BF s [(8 * (bE + (n + 1) * (4 * nw l)), 32 * nw l)] m m')
      (Protocol.lastB l b (fieldTape l t)) (lastBM l (bE + n * (4 * nw l)) (bP + n * (4 * nw l)) (bE + (n + 1) * (4 * nw l)) s t m) := by
  have k1 := Nat.succ_mul n (4 * nw l)
  have k2 := Nat.succ_mul (n + 1) (4 * nw l)
  rw [Nat.succ_eq_add_one] at k1 k2
  have args : IsoArgsB (nw l) s (bE + n * (4 * nw l)) (bP + n * (4 * nw l)) (some (bE + (n + 1) * (4 * nw l))) none none :=
    ⟨⟨by simp; omega, by simp; omega⟩, ⟨by simp; omega, by simp⟩⟩
  have r := isogenyBM_spec args t m
  have q : ResT (fun E m' => rdC (nw l) m' (bE + (n + 1) * (4 * nw l)) = E ∧ BF s [(8 * (bE + (n + 1) * (4 * nw l)), 32 * nw l)] m m')
      (WProtocol.lastB l (rdCPs l m (n + 1) bE bP) t)
      (lastBM l (bE + n * (4 * nw l)) (bP + n * (4 * nw l)) (bE + (n + 1) * (4 * nw l)) s t m) := by
    rw [WProtocol.lastB, rdCPs_last, lastBM]
    dsimp only
    change ResT _ (M.bind (WCurve.isogenyB l false (rdC (nw l) m (bE + n * (4 * nw l))) (rdP (nw l) m (bP + n * (4 * nw l))) none) _ t) _
    refine ResT.bind r fun r g t hr => ?_
    obtain ⟨bb, m6⟩ := g
    rcases r with _ | ⟨E'', q', b'⟩ <;> rcases bb with _ | _ <;> simp only [IsoResB] at hr
    · trivial
    obtain ⟨r1, r2, rB⟩ := hr
    rcases q' with _ | q'
    swap
    · exact absurd r1 (by simp)
    rcases b' with _ | b'
    swap
    · exact absurd r2 (by simp)
    have e : Effect (nw l) s m m6 (crvVars (nw l) (bE + (n + 1) * (4 * nw l)) E'') := by simpa [optVars] using rB
    exact ⟨rfl, crv_rd e, crv_bf e⟩
  refine (FRes.of q (WProtocol.lastB_ref hb t ht)).mono ?_
  rintro E m' ⟨a, g1, g2, g3⟩
  rw [g2]
  exact ⟨g1, g3⟩

/-! ## Copies of structs, random strings -/

theorem rdCs_shift {m m' : Mem} : ∀ {n a b : ℕ}, (∀ i < n * (4 * nw l), m' (b + i) = m (a + i)) → rdCs l m' n b = rdCs l m n a ∧ rdPs l m' n b = rdPs l m n a
  | 0, _, _, _ => ⟨rfl, rfl⟩
  | n + 1, a, b, h => by
    rw [Nat.succ_mul n (4 * nw l)] at h
    obtain ⟨i1, i2⟩ := rdCs_shift (m := m) (m' := m') (n := n) (a := a + 4 * nw l) (b := b + 4 * nw l) fun i hi => by
      rw [Nat.add_assoc, Nat.add_assoc]; exact h _ (by omega)
    have e : ∀ j ≤ 3 * nw l, rd m' (nw l) (b + j) = rd m (nw l) (a + j) := fun j hj => rd_shift fun i hi => by
      rw [Nat.add_assoc, Nat.add_assoc]; exact h _ (by omega)
    have f : ∀ j ≤ 2 * nw l, rdF (nw l) m' (b + j) = rdF (nw l) m (a + j) := fun j hj => by
      change F2.mk _ _ = F2.mk _ _
      rw [e j (by omega), Nat.add_assoc b, Nat.add_assoc a, e (j + nw l) (by omega)]
    have f0 := f 0 (by omega)
    have f2 := f (2 * nw l) (by omega)
    rw [Nat.add_zero, Nat.add_zero] at f0
    constructor
    · rw [rdCs, rdCs, i1]
      congr 1
      change Crv.mk _ _ = Crv.mk _ _
      rw [f0, f2]
    · rw [rdPs, rdPs, i2]
      congr 1
      change Pt.mk _ _ = Pt.mk _ _
      rw [f0, f2]

/-- The copy of a `chain_A` or `chain_B` -/
theorem copyChain_bf {s n A B : ℕ} (m : Mem) (h : A + chainW l n ≤ B ∨ B + chainW l n ≤ A) :
    rdCs l (copyMem (chainW l n) A B m) (n + 1) B = rdCs l m (n + 1) A ∧
      rdPs l (copyMem (chainW l n) A B m) n (B + (n + 1) * (4 * nw l)) = rdPs l m n (A + (n + 1) * (4 * nw l)) ∧
      BF s [(8 * B, 8 * chainW l n)] m (copyMem (chainW l n) A B m) := by
  have hc : chainW l n = (n + 1) * (4 * nw l) + n * (4 * nw l) := rfl
  have hok : Ok (chainW l n) A B := Or.inr h
  refine ⟨(rdCs_shift fun i hi => copyMem_at hok (by omega)).1, (rdCs_shift fun i hi => ?_).2, fun y hy hw => ?_⟩
  · rw [Nat.add_assoc, Nat.add_assoc]
    exact copyMem_at hok (by omega)
  · have := hw _ (List.mem_singleton.2 rfl)
    dsimp only at this
    exact byteAt_congr (copyMem_out hok (by omega))

theorem hideM_f {s r : ℕ} {t : Tape Draw} (ht : TapeLen l t) (m : Mem) :
    FRes l (fun b m' => rdBytes m' r (params l).hide = b ∧ BF s [(r, (params l).hide)] m m') (Protocol.randomHide l (params l).hide (fieldTape l t))
      (hideM l r t m) := by
  rw [Protocol.randomHide, hideM, show (fieldTape l t).hide = t.hide from rfl]
  cases t.hide with
  | nil => trivial
  | cons b bs =>
    dsimp only
    by_cases h : b.length = (params l).hide
    · rw [if_pos h, if_pos h]
      obtain ⟨h1, h2⟩ := wrBytes_bf (s := s) (x := r) b m
      rw [h] at h1 h2
      exact ⟨ht, rfl, h1, h2⟩
    · rw [if_neg h, if_neg h]
      trivial

theorem gridLoopM_f {s w h bE bP lE lP rE rP : ℕ} (b1 : bE + w * (4 * nw l) ≤ s) (b2 : bP + w * (4 * nw l) ≤ s)
    (b3 : bE + w * (4 * nw l) ≤ bP ∨ bP + w * (4 * nw l) ≤ bE) {t : Tape Draw} (ht : TapeLen l t) (m : Mem)
    (h1 : lE + h * (4 * nw l) ≤ s) (h2 : lP + h * (4 * nw l) ≤ s) (h3 : rE + h * (4 * nw l) ≤ s) (h4 : rP + h * (4 * nw l) ≤ s)
    (h5 : ∀ a ∈ [lE, lP, rE, rP], ∀ b ∈ [bE, bP], a + h * (4 * nw l) ≤ b ∨ b + w * (4 * nw l) ≤ a)
    (h6 : ∀ a ∈ [lE, lP], ∀ b ∈ [rE, rP], a + h * (4 * nw l) ≤ b ∨ b + h * (4 * nw l) ≤ a)
    (h7 : rE + h * (4 * nw l) ≤ rP ∨ rP + h * (4 * nw l) ≤ rE) {rows bottom : List (Crv l.F × Pt l.F)}
    (hr : VL (RCP l) (rdCPs l m h lE lP) rows) (hb : VL (RCP l) (rdCPs l m w bE bP) bottom) :
    FRes l (fun r m' => VL (RCP l) (rdCPs l m' w bE bP) r.1 ∧ VL (RCP l) (rdCPs l m' h rE rP) r.2 ∧
        BF s [(8 * bE, 8 * (w * (4 * nw l))), (8 * bP, 8 * (w * (4 * nw l))), (8 * rE, 8 * (h * (4 * nw l))), (8 * rP, 8 * (h * (4 * nw l)))] m m')
      (Protocol.gridLoop l rows bottom (fieldTape l t)) (gridLoopM l s w bE bP h lE lP rE rP t m) := by
  refine (FRes.of (R := fun a b => VL (RCP l) a.1 b.1 ∧ VL (RCP l) a.2 b.2) (gridLoopM_spec b1 b2 b3 h lE lP rE rP t m h1 h2 h3 h4 h5 h6 h7) (WProtocol.gridLoop_ref hr hb t ht)).mono ?_
  rintro r m' ⟨a, g1, g2, g3, g4⟩
  rw [← g2, ← g3]
  exact ⟨g1.1, g1.2, g4⟩

/-! ## `Instance` -/

/-- The `struct instance` at `v` and the `struct commitment1` at `c` hold the values `i` and `e`. -/
structure InstAt (l : Level) (m : Mem) (v c : ℕ) (i : Protocol.Inst l) (e : Comm) : Prop where
  r2 : rdBytes m (8 * v) (params l).hide = i.r2
  r3 : rdBytes m (atR3 l v) (params l).hide = i.r3
  E2 : VC l (rdC (nw l) m (atE2 l v)) i.E2
  E3 : VC l (rdC (nw l) m (atE3 l v)) i.E3
  leftE : VL (VC l) (rdCs l m ((params l).height + 1) (atL l v)) i.left.E
  leftP : VL (VP l) (rdPs l m (params l).height (atL l v + ((params l).height + 1) * (4 * nw l))) i.left.P
  bottomE : VL (VC l) (rdCs l m ((params l).width + 1) (atB l v)) i.bottom.E
  bottomP : VL (VP l) (rdPs l m (params l).width (atB l v + ((params l).width + 1) * (4 * nw l))) i.bottom.P
  rightE : VL (VC l) (rdCs l m ((params l).height + 1) (atR l v)) i.right.E
  rightP : VL (VP l) (rdPs l m (params l).height (atR l v + ((params l).height + 1) * (4 * nw l))) i.right.P
  h2 : rdBytes m c (params l).hash = e.h2
  h3 : rdBytes m (c + (params l).hash) (params l).hash = e.h3

/-- Where the arguments of `Instance` are -/
structure InstArgs (l : Level) (s sec v c : ℕ) : Prop where
  secret : sec + secretSize l ≤ 8 * s
  inst : v + instW l ≤ s
  comm : c + pairSize l ≤ 8 * s
  sep : c + pairSize l ≤ 8 * v ∨ 8 * (v + instW l) ≤ c

theorem sizes_pos : ∃ a b, (params l).width = a + 1 ∧ (params l).height = b + 1 := by
  cases l <;> exact ⟨_, _, rfl, rfl⟩

set_option maxHeartbeats 1600000 in
/-- `Instance` on memory -/
theorem instanceMM_f (H : Hash) (hH : ∀ n x, (H.out n x).length = n) {s sec v c : ℕ} (h : InstArgs l s sec v c) {t : Tape Draw} (ht : TapeLen l t)
    (m : Mem) :
    FRes l (fun r m' => InstAt l m' v c r.1 r.2 ∧ BF s [(8 * v, 8 * instW l), (c, pairSize l)] m m')
      (Protocol.instanceM l H (rdSecret l m sec) (fieldTape l t)) (instanceMM l H sec v c s t m) := by
  obtain ⟨h1, h2, h3, h4⟩ := h
  have hsz := sz_le (l := l)
  have hpos := sizes_pos (l := l)
  have hz : secretSize l = ((params l).width + 1) * sz l + (params l).width * sz l := rfl
  have hcw : chainW l (params l).width = ((params l).width + 1) * (4 * nw l) + (params l).width * (4 * nw l) := rfl
  have hch : chainW l (params l).height = ((params l).height + 1) * (4 * nw l) + (params l).height * (4 * nw l) := rfl
  have hI : instW l = (2 * (params l).hide + 7) / 8 + 4 * nw l + 4 * nw l + chainW l (params l).height + chainW l (params l).width +
    chainW l (params l).height := rfl
  have a3 : atR3 l v = 8 * v + (params l).hide := rfl
  have aE2 : atE2 l v = v + (2 * (params l).hide + 7) / 8 := rfl
  have aE3 : atE3 l v = atE2 l v + 4 * nw l := rfl
  have aL : atL l v = atE3 l v + 4 * nw l := rfl
  have aB : atB l v = atL l v + chainW l (params l).height := rfl
  have aR : atR l v = atB l v + chainW l (params l).width := rfl
  have hp : pairSize l = (params l).hash + (params l).hash := rfl
  simp only [Protocol.instanceM, instanceMM, rdSecret]
  generalize hww : (params l).width = w at *
  generalize hhh : (params l).height = hh at *
  obtain ⟨a, b, rfl, rfl⟩ := hpos
  have ka := Nat.succ_mul a (4 * nw l)
  have ka1 := Nat.succ_mul (a + 1) (4 * nw l)
  have kb := Nat.succ_mul b (4 * nw l)
  have kb1 := Nat.succ_mul (b + 1) (4 * nw l)
  rw [Nat.succ_eq_add_one] at ka ka1 kb kb1
  rw [Nat.add_sub_cancel, Nat.add_sub_cancel]
  generalize hbP : s + (a + 1 + 1) * (4 * nw l) = bP
  generalize hlE : bP + (a + 1) * (4 * nw l) = lE
  generalize hlP : lE + (b + 1 + 1) * (4 * nw l) = lP
  generalize hrE : lP + (b + 1) * (4 * nw l) = rE
  generalize hrP : rE + (b + 1 + 1) * (4 * nw l) = rP
  generalize hg : rP + (b + 1) * (4 * nw l) = g
  have l0 : loc (nw l) g 0 = g := by rw [loc_eq]; omega
  have l1 : loc (nw l) g 1 = g + 2 * nw l := by rw [loc_eq]; omega
  have l2 : loc (nw l) g 2 = g + 4 * nw l := by rw [loc_eq]; omega
  rw [l0, l1]
  generalize loc (nw l) g 2 = S at l2 ⊢
  -- the secret
  obtain ⟨c1, d1⟩ := unpackCurvesM_f (l := l) (s := S) (a + 1 + 1) sec s m (by omega) (by omega) (by omega)
  generalize unpackCurvesM l S (a + 1 + 1) sec s m = m1 at c1 d1 ⊢
  obtain ⟨c2, d2⟩ := unpackPointsM_f (l := l) (s := S) (a + 1) (sec + (a + 1 + 1) * sz l) bP m1 (by omega) (by omega) (by omega)
  rw [d1.pfs (by omega) (by simp; omega)] at c2
  generalize unpackPointsM l S (a + 1) (sec + (a + 1 + 1) * sz l) bP m1 = m2 at c2 d2 ⊢
  rw [← d2.rdCs (by omega) (by simp; omega)] at c1
  have hE0 : VC l (rdC (nw l) m2 s) ⟨Protocol.decode l (rdPF l m sec), 1⟩ := by
    rw [rdPFs_succ] at c1
    cases c1
    assumption
  have d12 := d1.trans d2
  have eE : ((rdPFs l m sec (a + 1 + 1)).map fun x => (⟨Protocol.decode l x, 1⟩ : Crv l.F)) = (⟨Protocol.decode l (rdPF l m sec), 1⟩ : Crv l.F) ::
      (rdPFs l m (sec + sz l) (a + 1)).map fun x => (⟨Protocol.decode l x, 1⟩ : Crv l.F) := by
    rw [rdPFs_succ]
    rfl
  rw [eE] at c1 ⊢
  generalize ((rdPFs l m (sec + sz l) (a + 1)).map fun x => (⟨Protocol.decode l x, 1⟩ : Crv l.F)) = Es at c1 ⊢
  generalize (rdPFs l m (sec + (a + 1 + 1) * sz l) (a + 1)).map (fun x => Curve.unpackPoint (Protocol.decode l x)) = Ps at c2 ⊢
  dsimp only
  -- the left side
  refine (randomChainBM_f (l := l) (s := S) (n := b + 1) (cE := lE) (cP := lP) ⟨by omega, by omega, by omega, by omega, by omega⟩ ht m2 hE0).bind
    fun left m3 t ht hl => ?_
  obtain ⟨c3, c3', d3⟩ := hl
  rw [← d3.rdCs (by omega) (by simp; omega)] at c1
  rw [← d3.rdPs (by omega) (by simp; omega)] at c2
  have z1 := WProtocol.zip_rel c3 c3'
  rw [zip_last] at z1
  have z2 := WProtocol.zip_rel c1 c2
  rw [zip_last] at z2
  -- the grid
  refine (gridLoopM_f (l := l) (s := S) (w := a + 1) (h := b + 1) (bE := s) (bP := bP) (lE := lE) (lP := lP) (rE := rE) (rP := rP) (by omega) (by omega)
    (by omega) ht m3 (by omega) (by omega) (by omega) (by omega) (by simp; omega) (by simp; omega) (by omega) z1 z2).bind fun r m4 t ht hr => ?_
  obtain ⟨bottom, right⟩ := r
  obtain ⟨c4, c5, d4⟩ := hr
  dsimp only at c4 c5 ⊢
  refine (lastAM_f (l := l) (s := S) (n := a) (bE := s) (bP := bP) (by omega) (by omega) (by omega) ht m4 c4).bind fun EA m5 t ht hA => ?_
  obtain ⟨c6, d5⟩ := hA
  rw [rdCPs, ← d5.rdCs (by omega) (by simp; omega), ← d5.rdPs (by omega) (by simp; omega)] at c5
  refine (lastBM_f (l := l) (s := S) (n := b) (bE := rE) (bP := rP) (by omega) (by omega) (by omega) ht m5 c5).bind fun EB m6 t ht hB => ?_
  obtain ⟨c7, d6⟩ := hB
  have u1 := WProtocol.map_rel (f := Prod.fst) (g := Prod.fst) (S := VC l) (fun _ _ h => h.1) c4
  have u2 := WProtocol.map_rel (f := Prod.snd) (g := Prod.snd) (S := VP l) (fun _ _ h => h.2) c4
  have u3 := WProtocol.map_rel (f := Prod.fst) (g := Prod.fst) (S := VC l) (fun _ _ h => h.1) c5
  have u4 := WProtocol.map_rel (f := Prod.snd) (g := Prod.snd) (S := VP l) (fun _ _ h => h.2) c5
  rw [rdCPs_fst] at u1 u3
  rw [rdCPs_snd] at u2 u4
  have d56 := d5.trans d6
  have d46 := (d4.trans d5).trans d6
  rw [← d56.rdCs (by omega) (by simp; omega)] at u1
  rw [← d56.rdPs (by omega) (by simp; omega)] at u2
  rw [← d6.rdCs (by omega) (by simp)] at u3
  rw [← d6.rdPs (by omega) (by simp; omega)] at u4
  rw [← d6.rdC (by omega) (by simp; omega)] at c6
  rw [← d46.rdCs (by omega) (by simp; omega)] at c3
  rw [← d46.rdPs (by omega) (by simp; omega)] at c3'
  have u1 := WProtocol.append_rel (.cons c6 .nil) u1
  rw [← rdCs_last] at u1
  have u3 := WProtocol.append_rel (.cons c7 .nil) u3
  rw [← rdCs_last] at u3
  have hlast := WProtocol.getLast_rel c3
  rw [rdCs_last, List.getLast?_append_of_ne_nil _ (by simp), List.getLast?_singleton] at hlast
  generalize left.E.getLast? = o at hlast ⊢
  cases hlast with
  | some cE2 =>
  rename_i E2
  dsimp only
  have dm6 := (((d12.trans d3).trans d46)).mono (s' := s) (W' := []) (by omega) (by simp; omega)
  -- the copies
  obtain ⟨e7, d7⟩ := copyPtM_bf (l := l) (s := S) (P := lE + (b + 1) * (4 * nw l)) (Q := atE2 l v) m6 (by omega)
  generalize copyPtM (nw l) (lE + (b + 1) * (4 * nw l)) (atE2 l v) m6 = m7 at e7 d7 ⊢
  obtain ⟨e8, d8⟩ := copyPtM_bf (l := l) (s := S) (P := rE + (b + 1) * (4 * nw l)) (Q := atE3 l v) m7 (by omega)
  generalize copyPtM (nw l) (rE + (b + 1) * (4 * nw l)) (atE3 l v) m7 = m8 at e8 d8 ⊢
  obtain ⟨e9, e9', d9⟩ := copyChain_bf (l := l) (s := S) (n := b + 1) (A := lE) (B := atL l v) m8 (by omega)
  generalize copyMem (chainW l (b + 1)) lE (atL l v) m8 = m9 at e9 e9' d9 ⊢
  obtain ⟨e10, e10', d10⟩ := copyChain_bf (l := l) (s := S) (n := a + 1) (A := s) (B := atB l v) m9 (by omega)
  generalize copyMem (chainW l (a + 1)) s (atB l v) m9 = m10 at e10 e10' d10 ⊢
  obtain ⟨e11, e11', d11⟩ := copyChain_bf (l := l) (s := S) (n := b + 1) (A := rE) (B := atR l v) m10 (by omega)
  generalize copyMem (chainW l (b + 1)) rE (atR l v) m10 = m11 at e11 e11' d11 ⊢
  have vE2 : VC l (rdC (nw l) m11 (atE2 l v)) E2 := by
    rw [(((d8.trans d9).trans d10).trans d11).rdC (by omega) (by simp; omega), e7]
    exact cE2
  have vE3 : VC l (rdC (nw l) m11 (atE3 l v)) EB := by
    rw [((d9.trans d10).trans d11).rdC (by omega) (by simp; omega), e8, d7.rdC (by omega) (by simp; omega)]
    exact c7
  rw [hlP, d8.rdPs (by omega) (by simp; omega), d7.rdPs (by omega) (by simp; omega)] at e9'
  rw [d8.rdCs (by omega) (by simp; omega), d7.rdCs (by omega) (by simp; omega)] at e9
  rw [hbP, d9.rdPs (by omega) (by simp; omega), d8.rdPs (by omega) (by simp; omega), d7.rdPs (by omega) (by simp; omega)] at e10'
  rw [d9.rdCs (by omega) (by simp; omega), d8.rdCs (by omega) (by simp; omega), d7.rdCs (by omega) (by simp; omega)] at e10
  rw [hrP, d10.rdPs (by omega) (by simp; omega), d9.rdPs (by omega) (by simp; omega), d8.rdPs (by omega) (by simp; omega),
    d7.rdPs (by omega) (by simp; omega)] at e11'
  rw [d10.rdCs (by omega) (by simp; omega), d9.rdCs (by omega) (by simp; omega), d8.rdCs (by omega) (by simp; omega),
    d7.rdCs (by omega) (by simp; omega)] at e11
  rw [← (d10.trans d11).rdCs (by omega) (by simp; omega)] at e9
  rw [← (d10.trans d11).rdPs (by omega) (by simp; omega)] at e9'
  rw [← d11.rdCs (by omega) (by simp; omega)] at e10
  rw [← d11.rdPs (by omega) (by simp; omega)] at e10'
  rw [← e9] at c3
  rw [← e9'] at c3'
  rw [← e10] at u1
  rw [← e10'] at u2
  rw [← e11] at u3
  rw [← e11'] at u4
  have d711 := ((((d7.trans d8).trans d9).trans d10).trans d11).mono (s' := s) (W' := [(8 * v, 8 * instW l)]) (by omega) (by simp; omega)
  -- the commitments
  obtain ⟨e12, d12'⟩ := encJM_f (l := l) (s := S) (E := atE2 l v) (j := 8 * g) m11 ⟨by simp; omega, by simp⟩ (by omega) vE2
  generalize encJM l (atE2 l v) (8 * g) S m11 = m12 at e12 d12' ⊢
  rw [← d12'.rdC (by omega) (by simp; omega)] at vE3
  obtain ⟨e13, d13⟩ := encJM_f (l := l) (s := S) (E := atE3 l v) (j := 8 * (g + 2 * nw l)) m12 ⟨by simp; omega, by simp⟩ (by omega) vE3
  generalize encJM l (atE3 l v) (8 * (g + 2 * nw l)) S m12 = m13 at e13 d13 ⊢
  refine (hideM_f (l := l) (s := S) (r := 8 * v) ht m13).bind fun r2 m14 t ht hr => ?_
  obtain ⟨e14, d14⟩ := hr
  refine (hideM_f (l := l) (s := S) (r := atR3 l v) ht m14).bind fun r3 m15 t ht hr => ?_
  obtain ⟨e15, d15⟩ := hr
  obtain ⟨e16, d16⟩ := hashHidingM_spec (l := l) H hH (r := 8 * v) (v := 8 * g) (h := c) (s := S) m15 (by omega) (by omega)
  generalize hashHidingM l H (8 * v) (8 * g) c S m15 = m16 at e16 d16 ⊢
  obtain ⟨e17, d17⟩ := hashHidingM_spec (l := l) H hH (r := atR3 l v) (v := 8 * (g + 2 * nw l)) (h := c + (params l).hash) (s := S) m16
    (by omega) (by omega)
  generalize hashHidingM l H (atR3 l v) (8 * (g + 2 * nw l)) (c + (params l).hash) S m16 = m17 at e17 d17 ⊢
  have d1617 := d16.trans d17
  have d1217 := (((d12'.trans d13).trans d14).trans d15).trans d1617
  have dall : BF s [(8 * v, 8 * instW l), (c, pairSize l)] m m17 :=
    ((dm6.trans d711).trans (d1217.mono (s' := s) (W' := [(8 * v, 8 * instW l), (c, pairSize l)]) (by omega) (by simp; omega))).mono (le_refl _)
      (by simp)
  refine ⟨ht, rfl, ?_, dall⟩
  have f2 : rdBytes m15 (8 * v) (params l).hide = r2 := by rw [d15.bytes (by omega) (by simp; omega), e14]
  have f3 : rdBytes m16 (atR3 l v) (params l).hide = r3 := by rw [d16.bytes (by omega) (by simp; omega), e15]
  have g2 : rdBytes m15 (8 * g) (sz l) = flat (Protocol.encJ l E2) := by
    rw [((d13.trans d14).trans d15).bytes (by omega) (by simp; omega), e12]
  have g3 : rdBytes m16 (8 * (g + 2 * nw l)) (sz l) = flat (Protocol.encJ l EB) := by
    rw [((d14.trans d15).trans d16).bytes (by omega) (by simp; omega), e13]
  rw [f2, g2] at e16
  rw [f3, g3] at e17
  have w1 := d1217.mono (s' := S) (W' := [(8 * v, 2 * (params l).hide), (c, pairSize l), (8 * g, 32 * nw l)]) (by omega) (by simp; omega)
  refine ⟨?_, ?_, ?_, ?_, ?_, ?_, ?_, ?_, ?_, ?_, ?_, ?_⟩
  · rw [d1617.bytes (by omega) (by simp; omega), f2]
  · rw [d17.bytes (by omega) (by simp; omega), f3]
  · rw [w1.rdC (by omega) (by simp; omega)]
    exact vE2
  · rw [((d13.trans d14).trans d15 |>.trans d1617).rdC (by omega) (by simp; omega)]
    exact vE3
  · rw [hhh, w1.rdCs (by omega) (by simp; omega)]
    exact c3
  · rw [hhh, w1.rdPs (by omega) (by simp; omega)]
    exact c3'
  · rw [hww, w1.rdCs (by omega) (by simp; omega)]
    exact u1
  · rw [hww, w1.rdPs (by omega) (by simp; omega)]
    exact u2
  · rw [hhh, w1.rdCs (by omega) (by simp; omega)]
    exact u3
  · rw [hhh, w1.rdPs (by omega) (by simp; omega)]
    exact u4
  · rw [d17.bytes (by omega) (by simp), e16]
    rfl
  · rw [e17]
    rfl

end Secuer.CMem
