import Verif.CMem.Walks

/-!
# Packing on memory

`fp2div_enc`, `pack_curve`, `pack_point`, `Pack_Chain_A` and `Pack_Chain_B` of `poik.c` with `assert` compiled out (`NDEBUG`), in the portable
build.  Strings are given by byte addresses.
-/

set_option maxRecDepth 100000

namespace Secuer.CMem

open Secuer.Word Secuer.Field
open Secuer.Text (PFp2)
open Secuer.Protocol (params flat)
open Secuer.Curve (Pt Crv Iso Out Tape M Chain)
open Secuer.WCurve (Draw)

attribute [local instance] Arith.portable

variable {l : Level}

/-! ## The programs -/

/-- `fp2div_enc` (`poik.c:123-128`); local: `x` -/
def fp2divEncM (l : Level) (X Z r sp : ℕ) (m : Mem) : Mem :=
  let v := loc (nw l) sp
  let m := divM (portable l) X Z (v 0) (v 1) m
  fp2encodeM (tables l) (v 0) r (v 1) m

/-- `pack_curve` (`poik.c:932-939`, `946`); local: `iso` -/
def packCurveM (l : Level) (E a sp : ℕ) (m : Mem) : Option Mem :=
  let v := loc (nw l) sp
  match canonicalModelM l E (v 0) (v 5) m with
  | none => none
  | some m => some (fp2encodeM (tables l) (v 0) a (v 5) m)

/-- `pack_point` (`poik.c:932-945`, `947`); locals: `iso`, `Q` -/
def packPointM (l : Level) (E P x sp : ℕ) (m : Mem) : Option Mem :=
  let v := loc (nw l) sp
  match canonicalModelM l E (v 0) (v 5) m with
  | none => none
  | some m =>
    let m := evalIsoM (portable l) (v 0) P (v 3) (v 5) m
    some (fp2divEncM l (v 3) (v 4) x (v 5) m)

/-- `random_mod_order_A(buf); buf[0] |= 1; decode_to_digits(…)` (`poik.c:956-958`, `sidh.c:26-35`); the tape holds the bytes as an integer -/
def scalarM (l : Level) (buf scalar r : ℕ) (m : Mem) : Mem :=
  let k := Scalar.keyBytes l.iso.e2
  let m := wrBytes buf (Scalar.leBytes k r) m
  let m := setByte m (buf + (k - 1)) (byteAt m (buf + (k - 1)) &&& Scalar.maskAlice l.iso.e2)
  let m := setByte m buf (byteAt m buf ||| 1)
  decodeToDigitsM buf scalar k (WCurve.nwordsOrder l) m

/-- `Pack_Chain_A` (`poik.c:951-999`) for a width of `n`; the curves at `E`, the points at `P`, the strings at `x`; locals: `scalar`, `buf`, `A`,
`Q` -/
def packChainAM (l : Level) (sp : ℕ) : (n E P x : ℕ) → Tape Draw → Mem → Out (Mem × Tape Draw)
  | 0, _, _, _, t, m => .ok (m, t)
  | n + 1, E, P, x, t, m =>
    let v := loc (nw l) sp
    match t.scal with
    | [] => .starved
    | r :: rs =>
      let m := scalarM l (8 * v 1) (v 0) r m
      let m := divM (portable l) E (E + 2 * nw l) (v 2) (v 5) m
      let m := ladderM (portable l) P (v 0) (v 2) l.iso.e2 (v 3) (v 5) m
      match packPointM l E (v 3) x (v 5) m with
      | none => .ub
      | some m => packChainAM l sp n (E + 4 * nw l) (P + 4 * nw l) (x + sz l) { t with scal := rs } m

/-- `Pack_Chain_B` (`poik.c:1001-1035`) for a height of `n` -/
def packChainBM (l : Level) (sp : ℕ) : (n E P x : ℕ) → Tape Draw → Mem → Out (Mem × Tape Draw)
  | 0, _, _, _, t, m => .ok (m, t)
  | n + 1, E, P, x, t, m =>
    match packPointM l E P x sp m with
    | none => .ub
    | some m => packChainBM l sp n (E + 4 * nw l) (P + 4 * nw l) (x + sz l) t m

/-! ## Strings -/

theorem rdPF_encode {m : Mem} {x : ℕ} {a : F2} (h : rdBytes m x (sz l) = fp2encode (tables l) a) : rdPF l m x = WProtocol.encode l a := by
  rw [WProtocol.encode, ← h, ← half_eq, rdPF, rdBytes_take, rdBytes_drop]

theorem rdPFs_succ (m : Mem) (x n : ℕ) : rdPFs l m x (n + 1) = rdPF l m x :: rdPFs l m (x + sz l) n := by
  rw [rdPFs, List.range_succ_eq_map, List.map_cons, List.map_map, Nat.zero_mul, Nat.add_zero, rdPFs]
  congr 1
  refine List.map_congr_left fun i _ => ?_
  rw [Function.comp_apply, Nat.succ_mul i (sz l), Nat.add_assoc, Nat.add_comm (sz l)]

/-- `fp2_encode` on memory, as a `packed_fp2` -/
theorem fp2encodeM_pf {x e s : ℕ} (m : Mem) (hx : x + 2 * nw l ≤ s) (he : e + sz l ≤ 8 * s) :
    rdPF l (fp2encodeM (tables l) x e s m) e = WProtocol.encode l (rdF (nw l) m x) ∧ BF s [(e, sz l)] m (fp2encodeM (tables l) x e s m) := by
  obtain ⟨h1, h2⟩ := fp2encodeM_spec (l := l) m hx he
  refine ⟨rdPF_encode h1, fun y hy hw => h2 y hy ?_⟩
  have := hw _ (List.mem_singleton.2 rfl)
  dsimp only at this
  omega

theorem fp2divEncM_spec {X Z r s : ℕ} (m : Mem) (hL : Layout (nw l) s [X, Z]) (hr : r + sz l ≤ 8 * s) :
    rdPF l (fp2divEncM l X Z r s m) r = WProtocol.encode l (WCurve.div l (rdF (nw l) m X) (rdF (nw l) m Z)) ∧
      BF s [(r, sz l)] m (fp2divEncM l X Z r s m) := by
  have e1 := divM_effect (portable l) m (N := X) (D := Z) (x := loc (nw l) s 0) (hL.call 1 [0, 1, 2] (by decide) rfl)
  have hv : rdF (nw l) _ (loc (nw l) s 0) = _ := e1.out _ (List.mem_singleton.2 rfl)
  have hb := e1.bf
  have l1 : loc (nw l) s 1 = s + 2 * nw l := by rw [loc_eq]; omega
  have l0 : loc (nw l) s 0 = s := by rw [loc_eq]; omega
  simp only [fp2divEncM]
  generalize divM (portable l) X Z (loc (nw l) s 0) (loc (nw l) s 1) m = m1 at hv hb ⊢
  obtain ⟨h1, h2⟩ := fp2encodeM_pf (l := l) (x := loc (nw l) s 0) (e := r) (s := loc (nw l) s 1) m1 (by omega) (by omega)
  rw [hv] at h1
  exact ⟨h1, (hb.trans h2).mono (by omega) (by simp; omega)⟩

/-! ## `pack_curve` and `pack_point` -/

theorem packCurveM_spec {E a s : ℕ} (m : Mem) (hL : Layout (nw l) s [E, E + 2 * nw l]) (ha : a + sz l ≤ 8 * s) :
    Res (WCurve.packCurve l (rdC (nw l) m E)) (packCurveM l E a s m) fun x m' => rdPF l m' a = WProtocol.encode l x ∧ BF s [(a, sz l)] m m' := by
  have r := canonicalModelM_effect (l := l) (E := E) (I := loc (nw l) s 0) m (hL.call 5 [0, 1, 2, 3, 4] (by decide) rfl)
  change Res _ (canonicalModelM l E (loc (nw l) s 0) (loc (nw l) s 5) m) _ at r
  have l5 : loc (nw l) s 5 = s + 10 * nw l := by rw [loc_eq]; omega
  have l0 : loc (nw l) s 0 = s := by rw [loc_eq]; omega
  simp only [packCurveM, WCurve.packCurve]
  generalize canonicalModelM l E (loc (nw l) s 0) (loc (nw l) s 5) m = o at r ⊢
  generalize WCurve.canonicalModel l (rdC (nw l) m E) = c at r ⊢
  rcases c with i | _ | _ | _ <;> rcases o with _ | m1 <;> simp only [Res] at r ⊢
  change Effect (nw l) (loc (nw l) s 5) m m1 (isoVars (nw l) (loc (nw l) s 0) i) at r
  have hv : rdF (nw l) m1 (loc (nw l) s 0) = i.B := r.out (loc (nw l) s 0, i.B) (by simp [isoVars])
  obtain ⟨h1, h2⟩ := fp2encodeM_pf (l := l) (x := loc (nw l) s 0) (e := a) (s := loc (nw l) s 5) m1 (by omega) (by omega)
  rw [hv] at h1
  exact ⟨h1, (r.bf.trans h2).mono (by omega) (by simp [isoVars]; omega)⟩

theorem packPointM_spec {E P x s : ℕ} (m : Mem) (hL : Layout (nw l) s [E, E + 2 * nw l, P, P + 2 * nw l]) (hx : x + sz l ≤ 8 * s) :
    Res (WCurve.packPoint l (rdC (nw l) m E) (rdP (nw l) m P)) (packPointM l E P x s m) fun y m' =>
      rdPF l m' x = WProtocol.encode l y ∧ BF s [(x, sz l)] m m' := by
  have r := canonicalModelM_effect (l := l) (E := E) (I := loc (nw l) s 0) m (hL.call 5 [0, 1, 4, 5, 6] (by decide) rfl)
  change Res _ (canonicalModelM l E (loc (nw l) s 0) (loc (nw l) s 5) m) _ at r
  have l5 : loc (nw l) s 5 = s + 10 * nw l := by rw [loc_eq]; omega
  have l4 : loc (nw l) s 4 = loc (nw l) s 3 + 2 * nw l := rfl
  have l3 : loc (nw l) s 3 = s + 6 * nw l := by rw [loc_eq]; omega
  have l0 : loc (nw l) s 0 = s := by rw [loc_eq]; omega
  have hb := hL.below
  simp at hb
  simp only [packPointM, WCurve.packPoint]
  generalize canonicalModelM l E (loc (nw l) s 0) (loc (nw l) s 5) m = o at r ⊢
  generalize WCurve.canonicalModel l (rdC (nw l) m E) = c at r ⊢
  rcases c with i | _ | _ | _ <;> rcases o with _ | m1 <;> simp only [Res] at r ⊢
  change Effect (nw l) (loc (nw l) s 5) m m1 (isoVars (nw l) (loc (nw l) s 0) i) at r
  have hi : rdI (nw l) m1 (loc (nw l) s 0) = i := by
    change Iso.mk _ _ _ = Iso.mk _ _ _
    exact congr (congr (congrArg Iso.mk (r.out (loc (nw l) s 0, i.B) (by simp [isoVars])))
      (r.out (loc (nw l) s 0 + 2 * nw l, i.r) (by simp [isoVars]))) (r.out (loc (nw l) s 0 + 2 * nw l + 2 * nw l, i.u2) (by simp [isoVars]))
  have hP : rdP (nw l) m1 P = rdP (nw l) m P := r.bf.rdP (by omega) (by simp [isoVars]; omega)
  have e2 := evalIsoM_effect (portable l) m1 (iso := loc (nw l) s 0) (P := P) (Q := loc (nw l) s 3) (s := loc (nw l) s 5)
    ⟨by simp; omega, by simp; omega⟩
  generalize evalIsoM (portable l) (loc (nw l) s 0) P (loc (nw l) s 3) (loc (nw l) s 5) m1 = m2 at e2 ⊢
  rw [hi, hP] at e2
  have q1 : rdF (nw l) m2 (loc (nw l) s 3) = (WCurve.evalIso l i (rdP (nw l) m P)).X := e2.out (loc (nw l) s 3, _) (by simp [ptVars])
  have q2 : rdF (nw l) m2 (loc (nw l) s 4) = (WCurve.evalIso l i (rdP (nw l) m P)).Z :=
    e2.out (loc (nw l) s 3 + 2 * nw l, _) (by simp [ptVars])
  obtain ⟨h1, h2⟩ := fp2divEncM_spec (l := l) (X := loc (nw l) s 3) (Z := loc (nw l) s 4) (r := x) (s := loc (nw l) s 5) m2
    ⟨by simp; omega, by simp; omega⟩ (by omega)
  rw [q1, q2] at h1
  exact ⟨h1, ((r.bf.trans e2.bf).trans h2).mono (by omega) (by simp [isoVars, ptVars]; omega)⟩

/-! ## `Pack_Chain_B` -/

/-- The chain and the strings: below `s`, the strings apart from the chain -/
structure PackArgs (l : Level) (s n E P x : ℕ) : Prop where
  curves : E + (n + 1) * (4 * nw l) ≤ s
  points : P + n * (4 * nw l) ≤ s
  strings : x + n * sz l ≤ 8 * s
  sepE : x + n * sz l ≤ 8 * E ∨ 8 * (E + (n + 1) * (4 * nw l)) ≤ x
  sepP : x + n * sz l ≤ 8 * P ∨ 8 * (P + n * (4 * nw l)) ≤ x
  sep : E + (n + 1) * (4 * nw l) ≤ P ∨ P + n * (4 * nw l) ≤ E

/-- What is left in memory -/
abbrev PackRes (l : Level) (s n x : ℕ) (m : Mem) (xs : List F2) (m' : Mem) : Prop :=
  rdPFs l m' x n = xs.map (WProtocol.encode l) ∧ BF s [(x, n * sz l)] m m'

theorem PackRes.cons {s n x : ℕ} {m m1 m2 : Mem} {y : F2} {ys : List F2} (h1 : rdPF l m1 x = WProtocol.encode l y) (b1 : BF s [(x, sz l)] m m1)
    (h2 : PackRes l s n (x + sz l) m1 ys m2) (hx : x + sz l ≤ 8 * s) : PackRes l s (n + 1) x m (y :: ys) m2 := by
  obtain ⟨g1, g2⟩ := h2
  refine ⟨?_, ?_⟩
  · rw [rdPFs_succ, List.map_cons, g1, ← h1]
    congr 1
    exact g2.pf hx (by simp)
  · rw [Nat.succ_mul n (sz l)]
    exact (b1.trans g2).mono (le_refl _) (by simp; omega)

theorem PackArgs.tail {s n E P x : ℕ} (h : PackArgs l s (n + 1) E P x) :
    PackArgs l s n (E + 4 * nw l) (P + 4 * nw l) (x + sz l) ∧ Layout (nw l) s [E, E + 2 * nw l, P, P + 2 * nw l] ∧ x + sz l ≤ 8 * s ∧
      (∀ {m m' : Mem}, BF s [(x, sz l)] m m' → rdCs l m' (n + 1) (E + 4 * nw l) = rdCs l m (n + 1) (E + 4 * nw l) ∧
        rdPs l m' n (P + 4 * nw l) = rdPs l m n (P + 4 * nw l)) := by
  have h1 := h.curves
  have h2 := h.points
  have h3 := h.strings
  have h4 := h.sepE
  have h5 := h.sepP
  have h6 := h.sep
  rw [Nat.succ_mul (n + 1) (4 * nw l)] at h1 h4 h6
  have e : (n + 1) * (4 * nw l) = n * (4 * nw l) + 4 * nw l := Nat.succ_mul _ _
  rw [Nat.succ_mul n (sz l)] at h3 h4 h5
  refine ⟨⟨by omega, by omega, by omega, by omega, by omega, by omega⟩, ⟨by simp; omega, by simp; omega⟩, by omega, fun b => ⟨?_, ?_⟩⟩
  · exact b.rdCs (by omega) (by simp; omega)
  · exact b.rdPs (by omega) (by simp; omega)

/-- A run followed by something that does not look at the tape -/
theorem ResT.map {α β γ : Type} {P : α → γ → Prop} {P' : β → γ → Prop} {f : M Draw α} {g : α → β} {t : Tape Draw} {r : Out (γ × Tape Draw)}
    (h : ResT P (f t) r) (hg : ∀ a m, P a m → P' (g a) m) : ResT P' (M.bind f (fun a => M.pure (g a)) t) r := by
  simp only [M.bind, M.pure]
  generalize f t = o at h ⊢
  rcases o with ⟨a, t1⟩ | _ | _ | _ <;> rcases r with ⟨m, t2⟩ | _ | _ | _ <;> simp only [ResT] at h ⊢
  exact ⟨h.1, hg _ _ h.2⟩

theorem packChainBM_spec {s : ℕ} : ∀ (n : ℕ) {E P x : ℕ} (t : Tape Draw) (m : Mem), PackArgs l s n E P x →
    ResT (PackRes l s n x m) (WCurve.packChainB l (rdCs l m (n + 1) E) (rdPs l m n P) t) (packChainBM l s n E P x t m)
  | 0, E, P, x, t, m, _ => ⟨rfl, rfl, (BF.refl _ _).mono (le_refl _) (by simp)⟩
  | n + 1, E, P, x, t, m, h => by
    obtain ⟨h1, h2, h3, h4⟩ := h.tail
    have r := packPointM_spec (l := l) (E := E) (P := P) (x := x) (s := s) m h2 h3
    have e1 : rdCs l m (n + 1 + 1) E = rdC (nw l) m E :: rdCs l m (n + 1) (E + 4 * nw l) := rfl
    have e2 : rdPs l m (n + 1) P = rdP (nw l) m P :: rdPs l m n (P + 4 * nw l) := rfl
    rw [e1, e2, WCurve.packChainB, packChainBM]
    change ResT _ (M.bind (M.lift (WCurve.packPoint l (rdC (nw l) m E) (rdP (nw l) m P))) _ t) _
    simp only [M.bind, M.lift]
    generalize WCurve.packPoint l (rdC (nw l) m E) (rdP (nw l) m P) = o at r ⊢
    generalize packPointM l E P x s m = o' at r ⊢
    rcases o with y | _ | _ | _ <;> rcases o' with _ | m1 <;> simp only [Res] at r ⊢
    · obtain ⟨r1, r2⟩ := r
      have ih := packChainBM_spec n t m1 h1
      rw [(h4 r2).1, (h4 r2).2] at ih
      exact ResT.map ih fun ys m2 hy => PackRes.cons r1 r2 hy h3
    · trivial

/-! ## `Pack_Chain_A` -/

theorem ladderLoop_some {P : Pt F2} {k : List Digit} {A : F2} : ∀ (i : ℕ) (prev : UInt) (R0 R1 : Pt F2), i ≤ 64 * k.length →
    ∃ r, WCurve.ladderLoop l P k A i prev R0 R1 = some r
  | 0, _, _, _, _ => ⟨_, rfl⟩
  | i + 1, prev, R0, R1, h => by
    rw [WCurve.ladderLoop, List.getElem?_eq_getElem (by omega : i / 64 < k.length)]
    exact ladderLoop_some i _ _ _ (by omega)

theorem rdBytes_setByte (m : Mem) (x i len : ℕ) (b : UInt8) : rdBytes (setByte m (x + i) b) x len = (rdBytes m x len).set i b := by
  apply List.ext_getElem?
  intro j
  rw [List.getElem?_set, rdBytes_getElem?, rdBytes_getElem?, rdBytes_length, byteAt_setByte]
  by_cases hj : j < len
  · rw [if_pos hj, if_pos hj]
    by_cases h : i = j
    · subst h
      rw [if_pos rfl, if_pos rfl, if_pos hj]
    · rw [if_neg (by omega), if_neg h]
  · rw [if_neg hj, if_neg hj]
    by_cases h : i = j
    · subst h
      rw [if_pos rfl, if_neg hj]
    · rw [if_neg h]

theorem maskLast_eq (k : UInt8) : ∀ bs : List UInt8, Scalar.maskLast k bs = bs.set (bs.length - 1) ((bs[bs.length - 1]?).getD 0 &&& k)
  | [] => rfl
  | [b] => rfl
  | b :: c :: bs => by
    rw [Scalar.maskLast, maskLast_eq k (c :: bs)]
    simp
    exact fun h => absurd h (by simp)

theorem setOdd_eq (bs : List UInt8) : Scalar.setOdd bs = bs.set 0 ((bs[0]?).getD 0 ||| 1) := by
  cases bs <;> rfl

theorem order_room : Scalar.keyBytes l.iso.e2 ≤ 8 * WCurve.nwordsOrder l ∧ WCurve.nwordsOrder l ≤ 2 * nw l ∧ 0 < WCurve.nwordsOrder l ∧
    0 < Scalar.keyBytes l.iso.e2 ∧ l.iso.e2 ≤ 64 * WCurve.nwordsOrder l := by
  cases l <;> decide

/-- The scalar that is drawn -/
theorem scalarM_spec {buf scalar r s : ℕ} (m : Mem)
    (h : 8 * (scalar + 2 * nw l) ≤ buf ∨ buf + 16 * nw l ≤ 8 * scalar) :
    rd (scalarM l buf scalar r m) (WCurve.nwordsOrder l) scalar = WCurve.scalarOf l (List.replicate (WCurve.nwordsOrder l) 0) r ∧
      BF s [(buf, 16 * nw l), (8 * scalar, 16 * nw l)] m (scalarM l buf scalar r m) := by
  obtain ⟨o1, o2, o3, o4, -⟩ := order_room (l := l)
  simp only [scalarM]
  obtain ⟨a1, b1⟩ := wrBytes_bf (s := s) (x := buf) (Scalar.leBytes (Scalar.keyBytes l.iso.e2) r) m
  rw [Scalar.leBytes_length] at a1 b1
  generalize wrBytes buf (Scalar.leBytes (Scalar.keyBytes l.iso.e2) r) m = m1 at a1 b1 ⊢
  have b2 := setByte_bf (s := s) (x := buf + (Scalar.keyBytes l.iso.e2 - 1)) (byteAt m1 (buf + (Scalar.keyBytes l.iso.e2 - 1)) &&& Scalar.maskAlice l.iso.e2) m1
  have a2 := rdBytes_setByte m1 buf (Scalar.keyBytes l.iso.e2 - 1) (Scalar.keyBytes l.iso.e2)
    (byteAt m1 (buf + (Scalar.keyBytes l.iso.e2 - 1)) &&& Scalar.maskAlice l.iso.e2)
  have c2 : Scalar.maskLast (Scalar.maskAlice l.iso.e2) (rdBytes m1 buf (Scalar.keyBytes l.iso.e2)) =
      (rdBytes m1 buf (Scalar.keyBytes l.iso.e2)).set (Scalar.keyBytes l.iso.e2 - 1)
        (byteAt m1 (buf + (Scalar.keyBytes l.iso.e2 - 1)) &&& Scalar.maskAlice l.iso.e2) := by
    rw [maskLast_eq, rdBytes_length, rdBytes_getElem?, if_pos (by omega), Option.getD_some]
  rw [← c2, a1] at a2
  generalize setByte m1 (buf + (Scalar.keyBytes l.iso.e2 - 1)) (byteAt m1 (buf + (Scalar.keyBytes l.iso.e2 - 1)) &&& Scalar.maskAlice l.iso.e2) = m2
    at a2 b2 ⊢
  have b3 := setByte_bf (s := s) (x := buf) (byteAt m2 buf ||| 1) m2
  have a3 := rdBytes_setByte m2 buf 0 (Scalar.keyBytes l.iso.e2) (byteAt m2 buf ||| 1)
  have c3 : Scalar.setOdd (rdBytes m2 buf (Scalar.keyBytes l.iso.e2)) = (rdBytes m2 buf (Scalar.keyBytes l.iso.e2)).set 0 (byteAt m2 buf ||| 1) := by
    rw [setOdd_eq, rdBytes_getElem?, if_pos (by omega), Option.getD_some, Nat.add_zero]
  rw [← c3, a2, Nat.add_zero] at a3
  generalize setByte m2 buf (byteAt m2 buf ||| 1) = m3 at a3 b3 ⊢
  have a4 := decodeToDigitsM_rd (x := buf) (dec := scalar) (nbytes := Scalar.keyBytes l.iso.e2) (n := WCurve.nwordsOrder l) m3 o3 o1 (by omega)
  refine ⟨?_, ?_⟩
  · rw [a4, a3]
    exact WProtocol.scalarOf_indep (l := l) (old := rd m3 (WCurve.nwordsOrder l) scalar) (by simp) (by simp) r
  · have b4 : BF s [(8 * scalar, 16 * nw l)] m3 (decodeToDigitsM buf scalar (Scalar.keyBytes l.iso.e2) (WCurve.nwordsOrder l) m3) := by
      intro y hy hw
      have := hw _ (List.mem_singleton.2 rfl)
      dsimp only at this
      exact byteAt_congr (decodeToDigitsM_out o3 o1 (by omega) (by omega))
    refine (((b1.trans b2).trans b3).trans b4).mono (le_refl _) ?_
    simp
    omega

theorem packChainAM_spec {s : ℕ} {old : List Digit} (ho : old.length = WCurve.nwordsOrder l) : ∀ (n : ℕ) {E P x : ℕ} (t : Tape Draw) (m : Mem),
    PackArgs l s n E P x →
    ResT (PackRes l s n x m) (WCurve.packChainA l old (rdCs l m (n + 1) E) (rdPs l m n P) t) (packChainAM l s n E P x t m)
  | 0, E, P, x, t, m, _ => ⟨rfl, rfl, (BF.refl _ _).mono (le_refl _) (by simp)⟩
  | n + 1, E, P, x, t, m, h => by
    obtain ⟨h1, h2, h3, h4⟩ := h.tail
    obtain ⟨o1, o2, o3, o4, o5⟩ := order_room (l := l)
    have l5 : loc (nw l) s 5 = s + 10 * nw l := by rw [loc_eq]; omega
    have l3 : loc (nw l) s 3 = s + 6 * nw l := by rw [loc_eq]; omega
    have l2 : loc (nw l) s 2 = s + 4 * nw l := by rw [loc_eq]; omega
    have l1 : loc (nw l) s 1 = s + 2 * nw l := by rw [loc_eq]; omega
    have l0 : loc (nw l) s 0 = s := by rw [loc_eq]; omega
    have hb := h2.below
    have hd := h2.disj
    simp at hb hd
    have e1 : rdCs l m (n + 1 + 1) E = rdC (nw l) m E :: rdCs l m (n + 1) (E + 4 * nw l) := rfl
    have e2 : rdPs l m (n + 1) P = rdP (nw l) m P :: rdPs l m n (P + 4 * nw l) := rfl
    rw [e1, e2, WCurve.packChainA, packChainAM]
    change ResT _ (M.bind (WCurve.randomScalar l old) _ t) _
    rcases ht : t.scal with _ | ⟨r, rs⟩
    · simp only [M.bind, WCurve.randomScalar, ht]
      trivial
    simp only [M.bind, WCurve.randomScalar, ht]
    -- the scalar
    obtain ⟨a1, b1⟩ := scalarM_spec (l := l) (buf := 8 * loc (nw l) s 1) (scalar := loc (nw l) s 0) (r := r) (s := loc (nw l) s 5) m
      (by omega)
    generalize scalarM l (8 * loc (nw l) s 1) (loc (nw l) s 0) r m = m1 at a1 b1 ⊢
    rw [WProtocol.scalarOf_indep (l := l) (by simp) ho] at a1
    -- the curve
    have hA := divM_effect (portable l) m1 (N := E) (D := E + 2 * nw l) (x := loc (nw l) s 2) (s := loc (nw l) s 5)
      ⟨by simp; omega, by simp; omega⟩
    have k1 : rdF (nw l) m1 E = rdF (nw l) m E := b1.rdF (by omega) (by simp; omega)
    have k2 : rdF (nw l) m1 (E + 2 * nw l) = rdF (nw l) m (E + 2 * nw l) := b1.rdF (by omega) (by simp; omega)
    rw [k1, k2] at hA
    generalize divM (portable l) E (E + 2 * nw l) (loc (nw l) s 2) (loc (nw l) s 5) m1 = m2 at hA ⊢
    have vA : rdF (nw l) m2 (loc (nw l) s 2) = WCurve.div l (rdC (nw l) m E).A (rdC (nw l) m E).C := hA.out (loc (nw l) s 2, _) (List.mem_singleton.2 rfl)
    -- the ladder
    have kP : rdP (nw l) m2 P = rdP (nw l) m P := by
      rw [hA.bf.rdP (by omega) (by simp; omega), b1.rdP (by omega) (by simp; omega)]
    have ks : rd m2 (WCurve.nwordsOrder l) (loc (nw l) s 0) = WCurve.scalarOf l old r := by
      rw [← a1]
      refine rd_congr fun y h5 h6 => hA.frame y (by omega) ?_
      intro w hw
      rw [List.mem_singleton] at hw
      subst hw
      dsimp only
      omega
    obtain ⟨Q, hQ⟩ := ladderLoop_some (l := l) (P := rdP (nw l) m P) (k := WCurve.scalarOf l old r)
      (A := fp2div2 (tables l) (fp2div2 (tables l) (fp2add (tables l) (WCurve.div l (rdC (nw l) m E).A (rdC (nw l) m E).C)
        ⟨fpadd (tables l) (fp2one (tables l)).c0 (fp2one (tables l)).c0, (fp2one (tables l)).c1⟩))) l.iso.e2 0
      ⟨fp2one (tables l), fp2zero (tables l)⟩ (rdP (nw l) m P) (by rw [← ks, rd_length]; exact o5)
    have hQ' : WCurve.ladder l (rdP (nw l) m P) (WCurve.scalarOf l old r) (WCurve.div l (rdC (nw l) m E).A (rdC (nw l) m E).C) l.iso.e2 = some Q := hQ
    have hl := ladderM_effect (portable l) m2 (P := P) (sc := loc (nw l) s 0) (w := WCurve.nwordsOrder l) (A := loc (nw l) s 2) (R := loc (nw l) s 3)
      (s := loc (nw l) s 5) (orderBits := l.iso.e2) (r := Q) ⟨by simp; omega, by simp; omega⟩ (by omega) (by rw [kP, ks, vA]; exact hQ')
    rw [hQ']
    generalize ladderM (portable l) P (loc (nw l) s 0) (loc (nw l) s 2) l.iso.e2 (loc (nw l) s 3) (loc (nw l) s 5) m2 = m3 at hl ⊢
    have vQ : rdP (nw l) m3 (loc (nw l) s 3) = Q := by
      change Pt.mk _ _ = Pt.mk _ _
      exact congr (congrArg Pt.mk (hl.out (loc (nw l) s 3, Q.X) (by simp [ptVars]))) (hl.out (loc (nw l) s 3 + 2 * nw l, Q.Z) (by simp [ptVars]))
    have bl := (b1.trans hA.bf).trans hl.bf
    have vE : rdC (nw l) m3 E = rdC (nw l) m E := bl.rdC (by omega) (by simp [ptVars]; omega)
    -- the string
    have rp := packPointM_spec (l := l) (E := E) (P := loc (nw l) s 3) (x := x) (s := loc (nw l) s 5) m3 ⟨by simp; omega, by simp; omega⟩ (by omega)
    rw [vE, vQ] at rp
    change ResT _ (M.bind (M.lift (WCurve.packPoint l (rdC (nw l) m E) Q)) _ _) _
    simp only [M.bind, M.lift]
    generalize WCurve.packPoint l (rdC (nw l) m E) Q = o at rp ⊢
    generalize packPointM l E (loc (nw l) s 3) x (loc (nw l) s 5) m3 = o' at rp ⊢
    rcases o with y | _ | _ | _ <;> rcases o' with _ | m4 <;> simp only [Res] at rp ⊢
    · obtain ⟨r1, r2⟩ := rp
      have b4 : BF s [(x, sz l)] m m4 := (bl.trans r2).mono (by omega) (by simp [ptVars]; omega)
      have ih := packChainAM_spec ho n { t with scal := rs } m4 h1
      rw [(h4 b4).1, (h4 b4).2] at ih
      exact ResT.map ih fun ys m2 hy => PackRes.cons r1 b4 hy h3
    · trivial

end Secuer.CMem
