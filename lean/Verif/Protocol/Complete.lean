import Verif.Protocol.Grid
import Verif.Props.ChallengeProps
import Verif.Props.ChainProps

/-!
# Honest proofs are accepted

What `Generate` and `Prove` compute, and what `Verify` does with it.
-/

namespace Secuer.Protocol

open Secuer.Curve Secuer.Mont Secuer.Field Secuer.Text Secuer.Scalar Secuer.Challenge Secuer.ChainProps

variable (l : Level)

/-! ### Encodings -/

theorem p_lt (l : Level) : l.p < 256 ^ (params l).fpBytes := by cases l <;> decide +kernel

theorem decode_encode (v : l.F) : decode l (encode l v) = v := by
  have h : ∀ z : ZMod l.p, z.val < 256 ^ (params l).fpBytes := fun z => (ZMod.val_lt z).trans (p_lt l)
  simp only [decode, encode, leNat_leBytes _ _ (h _), ZMod.natCast_zmod_val]

theorem map_decode_encode (xs : List l.F) : (xs.map (encode l)).map (decode l) = xs := by
  rw [List.map_map]
  conv_rhs => rw [← List.map_id xs]
  exact List.map_congr_left fun x _ => decode_encode l x

theorem env_inj : ∀ a b : l.F, l.env.re a = l.env.re b → l.env.im a = l.env.im b → a = b := by
  intro a b h1 h2
  exact QuadraticAlgebra.ext (ZMod.val_injective _ h1) (ZMod.val_injective _ h2)

theorem params_supported : (params l).Supported := by cases l <;> simp [params, Params.Supported]

theorem params_height : 0 < (params l).height := (params_supported l).pos.height
theorem params_width : 0 < (params l).width := (params_supported l).pos.width

theorem encJ_congr {E E' : Crv l.F} (hC : E.C ≠ 0) (hC' : E'.C ≠ 0) (hA : (E.A / E.C) ^ 2 ≠ 4)
    (hA' : (E'.A / E'.C) ^ 2 ≠ 4) (hj : SameJ (E.A / E.C) (E'.A / E'.C)) : encJ l E = encJ l E' := by
  unfold encJ
  rw [(jInv_eq_iff l.two hC hC' hA hA').2 hj]

theorem canonical_on {E E' : Crv l.F} {a : l.F} (hE : On E a) (hE' : On E' a) (ha : Super l.φ l.σ l.p a) :
    (canonicalModel l.env E).B = (canonicalModel l.env E').B := by
  have hS := l.setting
  have h1 := hE.super ha
  have h2 := hE'.super ha
  refine canonicalModel_congr hS.sqrt hS.two (env_inj l) h1.1 (h1.full4 hS.frob hS.two) h2.1 (h2.full4 hS.frob hS.two) ?_
  rw [hE.2, hE'.2]
  rfl

/-! ### Instances -/

/-- What `Instance` computes: three walks around the grid, and the commitments to the two corners. -/
structure InstOK (H : Hash) (a₀ a₁ : l.F) (v : Inst l) (c : Comm) : Prop where
  r2 : v.r2.length = (params l).hide
  r3 : v.r3.length = (params l).hide
  comm : c = ⟨hashHiding l H v.r2 (encJ l v.E2), hashHiding l H v.r3 (encJ l v.E3)⟩
  leftP : v.left.P.length = (params l).height
  leftE : v.left.E.length = (params l).height + 1
  bottomP : v.bottom.P.length = (params l).width
  bottomE : v.bottom.E.length = (params l).width + 1
  rightP : v.right.P.length = (params l).height
  rightE : v.right.E.length = (params l).height + 1
  walks : ∃ a₂ a₃ gL gB gR, On v.E2 a₂ ∧ On v.E3 a₃ ∧
    Walk l.φ 3 l.env.e3 none a₀ (v.left.E.zip v.left.P) a₂ gL ∧
    Walk l.φ 2 l.env.e2 none a₂ (v.bottom.E.zip v.bottom.P) a₃ gB ∧
    Walk l.φ 3 l.env.e3 none a₁ (v.right.E.zip v.right.P) a₃ gR

/-- What `Generate` computes. -/
structure SecretOK (a₀ a₁ : l.F) (sec : Secret) : Prop where
  P : sec.P.length = (params l).width
  E : sec.E.length = (params l).width + 1
  head : ∃ x, sec.E.head? = some x ∧ decode l x = a₀
  last : ∃ x, sec.E.getLast? = some x ∧ decode l x = a₁
  walk : ∃ G, Walk l.φ 2 l.env.e2 none a₀ ((sec.E.map fun a => (⟨decode l a, 1⟩ : Crv l.F)).zip
    (sec.P.map fun x => unpackPoint (decode l x))) a₁ G

theorem zip_fst_snd {α β : Type} (L : List (α × β)) (x : α) : (L.map Prod.fst ++ [x]).zip (L.map Prod.snd) = L := by
  induction L with
  | nil => rfl
  | cons c L ih => simp [ih]

theorem randomHide_ret (n : ℕ) : NoUB (randomHide l n) ∧ Ret (randomHide l n) (fun r => r.length = n) := by
  constructor
  · intro t h
    simp only [randomHide] at h
    split at h
    · cases h
    · split at h <;> cases h
  · intro t r t' h
    simp only [randomHide] at h
    split at h
    · cases h
    · split at h
      · obtain ⟨rfl, _⟩ := Prod.mk.inj (Out.ok.inj h)
        assumption
      · cases h

theorem instanceM_ret (H : Hash) {sec : Secret} {a₀ a₁ : l.F} (h : SecretOK l a₀ a₁ sec) (ha : Super l.φ l.σ l.p a₀) :
    NoUB (instanceM l H sec) ∧ Ret (instanceM l H sec) (fun r => InstOK l H a₀ a₁ r.1 r.2) := by
  have hS := l.setting
  have h3 := three_K l
  obtain ⟨x, hx, hxa⟩ := h.head
  obtain ⟨G, hw⟩ := h.walk
  obtain ⟨xs, hxs⟩ : ∃ xs, sec.E = x :: xs := by
    cases hs : sec.E with
    | nil => simp [hs] at hx
    | cons y ys => simp [hs] at hx; exact ⟨ys, by rw [hx]⟩
  unfold instanceM
  simp only [hxs, List.map_cons] at hw ⊢
  have hon : On (⟨decode l x, 1⟩ : Crv l.F) a₀ := by rw [← hxa]; exact on_one _
  obtain ⟨l1, l2⟩ := randomChainB_walk hS h3 (params l).height hon ha
  refine bindBoth l1 l2 ?_
  rintro left ⟨c1, c2, c3, a₂, gL, hwl, E2, hE2, honE2⟩
  obtain ⟨bottom, right, a₃, gB, gR, g1, g2, g3, g4, g5⟩ := gridLoop_walk l hwl _ a₁ G ha hw (by simp)
  rw [g1]
  have e5 := hwl.super hS ha
  have e6 := hw.super hS ha
  have hbl : bottom.length = (params l).width := by
    have hE := h.E
    rw [hxs] at hE
    rw [g2, List.length_zip, List.length_cons, List.length_map, List.length_map, h.P]
    simp at hE
    omega
  have hrl : right.length = (params l).height := by
    rw [g3, List.length_zip, c1, c2]; omega
  have hpw := params_width l
  have hph := params_height l
  obtain ⟨EA, hEA, honA⟩ := lastA_walk l g4 e5 (by intro h0; rw [h0] at hbl; simp at hbl; omega)
  obtain ⟨EB, hEB, honB⟩ := lastB_walk l g5 e6 (by intro h0; rw [h0] at hrl; simp at hrl; omega)
  change NoUB (lastA l bottom >>= _) ∧ Ret (lastA l bottom >>= _) _
  rw [hEA]
  change NoUB (lastB l right >>= _) ∧ Ret (lastB l right >>= _) _
  rw [hEB]
  simp only [hE2]
  change NoUB (randomHide l _ >>= _) ∧ Ret (randomHide l _ >>= _) _
  refine bindBoth (randomHide_ret l _).1 (randomHide_ret l _).2 ?_
  intro r2 hr2
  refine bindBoth (randomHide_ret l _).1 (randomHide_ret l _).2 ?_
  intro r3 hr3
  refine ⟨NoUB.pure' _, Ret.pure ?_⟩
  refine ⟨hr2, hr3, rfl, c1, c2, by simp [hbl], by simp [hbl], by simp [hrl], by simp [hrl], a₂, a₃, gL, gB, gR, honE2, honB, hwl, ?_, ?_⟩
  · simp only [zip_fst_snd]; exact g4
  · simp only [zip_fst_snd]; exact g5

theorem instances_ret (H : Hash) {sec : Secret} {a₀ a₁ : l.F} (h : SecretOK l a₀ a₁ sec) (ha : Super l.φ l.σ l.p a₀) :
    ∀ n, NoUB (instances l H sec n) ∧
      Ret (instances l H sec n) (fun vs => vs.length = n ∧ ∀ v ∈ vs, InstOK l H a₀ a₁ v.1 v.2)
  | 0 => ⟨NoUB.pure' _, Ret.pure ⟨rfl, by simp⟩⟩
  | n + 1 => by
    unfold instances
    obtain ⟨i1, i2⟩ := instanceM_ret l H h ha
    refine bindBoth i1 i2 ?_
    intro v hv
    obtain ⟨j1, j2⟩ := instances_ret H h ha n
    refine bindBoth j1 j2 ?_
    rintro vs ⟨hl, hvs⟩
    refine ⟨NoUB.pure' _, Ret.pure ⟨by simp [hl], ?_⟩⟩
    intro w hw
    rcases List.mem_cons.1 hw with rfl | hw
    · exact hv
    · exact hvs w hw

/-! ### `Generate` -/

theorem on_affine {E : Crv l.F} {a : l.F} (h : On E a) : On (⟨decode l (encode l (fp2div E.A E.C)), 1⟩ : Crv l.F) a := by
  rw [decode_encode, fp2div_eq, h.2]; exact on_one a

theorem walk_affine {ℓ e : ℕ} (hℓ : ℓ.Prime) : ∀ (Es : List (Crv l.F)) (Ps : List (Pt l.F)) {bo : Option (Pt l.K)} {a a'' : l.F}
    {G : Pt l.K → Pt l.K}, Walk l.φ ℓ e bo a (Es.zip Ps) a'' G →
    Walk l.φ ℓ e bo a (((Es.map fun E => encode l (fp2div E.A E.C)).map fun a => (⟨decode l a, 1⟩ : Crv l.F)).zip
      ((Ps.map fun P => encode l (fp2div P.X P.Z)).map fun x => unpackPoint (decode l x))) a'' G
  | [], _, _, _, _, _, hw => by simpa using hw
  | _ :: _, [], _, _, _, _, hw => by simpa using hw
  | E :: Es, k :: Ps, _, _, _, _, hw => by
    simp only [List.map_cons, List.zip_cons_cons] at hw ⊢
    cases hw with
    | @cons _ _ a' _ _ _ _ P gF gK b G' hE hk kg hbz hr =>
      refine Walk.cons (on_affine l hE) ?_ kg hbz (walk_affine hℓ Es Ps hr)
      have hz : k.Z ≠ 0 := by
        have := Rep.order_ne hk hℓ kg.cyc.pos (kg.order hℓ)
        intro h0; apply this; simp [Pt.map, h0]
      rw [decode_encode, fp2div_eq]
      exact hk.peq (PEq.map l.φ (nz_aff hz))

theorem checkedCurve_ret (mem : Mem l) (x : PFp2) : NoUB (checkedCurve l mem x) ∧ Ret (checkedCurve l mem x) (fun b =>
    b = true ↔ Super l.φ l.σ l.p (decode l x)) :=
  ⟨c28_no_ub l _ _, fun t b t' h => by
    show b = true ↔ _
    rw [c27_c28_verdict l _ _ t t' b h, rightOrder_iff]⟩

theorem getLast?_map {α β : Type} (f : α → β) (L : List α) : (L.map f).getLast? = L.getLast?.map f := by
  simp

theorem generate_ret (mem : Mem l) (E0 : PFp2) :
    NoUB (generate l mem E0) ∧ Ret (generate l mem E0) (fun r => ∀ sec, r = some sec →
      Super l.φ l.σ l.p (decode l E0) ∧ ∃ a₁, SecretOK l (decode l E0) a₁ sec) := by
  have hS := l.setting
  unfold generate
  refine bindBoth (checkedCurve_ret l mem E0).1 (checkedCurve_ret l mem E0).2 ?_
  intro b hb
  cases b with
  | false => exact ⟨NoUB.pure' _, Ret.pure (by simp)⟩
  | true =>
    have ha := hb.1 rfl
    simp only [Bool.true_eq_false, if_false]
    obtain ⟨c1, c2⟩ := randomChainA_walk hS (three_K l) (params l).width (on_one (decode l E0)) ha
    refine bindBoth c1 c2 ?_
    rintro c ⟨h1, h2, h3, a₁, G, hw, E', hE', hon⟩
    refine ⟨NoUB.pure' _, Ret.pure ?_⟩
    rintro _ ⟨rfl⟩
    refine ⟨ha, a₁, by simpa using h1, by simpa using h2, ?_, ?_, G, walk_affine l Nat.prime_two _ _ hw⟩
    · refine ⟨_, by simp only [List.head?_map, h3]; rfl, ?_⟩
      rw [decode_encode, fp2div_eq]; simp
    · refine ⟨_, by simp only [getLast?_map, hE']; rfl, ?_⟩
      rw [decode_encode, fp2div_eq, hon.2]

/-! ### Responses -/

/-- The curves strictly inside the chains that are unpacked have j-invariant neither 0 nor 1728. -/
def InteriorGeneric (v : Inst l) : Prop :=
  ∀ E, E ∈ v.left.E.tail.dropLast ∨ E ∈ v.bottom.E.tail.dropLast ∨ E ∈ v.right.E.tail.dropLast → Generic (E.A / E.C)

theorem zip_map_fst {α β : Type} : ∀ (Es : List α) (Ps : List β), Es.length = Ps.length + 1 →
    (Es.zip Ps).map Prod.fst = Es.dropLast
  | [], _, h => by simp at h
  | [_], [], _ => rfl
  | _ :: _ :: _, [], h => by simp at h
  | [_], _ :: _, h => by simp at h
  | E :: E' :: Es, P :: Ps, h => by
    rw [List.zip_cons_cons, List.map_cons, List.dropLast_cons_cons, zip_map_fst (E' :: Es) Ps (by simpa using h)]

/-- Packing a chain and unpacking it. -/
theorem cells_generic {Es : List (Crv l.F)} {Ps : List (Pt l.F)} {c : Crv l.F × Pt l.F} {cells : List (Crv l.F × Pt l.F)}
    (hl : Es.length = Ps.length + 1) (h : (c :: cells).map Prod.fst = (Es.zip Ps).map Prod.fst)
    (hg : ∀ E ∈ Es.tail.dropLast, Generic (E.A / E.C)) : ∀ d ∈ cells, Generic (d.1.A / d.1.C) := by
  intro d hd
  apply hg
  rw [zip_map_fst Es Ps hl] at h
  cases Es with
  | nil => simp at hl
  | cons E Es =>
    cases Es with
    | nil => simp at h
    | cons E' Es =>
      rw [List.dropLast_cons_cons, List.map_cons] at h
      have := (List.cons.inj h).2
      simp only [List.tail_cons]
      rw [← this]
      exact List.mem_map_of_mem hd

theorem pack_unpack_B (mem : Mem l) {a a'' : l.F} (ha : Super l.φ l.σ l.p a) {Es : List (Crv l.F)} {Ps : List (Pt l.F)}
    {G : Pt l.K → Pt l.K} (hw : Walk l.φ 3 l.env.e3 none a (Es.zip Ps) a'' G) (hl : Es.length = Ps.length + 1)
    (h0 : 0 < Ps.length) {E : Crv l.F} (hE : On E a) :
    NoUB (packChainB l.env Es Ps) ∧ Ret (packChainB l.env Es Ps) (fun xs => xs.length = Ps.length ∧
      ((∀ E ∈ Es.tail.dropLast, Generic (E.A / E.C)) → NoUB (unpackChainB l.env l.po mem.pts (canonicalModel l.env E).B xs) ∧
      Ret (unpackChainB l.env l.po mem.pts (canonicalModel l.env E).B xs) (Reaches l.φ l.σ l.p a''))) := by
  have hS := l.setting
  obtain ⟨h1, h2⟩ := packChainB_walk hS Es Ps hw ha
  refine ⟨h1, h2.mono ?_⟩
  rintro xs ⟨cells, hwc, rfl, hfst⟩
  have hlen : cells.length = Ps.length := by
    have := congrArg List.length hfst
    simp only [List.length_map, List.length_zip] at this
    omega
  cases cells with
  | nil => simp at hlen; omega
  | cons c cells =>
    refine ⟨by rw [List.length_map, hlen], fun hg => ?_⟩
    have hc : On c.1 a := by cases hwc; assumption
    rw [canonical_on l hE hc ha]
    exact unpackChainB_walk hS (env_inj l) (three_K l) l.po mem.pts ha hwc (cells_generic l hl hfst hg)

theorem pack_unpack_A (mem : Mem l) {a a'' : l.F} (ha : Super l.φ l.σ l.p a) {Es : List (Crv l.F)} {Ps : List (Pt l.F)}
    {G : Pt l.K → Pt l.K} (hw : Walk l.φ 2 l.env.e2 none a (Es.zip Ps) a'' G) (hl : Es.length = Ps.length + 1)
    (h0 : 0 < Ps.length) {E : Crv l.F} (hE : On E a) :
    NoUB (packChainA l.env Es Ps) ∧ Ret (packChainA l.env Es Ps) (fun xs => xs.length = Ps.length ∧
      ((∀ E ∈ Es.tail.dropLast, Generic (E.A / E.C)) → NoUB (unpackChainA l.env l.po mem.pts (canonicalModel l.env E).B xs) ∧
      Ret (unpackChainA l.env l.po mem.pts (canonicalModel l.env E).B xs) (Reaches l.φ l.σ l.p a''))) := by
  have hS := l.setting
  obtain ⟨h1, h2⟩ := packChainA_walk hS Es Ps hw ha
  refine ⟨h1, h2.mono ?_⟩
  rintro xs ⟨cells, hwc, rfl, hfst⟩
  have hlen : cells.length = Ps.length := by
    have := congrArg List.length hfst
    simp only [List.length_map, List.length_zip] at this
    omega
  cases cells with
  | nil => simp at hlen; omega
  | cons c cells =>
    refine ⟨by rw [List.length_map, hlen], fun hg => ?_⟩
    have hc : On c.1 a := by cases hwc; assumption
    rw [canonical_on l hE hc ha]
    exact unpackChainA_walk hS (env_inj l) (three_K l) l.po mem.pts ha hwc (cells_generic l hl hfst hg)

theorem packCurve_on {E : Crv l.F} {a : l.F} (hE : On E a) (ha : Super l.φ l.σ l.p a) :
    packCurve l.env E = .ok (canonicalModel l.env E).B := by
  unfold packCurve
  rw [(hE.model l.setting ha).1]

/-- The j-invariant of the canonical model. -/
theorem encJ_canonical {E : Crv l.F} {a : l.F} (hE : On E a) (ha : Super l.φ l.σ l.p a) :
    encJ l ⟨(canonicalModel l.env E).B, 1⟩ = encJ l E := by
  obtain ⟨_, hm⟩ := hE.model l.setting ha
  refine (encJ_congr l hE.1 one_ne_zero ?_ ?_ ?_).symm
  · rw [hE.2]; exact ha.1
  · simpa using hm.tgt
  · rw [hE.2]; simpa using hm.sameJ

theorem encJ_reaches {E E' : Crv l.F} {a : l.F} (hE : On E a) (ha : Super l.φ l.σ l.p a)
    (h : Reaches l.φ l.σ l.p a (some E')) : encJ l E' = encJ l E := by
  obtain ⟨E'', e, h1, h2, h3⟩ := h
  cases e
  refine (encJ_congr l hE.1 h1 ?_ h2.1 ?_).symm
  · rw [hE.2]; exact ha.1
  · rw [hE.2]; exact h3

theorem active_left {c : CResp} {r2 h3 : Bytes} {chain : List PFp2} (h : c.active = some (.left r2 h3 chain)) :
    c.tag = -1 ∧ c.leftR2 = r2 ∧ c.leftH3 = h3 ∧ c.leftChain = chain := by
  unfold CResp.active at h
  split at h
  · simp at h; exact ⟨by assumption, h⟩
  · split at h
    · simp at h
    · split at h <;> simp at h

theorem active_bottom {c : CResp} {r2 r3 : Bytes} {E : PFp2} {chain : List PFp2}
    (h : c.active = some (.bottom r2 r3 E chain)) :
    c.tag = 0 ∧ c.bottomR2 = r2 ∧ c.bottomR3 = r3 ∧ c.bottomE2 = E ∧ c.bottomChain = chain := by
  unfold CResp.active at h
  split at h
  · simp at h
  · split at h
    · simp at h; exact ⟨by assumption, h⟩
    · split at h <;> simp at h

theorem active_right {c : CResp} {h2 r3 : Bytes} {chain : List PFp2} (h : c.active = some (.right h2 r3 chain)) :
    c.tag = 1 ∧ c.rightH2 = h2 ∧ c.rightR3 = r3 ∧ c.rightChain = chain := by
  unfold CResp.active at h
  split at h
  · simp at h
  · split at h
    · simp at h
    · split at h
      · simp at h; exact ⟨by assumption, h⟩
      · simp at h

/-- The verifier recovers the challenge and the commitment from an honest response. -/
def Recovers (H : Hash) (e0 e1 : PFp2) (ch : Int) (c : Comm) (r : Resp) : Prop :=
  ∀ (mem : Mem l) (m : CResp), m.active = some r →
    NoUB (unpackResponse l H mem e0 e1 m) ∧ Ret (unpackResponse l H mem e0 e1 m) (fun o => o = some (ch, c))

theorem packResponse_ret (H : Hash) {a₀ a₁ : l.F} (h0 : Super l.φ l.σ l.p a₀) (h1 : Super l.φ l.σ l.p a₁)
    {v : Inst l} {c : Comm} (hv : InstOK l H a₀ a₁ v c) {E0 E1 : Crv l.F} (hE0 : On E0 a₀)
    (hE1 : On E1 a₁) {ch : Int} (hch : Spec.Trit ch) :
    NoUB (packResponse l ch v c) ∧ Ret (packResponse l ch v c) (fun r =>
      InteriorGeneric l v → Recovers l H (encode l (canonicalModel l.env E0).B) (encode l (canonicalModel l.env E1).B) ch c r) := by
  have hS := l.setting
  have hph := params_height l
  have hpw := params_width l
  obtain ⟨a₂, a₃, gL, gB, gR, on2, on3, wL, wB, wR⟩ := hv.walks
  have s2 := wL.super hS h0
  have s3 := wR.super hS h1
  have hcomm := hv.comm
  unfold packResponse
  rcases hch with rfl | rfl | rfl
  · simp only [if_true]
    have key := fun mem => pack_unpack_B l mem h0 wL (by rw [hv.leftE, hv.leftP]) (by rw [hv.leftP]; exact hph) hE0
    refine bindBoth (key ⟨fun _ => (⟨0, 0⟩, ⟨0, 0⟩), []⟩).1 (Q := fun xs => ∀ mem : Mem l, InteriorGeneric l v →
      NoUB (unpackChainB l.env l.po mem.pts (canonicalModel l.env E0).B xs) ∧
      Ret (unpackChainB l.env l.po mem.pts (canonicalModel l.env E0).B xs) (Reaches l.φ l.σ l.p a₂))
      (fun t xs t' hx mem hg => ((key mem).2 t xs t' hx).2 fun E hE => hg E (Or.inl hE)) ?_
    intro xs hxs
    refine ⟨NoUB.pure' _, Ret.pure ?_⟩
    intro hg mem m hm
    obtain ⟨e1, e2, e3, e4⟩ := active_left hm
    unfold unpackResponse
    simp only [e1, e2, e3, e4, map_decode_encode, decode_encode, show int8 (-1) = -1 from rfl, if_true]
    refine bindBoth (hxs mem hg).1 (hxs mem hg).2 ?_
    intro r hr
    obtain ⟨E', rfl, _⟩ := id hr
    simp only
    refine ⟨NoUB.pure' _, Ret.pure ?_⟩
    rw [encJ_reaches l on2 s2 hr, hcomm]
  · simp only [show ¬ ((0 : Int) = -1) by norm_num, if_false, if_true]
    rw [packCurve_on l on2 s2, lift_ok_bind]
    have key := fun mem => pack_unpack_A l mem s2 wB (by rw [hv.bottomE, hv.bottomP]) (by rw [hv.bottomP]; exact hpw) on2
    refine bindBoth (key ⟨fun _ => (⟨0, 0⟩, ⟨0, 0⟩), []⟩).1 (Q := fun xs => ∀ mem : Mem l, InteriorGeneric l v →
      NoUB (unpackChainA l.env l.po mem.pts (canonicalModel l.env v.E2).B xs) ∧
      Ret (unpackChainA l.env l.po mem.pts (canonicalModel l.env v.E2).B xs) (Reaches l.φ l.σ l.p a₃))
      (fun t xs t' hx mem hg => ((key mem).2 t xs t' hx).2 fun E hE => hg E (Or.inr (Or.inl hE))) ?_
    intro xs hxs
    refine ⟨NoUB.pure' _, Ret.pure ?_⟩
    intro hg mem m hm
    obtain ⟨e1, e2, e3, e4, e5⟩ := active_bottom hm
    unfold unpackResponse
    simp only [e1, e2, e3, e4, e5, map_decode_encode, decode_encode, show int8 0 = 0 from rfl,
      show ¬ ((0 : Int) = -1) by norm_num, if_false, if_true]
    refine bindBoth (checkedCurve_ret l mem _).1 (checkedCurve_ret l mem _).2 ?_
    intro b hb
    have hbt : b = true := by
      rw [hb, decode_encode]
      exact s2.model hS.frob hS.two (on2.model hS s2).2 hS.neg
    subst hbt
    simp only [Bool.true_eq_false, if_false]
    refine bindBoth (hxs mem hg).1 (hxs mem hg).2 ?_
    intro r hr
    obtain ⟨E', rfl, _⟩ := id hr
    simp only
    refine ⟨NoUB.pure' _, Ret.pure ?_⟩
    rw [encJ_reaches l on3 s3 hr, encJ_canonical l on2 s2, hcomm]
  · simp only [show ¬ ((1 : Int) = -1) by norm_num, show ¬ ((1 : Int) = 0) by norm_num, if_false, if_true]
    have key := fun mem => pack_unpack_B l mem h1 wR (by rw [hv.rightE, hv.rightP]) (by rw [hv.rightP]; exact hph) hE1
    refine bindBoth (key ⟨fun _ => (⟨0, 0⟩, ⟨0, 0⟩), []⟩).1 (Q := fun xs => ∀ mem : Mem l, InteriorGeneric l v →
      NoUB (unpackChainB l.env l.po mem.pts (canonicalModel l.env E1).B xs) ∧
      Ret (unpackChainB l.env l.po mem.pts (canonicalModel l.env E1).B xs) (Reaches l.φ l.σ l.p a₃))
      (fun t xs t' hx mem hg => ((key mem).2 t xs t' hx).2 fun E hE => hg E (Or.inr (Or.inr hE))) ?_
    intro xs hxs
    refine ⟨NoUB.pure' _, Ret.pure ?_⟩
    intro hg mem m hm
    obtain ⟨e1, e2, e3, e4⟩ := active_right hm
    unfold unpackResponse
    simp only [e1, e2, e3, e4, map_decode_encode, decode_encode, show int8 1 = 1 from rfl,
      show ¬ ((1 : Int) = -1) by norm_num, show ¬ ((1 : Int) = 0) by norm_num, if_false, if_true]
    refine bindBoth (hxs mem hg).1 (hxs mem hg).2 ?_
    intro r hr
    obtain ⟨E', rfl, _⟩ := id hr
    simp only
    refine ⟨NoUB.pure' _, Ret.pure ?_⟩
    rw [encJ_reaches l on3 s3 hr, hcomm]

/-! ### The whole proof -/

/-- All responses. -/
theorem packAll_ret (H : Hash) {a₀ a₁ : l.F} (h0 : Super l.φ l.σ l.p a₀) (h1 : Super l.φ l.σ l.p a₁) {E0 E1 : Crv l.F}
    (hE0 : On E0 a₀) (hE1 : On E1 a₁) : ∀ (chs : List Int) (vs : List (Inst l × Comm)), chs.length = vs.length →
    (∀ c ∈ chs, Spec.Trit c) → (∀ v ∈ vs, InstOK l H a₀ a₁ v.1 v.2) →
    NoUB (packAll l chs vs) ∧ Ret (packAll l chs vs) (fun rs => rs.length = chs.length ∧
      ((∀ v ∈ vs, InteriorGeneric l v.1) → ∀ (mem : Mem l) (ms : List CResp), ms.map CResp.active = rs.map some →
        NoUB (unpackAll l H mem (encode l (canonicalModel l.env E0).B) (encode l (canonicalModel l.env E1).B) ms) ∧
        Ret (unpackAll l H mem (encode l (canonicalModel l.env E0).B) (encode l (canonicalModel l.env E1).B) ms)
          (fun o => o = some (chs.zip (vs.map Prod.snd)))))
  | [], [], _, _, _ => by
    refine ⟨NoUB.pure' _, Ret.pure ⟨rfl, ?_⟩⟩
    intro _ mem ms hm
    have : ms = [] := by simpa using hm
    subst this
    exact ⟨NoUB.pure' _, Ret.pure rfl⟩
  | [], _ :: _, h, _, _ => by simp at h
  | _ :: _, [], h, _, _ => by simp at h
  | ch :: chs, v :: vs, h, hc, hv => by
    unfold packAll
    obtain ⟨p1, p2⟩ := packResponse_ret l H h0 h1 (hv v (by simp)) hE0 hE1 (hc ch (by simp))
    refine bindBoth p1 p2 ?_
    intro r hr
    obtain ⟨q1, q2⟩ := packAll_ret H h0 h1 hE0 hE1 chs vs (by simpa using h) (fun c hcc => hc c (by simp [hcc]))
      (fun w hw => hv w (by simp [hw]))
    refine bindBoth q1 q2 ?_
    rintro rs ⟨hl, hrs⟩
    refine ⟨NoUB.pure' _, Ret.pure ⟨by simp [hl], ?_⟩⟩
    intro hg mem ms hm
    cases ms with
    | nil => simp at hm
    | cons m ms =>
      rw [List.map_cons, List.map_cons] at hm
      obtain ⟨hm1, hm2⟩ := List.cons.inj hm
      unfold unpackAll
      obtain ⟨u1, u2⟩ := hr (hg v (by simp)) mem m hm1
      refine bindBoth u1 u2 ?_
      rintro _ rfl
      obtain ⟨w1, w2⟩ := hrs (fun w hw => hg w (by simp [hw])) mem ms hm2
      refine bindBoth w1 w2 ?_
      rintro _ rfl
      exact ⟨NoUB.pure' _, Ret.pure rfl⟩

/-- `Challenge` returns the challenge given by the stream, in the verifier as in the prover. -/
theorem challengeM_ret (H : Hash) (mem : Mem l) (hm : mem.challs.length = (params l).reps) (fuel : ℕ) (j0 j1 : PFp2)
    (hs : List Comm) :
    NoUB (challengeM l H mem fuel j0 j1 hs) ∧ Ret (challengeM l H mem fuel j0 j1 hs) (fun ts =>
      ts.length = (params l).reps ∧ (∀ c ∈ ts, Spec.Trit c) ∧ ∃ k, ∀ m, k ≤ m →
        ts = (Spec.tritStream (Spec.firstBlocks (H.block (challengeInput j0 j1 hs)) m)).take (params l).reps) := by
  unfold challengeM
  have h := C08_challenge_trits (params l).reps (H.block (challengeInput j0 j1 hs)) fuel mem.challs hm
  have h' := C09_challenge_streaming (params l).reps (H.block (challengeInput j0 j1 hs)) fuel mem.challs
  revert h h'
  generalize Challenge.challenge _ _ _ _ = r
  intro h h'
  match r with
  | .finished ts k =>
    exact ⟨NoUB.pure' _, Ret.pure ⟨(h.2 ts k rfl).1, (h.2 ts k rfl).2, k, h' ts k hm rfl⟩⟩
  | .running => exact ⟨(fun t e => by cases e), (fun t a t' e => by cases e)⟩
  | .oob => exact absurd rfl h.1

/-- `Prove` after the instances have been drawn. -/
def respond (H : Hash) (mem : Mem l) (fuel : ℕ) (a0 a1 : PFp2) (vs : List (Inst l × Comm)) : M l.F Proof := do
  let chall ← challengeM l H mem fuel (encJ l ⟨decode l a0, 1⟩) (encJ l ⟨decode l a1, 1⟩) (vs.map Prod.snd)
  let e0 ← M.lift (packCurve l.env ⟨decode l a0, 1⟩)
  let e1 ← M.lift (packCurve l.env ⟨decode l a1, 1⟩)
  let resp ← packAll l chall vs
  pure ⟨encode l e0, encode l e1, resp⟩

theorem prove_eq (H : Hash) (mem : Mem l) (fuel : ℕ) {sec : Secret} {a0 a1 : PFp2} (h0 : sec.E.head? = some a0)
    (h1 : sec.E.getLast? = some a1) :
    prove l H mem fuel sec = instances l H sec (params l).reps >>= respond l H mem fuel a0 a1 := by
  unfold prove
  rw [h0, h1]
  rfl

/-- What `Verify` does with `prf`, if the memory holds it. -/
def Accepted (H : Hash) (prf : Proof) : Prop :=
  ∀ (mem : Mem l) (fuel : ℕ) (prf' : CProof), mem.challs.length = (params l).reps → prf'.E0 = prf.E0 → prf'.E1 = prf.E1 →
    prf'.resp.map CResp.active = prf.resp.map some →
    NoUB (verify l H mem fuel prf') ∧ Ret (verify l H mem fuel prf') (fun b => b = true)

theorem respond_ret (H : Hash) (mem : Mem l) (hm : mem.challs.length = (params l).reps) (fuel : ℕ) {x₀ x₁ : PFp2}
    (h0 : Super l.φ l.σ l.p (decode l x₀)) (h1 : Super l.φ l.σ l.p (decode l x₁)) {vs : List (Inst l × Comm)}
    (hl : vs.length = (params l).reps) (hv : ∀ v ∈ vs, InstOK l H (decode l x₀) (decode l x₁) v.1 v.2) :
    NoUB (respond l H mem fuel x₀ x₁ vs) ∧ Ret (respond l H mem fuel x₀ x₁ vs) (fun prf =>
      prf.resp.length = (params l).reps ∧ ((∀ v ∈ vs, InteriorGeneric l v.1) → Accepted l H prf)) := by
  have hS := l.setting
  have o0 := on_one (decode l x₀)
  have o1 := on_one (decode l x₁)
  unfold respond
  obtain ⟨c1, c2⟩ := challengeM_ret l H mem hm fuel (encJ l ⟨decode l x₀, 1⟩) (encJ l ⟨decode l x₁, 1⟩) (vs.map Prod.snd)
  refine bindBoth c1 c2 ?_
  rintro ts ⟨htl, htt, k, hts⟩
  rw [packCurve_on l o0 h0, packCurve_on l o1 h1]
  simp only [lift_ok_bind]
  obtain ⟨p1, p2⟩ := packAll_ret l H h0 h1 o0 o1 ts vs (by rw [htl, hl]) htt hv
  refine bindBoth p1 p2 ?_
  rintro rs ⟨hrl, hrs⟩
  refine ⟨NoUB.pure' _, Ret.pure ⟨by rw [hrl, htl], ?_⟩⟩
  intro hg mem' fuel' prf hm' e0 e1 er
  simp only at e0 e1 er
  have good : ∀ x : PFp2, Super l.φ l.σ l.p (decode l x) →
      Super l.φ l.σ l.p (decode l (encode l (canonicalModel l.env (⟨decode l x, 1⟩ : Crv l.F)).B)) := by
    intro x hx
    rw [decode_encode]
    exact hx.model hS.frob hS.two ((on_one (decode l x)).model hS hx).2 hS.neg
  unfold verify
  rw [e0, e1]
  refine bindBoth (checkedCurve_ret l mem' _).1 (checkedCurve_ret l mem' _).2 ?_
  intro b hb
  rw [hb.2 (good x₀ h0)]
  simp only [Bool.true_eq_false, if_false]
  refine bindBoth (checkedCurve_ret l mem' _).1 (checkedCurve_ret l mem' _).2 ?_
  intro b hb
  rw [hb.2 (good x₁ h1)]
  simp only [Bool.true_eq_false, if_false]
  obtain ⟨u1, u2⟩ := hrs hg mem' prf.resp er
  refine bindBoth u1 u2 ?_
  rintro _ rfl
  simp only
  have hz1 : (ts.zip (vs.map Prod.snd)).map Prod.fst = ts := List.map_fst_zip (by simp [htl, hl])
  have hz2 : (ts.zip (vs.map Prod.snd)).map Prod.snd = vs.map Prod.snd := List.map_snd_zip (by simp [htl, hl])
  rw [hz1, hz2, decode_encode, decode_encode, encJ_canonical l o0 h0, encJ_canonical l o1 h1]
  obtain ⟨d1, d2⟩ := challengeM_ret l H mem' hm' fuel' (encJ l ⟨decode l x₀, 1⟩) (encJ l ⟨decode l x₁, 1⟩) (vs.map Prod.snd)
  refine bindBoth d1 d2 ?_
  rintro ts' ⟨_, _, k', hts'⟩
  refine ⟨NoUB.pure' _, Ret.pure ?_⟩
  rw [decide_eq_true_iff, hts' (max k k') (le_max_right _ _), ← hts (max k k') (le_max_left _ _)]

/-- `Prove` has no undefined behaviour, and its proofs are accepted. -/
theorem prove_ret (H : Hash) (mem : Mem l) (hm : mem.challs.length = (params l).reps) (fuel : ℕ) {sec : Secret} {a₀ a₁ : l.F}
    (h : SecretOK l a₀ a₁ sec) (ha : Super l.φ l.σ l.p a₀) : NoUB (prove l H mem fuel sec) ∧
      ∀ t vs t₁, instances l H sec (params l).reps t = .ok (vs, t₁) → (∀ v ∈ vs, InteriorGeneric l v.1) →
        ∀ prf t', prove l H mem fuel sec t = .ok (prf, t') → prf.resp.length = (params l).reps ∧ Accepted l H prf := by
  obtain ⟨x₀, hx0, rfl⟩ := h.head
  obtain ⟨x₁, hx1, rfl⟩ := h.last
  rw [prove_eq l H mem fuel hx0 hx1]
  obtain ⟨G, hw⟩ := h.walk
  have h1 := hw.super l.setting ha
  obtain ⟨i1, i2⟩ := instances_ret l H h ha (params l).reps
  have key := fun (vs : List (Inst l × Comm)) (hvs : vs.length = _ ∧ ∀ v ∈ vs, InstOK l H _ _ v.1 v.2) =>
    respond_ret l H mem hm fuel ha h1 hvs.1 hvs.2
  refine ⟨(bindBoth (R := fun _ => True) i1 i2 fun vs hvs => ⟨(key vs hvs).1, (key vs hvs).2.mono fun _ _ => trivial⟩).1, ?_⟩
  intro t vs t₁ hi hg prf t' hp
  rw [bind_eq hi] at hp
  obtain ⟨q1, q2⟩ := (key vs (i2 t vs t₁ hi)).2 t₁ prf t' hp
  exact ⟨q1, q2 hg⟩

end Secuer.Protocol
