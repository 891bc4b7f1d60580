import Verif.WProtocol.Model
import Verif.WCurve.RefineChain
import Verif.Props.WordProps

/-!
# The protocol on words refines the protocol over the field
-/

namespace Secuer.WProtocol

open Secuer.Word Secuer.Field Secuer.Text Secuer.WCurve Secuer.Scalar
open Secuer.Curve (Pt Crv Out M Tape Chain)
open Secuer.Protocol (Hash Comm Secret params flat hashHiding challengeInput int8)

variable {l : Level} [Arith] [ArithOK (tables l) l.p] [RandOK (tables l) l.p] [FpEq] [FpEqOK (tables l) l.p] {H : Hash} {mem : Mem} {pmem : Protocol.Mem l}

local notation "T" => tables l

/-! ### Packed field elements -/

theorem decode_v (hm : mem.WF l) {x : PFp2} (hx : x.WF (params l)) : V l 2 (decode l mem x) (Protocol.decode l x) := by
  obtain ⟨h1, h2⟩ := fp2decode_spec l mem.dec hm.dec0 hm.dec1 x.real x.imag hx.1 hx.2
  exact ⟨h1, h2⟩

omit [RandOK (tables l) l.p] in
theorem encode_eq {x : F2} (h : Rng2 T (120 * l.p) x) : encode l x = Protocol.encode l (f2Val T l.p x) := by
  rw [encode, fp2encode_of l (fromMont_spec (good l) h.c0) (fromMont_spec (good l) h.c1), Protocol.encode]
  rw [List.take_left' (leBytes_length _ _), List.drop_left' (leBytes_length _ _)]

omit [RandOK (tables l) l.p] in
theorem encode_v {B : ℕ} {x : F2} {u : l.F} (h : V l B x u) (hB : B ≤ 120 := by norm_num) :
    encode l x = Protocol.encode l u := by
  rw [encode_eq (h.rng.mono (Nat.mul_le_mul_right _ hB)), h.val]

theorem encode_n {x : F2} {u : l.F} (h : N l x u) : encode l x = Protocol.encode l u := encode_v h.wide

theorem encode_list {B : ℕ} {xs : List F2} {us : List l.F} (h : VL (V l B) xs us) (hB : B ≤ 120 := by norm_num) :
    xs.map (encode l) = us.map (Protocol.encode l) := by
  induction h with
  | nil => rfl
  | cons h _ ih => rw [List.map_cons, List.map_cons, encode_v h hB, ih]

/-- What `fp2_decode` writes does not depend on what was there. -/
theorem decode_indep {mem' : Mem} (hm : mem.WF l) (hm' : mem'.WF l) {x : PFp2} (hx : x.WF (params l)) :
    decode l mem x = decode l mem' x := by
  have hb := half_bounds l
  have hh := half_eq l
  have g := good l
  have key : ∀ {d d' : List Digit} {b : List UInt8}, d.length = (tables l).n → d'.length = (tables l).n → half T ≤ b.length →
      decodeToDigits d b (half T) (tables l).n = decodeToDigits d' b (half T) (tables l).n := by
    intro d d' b hd hd' hl
    obtain ⟨l0, v0⟩ := decodeToDigits_val g.n_pos hd hl hb.1 hb.2.1
    obtain ⟨l1, v1⟩ := decodeToDigits_val g.n_pos hd' hl hb.1 hb.2.1
    exact val_inj (l0.trans l1.symm) (v0.trans v1.symm)
  have hf : (flat x).length = 2 * half T := by rw [flat, List.length_append, hx.1, hx.2, hh]; omega
  unfold decode fp2decode
  rw [key hm.dec0 hm'.dec0 (by omega), key hm.dec1 hm'.dec1 (by rw [List.length_drop]; omega)]

/-- Nor does the scalar in `Pack_Chain_A`. -/
theorem scalarOf_indep {old old' : List Digit} (h : old.length = nwordsOrder l) (h' : old'.length = nwordsOrder l) (m : ℕ) :
    scalarOf l old m = scalarOf l old' m :=
  val_inj ((scalarOf_val h m).1.trans (scalarOf_val h' m).1.symm) ((scalarOf_val h m).2.trans (scalarOf_val h' m).2.symm)

theorem unpackCurve_v (hm : mem.WF l) {x : PFp2} (hx : x.WF (params l)) :
    VC l (unpackCurve l mem x) ⟨Protocol.decode l x, 1⟩ := ⟨(decode_v hm hx).n, one_v⟩

theorem checkedCurve_ref (hm : mem.WF l) {x : PFp2} (hx : x.WF (params l)) :
    Ref l (· = ·) (checkedCurve l mem x) (Protocol.checkedCurve l pmem x) :=
  checkCurve_ref _ _ (unpackCurve_v hm hx) (decode_v hm hx)

theorem encJ_ref {E : Crv F2} {E' : Crv l.F} (h : VC l E E') : encJ l E = Protocol.encJ l E' :=
  encode_v (jInv_ref h.A.wide h.C)

theorem challengeM_ref (hc : mem.challs = pmem.challs) (fuel : ℕ) (j0 j1 : PFp2) (hs : List Comm) :
    Ref l (· = ·) (challengeM l H mem fuel j0 j1 hs) (Protocol.challengeM l H pmem fuel j0 j1 hs) := by
  unfold challengeM Protocol.challengeM
  rw [hc]
  cases Challenge.challenge (params l).reps (H.block (challengeInput j0 j1 hs)) fuel pmem.challs with
  | finished ts _ => exact Ref.pure rfl
  | running => exact Ref.starved
  | oob => exact Ref.ub

/-! ### The verifier -/

theorem decode_list (hm : mem.WF l) {xs : List PFp2} (h : ∀ x ∈ xs, x.WF (params l)) :
    VL (V l 2) (xs.map (decode l mem)) (xs.map (Protocol.decode l)) := by
  induction xs with
  | nil => exact .nil
  | cons x xs ih =>
    exact .cons (decode_v hm (h x List.mem_cons_self)) (ih fun y hy => h y (List.mem_cons_of_mem _ hy))

theorem unpackResponse_ref (hm : mem.WF l) {E0 E1 : PFp2} (h0 : E0.WF (params l)) (h1 : E1.WF (params l)) {r : CResp}
    (hr : r.WF (params l)) :
    Ref l (· = ·) (unpackResponse l H mem E0 E1 r) (Protocol.unpackResponse l H pmem E0 E1 r) := by
  obtain ⟨⟨-, -, -, w1⟩, ⟨-, -, w2, -, w3⟩, ⟨-, -, -, w4⟩, -⟩ := hr
  rw [unpackResponse, Protocol.unpackResponse]
  refine Ref.ite Iff.rfl (fun _ => ?_) fun _ => Ref.ite Iff.rfl (fun _ => ?_) fun _ => Ref.ite Iff.rfl (fun _ => ?_) fun _ => Ref.pure rfl
  · refine (unpackChainB_ref mem.pts pmem.pts (decode_v hm h0) (decode_list hm w1)).bind fun _ _ h => ?_
    cases h with
    | none => exact Ref.pure rfl
    | some h =>
      dsimp only
      rw [encJ_ref h]
      exact Ref.pure rfl
  · refine (checkedCurve_ref hm w2).bind fun _ _ h => ?_
    subst h
    refine Ref.ite Iff.rfl (fun _ => Ref.pure rfl) fun _ => ?_
    refine (unpackChainA_ref mem.pts pmem.pts (decode_v hm w2) (decode_list hm w3)).bind fun _ _ h => ?_
    cases h with
    | none => exact Ref.pure rfl
    | some h =>
      dsimp only
      rw [encJ_ref h, encJ_ref (unpackCurve_v hm w2)]
      exact Ref.pure rfl
  · refine (unpackChainB_ref mem.pts pmem.pts (decode_v hm h1) (decode_list hm w4)).bind fun _ _ h => ?_
    cases h with
    | none => exact Ref.pure rfl
    | some h =>
      dsimp only
      rw [encJ_ref h]
      exact Ref.pure rfl

theorem unpackAll_ref (hm : mem.WF l) {E0 E1 : PFp2} (h0 : E0.WF (params l)) (h1 : E1.WF (params l)) : ∀ {rs : List CResp},
    (∀ r ∈ rs, r.WF (params l)) → Ref l (· = ·) (unpackAll l H mem E0 E1 rs) (Protocol.unpackAll l H pmem E0 E1 rs)
  | [], _ => Ref.pure rfl
  | r :: rs, h => by
    rw [unpackAll, Protocol.unpackAll]
    refine (unpackResponse_ref hm h0 h1 (h r List.mem_cons_self)).bind fun a _ hab => ?_
    subst hab
    cases a with
    | none => exact Ref.pure rfl
    | some o =>
      refine (unpackAll_ref hm h0 h1 fun s hs => h s (List.mem_cons_of_mem _ hs)).bind fun a _ hab => ?_
      subst hab
      cases a with
      | none => exact Ref.pure rfl
      | some os => exact Ref.pure rfl

theorem verify_ref (hm : mem.WF l) (hc : mem.challs = pmem.challs) (fuel : ℕ) {prf : CProof} (h : prf.WF (params l)) :
    Ref l (· = ·) (verify l H mem fuel prf) (Protocol.verify l H pmem fuel prf) := by
  obtain ⟨h0, h1, -, hr⟩ := h
  rw [verify, Protocol.verify]
  refine (checkedCurve_ref hm h0).bind fun _ _ h => ?_
  subst h
  refine Ref.ite Iff.rfl (fun _ => Ref.pure rfl) fun _ => ?_
  refine (checkedCurve_ref hm h1).bind fun _ _ h => ?_
  subst h
  refine Ref.ite Iff.rfl (fun _ => Ref.pure rfl) fun _ => ?_
  refine (unpackAll_ref hm h0 h1 hr).bind fun a _ hab => ?_
  subst hab
  cases a with
  | none => exact Ref.pure rfl
  | some os =>
    dsimp only
    rw [encJ_ref (unpackCurve_v hm h0), encJ_ref (unpackCurve_v hm h1)]
    refine (challengeM_ref hc fuel _ _ _).bind fun a _ hab => ?_
    subst hab
    exact Ref.pure rfl

/-! ### The prover -/

/-- A curve and a point on it -/
abbrev RCP (l : Level) (a : Crv F2 × Pt F2) (b : Crv l.F × Pt l.F) : Prop := VC l a.1 b.1 ∧ VP l a.2 b.2

theorem gridRow_ref : ∀ {row : List (Crv F2 × Pt F2)} {row' : List (Crv l.F × Pt l.F)} {E : Crv F2} {E' : Crv l.F} {K : Pt F2} {K' : Pt l.F},
    VL (RCP l) row row' → VC l E E' → VP l K K' →
    Ref l (fun a b => VL (RCP l) a.1 b.1 ∧ VC l a.2.1 b.2.1 ∧ VP l a.2.2 b.2.2) (gridRow l row E K) (Protocol.gridRow l row' E' K')
  | _, _, _, _, _, _, .nil, hE, hK => Ref.pure ⟨.nil, hE, hK⟩
  | _, _, E, E', K, K', .cons (a := a) (b := b) (l₁ := row) (l₂ := row') ha hs, hE, hK => by
    obtain ⟨Et, Kt⟩ := a
    obtain ⟨Et', Kt'⟩ := b
    rw [gridRow, Protocol.gridRow]
    refine (Ref.lift (isogenyA_ref ha.1 ha.2 (.some hK))).bind fun r r' hr => ?_
    cases hr with
    | none => exact Ref.ub
    | some hr =>
      rename_i s s'
      obtain ⟨E1, Q1, R1⟩ := s
      obtain ⟨E1', Q1', R1'⟩ := s'
      obtain ⟨h1, h2, h3⟩ := hr
      cases h2 with
      | none => exact Ref.ub
      | some h2 =>
        refine (isogenyB_ref false hE hK (.some ha.2)).bind fun r r' hr => ?_
        cases hr with
        | none => exact Ref.ub
        | some hr =>
          rename_i s s'
          obtain ⟨E2, Q2, R2⟩ := s
          obtain ⟨E2', Q2', R2'⟩ := s'
          obtain ⟨g1, g2, g3⟩ := hr
          cases g2 with
          | none => exact Ref.ub
          | some g2 =>
            exact (gridRow_ref hs h1 h2).bind fun _ _ h => Ref.pure ⟨.cons ⟨g1, g2⟩ h.1, h.2⟩

theorem gridLoop_ref : ∀ {rows : List (Crv F2 × Pt F2)} {rows' : List (Crv l.F × Pt l.F)} {bottom : List (Crv F2 × Pt F2)}
    {bottom' : List (Crv l.F × Pt l.F)}, VL (RCP l) rows rows' → VL (RCP l) bottom bottom' →
    Ref l (fun a b => VL (RCP l) a.1 b.1 ∧ VL (RCP l) a.2 b.2) (gridLoop l rows bottom) (Protocol.gridLoop l rows' bottom')
  | _, _, _, _, .nil, hb => Ref.pure ⟨hb, .nil⟩
  | _, _, _, _, .cons (a := a) (b := b) ha hs, hb => by
    obtain ⟨Et, Kt⟩ := a
    obtain ⟨Et', Kt'⟩ := b
    rw [gridLoop, Protocol.gridLoop]
    refine (gridRow_ref hb ha.1 ha.2).bind fun _ _ h => ?_
    exact (gridLoop_ref hs h.1).bind fun _ _ h' => Ref.pure ⟨h'.1, .cons h.2 h'.2⟩

theorem getLast_rel {R : α → β → Prop} : ∀ {as : List α} {bs : List β}, VL R as bs → Option.Rel R as.getLast? bs.getLast?
  | _, _, .nil => .none
  | _, _, .cons h .nil => .some h
  | _, _, .cons _ (.cons h hs) => by
    rw [List.getLast?_cons_cons, List.getLast?_cons_cons]
    exact getLast_rel (.cons h hs)

theorem head_rel {R : α → β → Prop} {as : List α} {bs : List β} (h : VL R as bs) : Option.Rel R as.head? bs.head? := by
  cases h with
  | nil => exact .none
  | cons h _ => exact .some h

theorem zip_rel {R : α → β → Prop} {S : γ → δ → Prop} : ∀ {as : List α} {bs : List β} {cs : List γ} {ds : List δ}, VL R as bs → VL S cs ds →
    VL (fun a b => R a.1 b.1 ∧ S a.2 b.2) (as.zip cs) (bs.zip ds)
  | _, _, _, _, .nil, _ => .nil
  | _, _, _, _, .cons _ _, .nil => .nil
  | _, _, _, _, .cons h hs, .cons g gs => .cons ⟨h, g⟩ (zip_rel hs gs)

theorem lastA_ref {b : List (Crv F2 × Pt F2)} {b' : List (Crv l.F × Pt l.F)} (h : VL (RCP l) b b') :
    Ref l (VC l) (lastA l b) (Protocol.lastA l b') := by
  have hl := getLast_rel h
  unfold lastA Protocol.lastA
  generalize b.getLast? = o at hl ⊢
  generalize b'.getLast? = o' at hl ⊢
  cases hl with
  | none => exact Ref.ub
  | some hl =>
    refine (Ref.lift (isogenyA_ref hl.1 hl.2 .none)).bind fun r r' hr => ?_
    cases hr with
    | none => exact Ref.ub
    | some hr => exact Ref.pure hr.1

theorem lastB_ref {b : List (Crv F2 × Pt F2)} {b' : List (Crv l.F × Pt l.F)} (h : VL (RCP l) b b') :
    Ref l (VC l) (lastB l b) (Protocol.lastB l b') := by
  have hl := getLast_rel h
  unfold lastB Protocol.lastB
  generalize b.getLast? = o at hl ⊢
  generalize b'.getLast? = o' at hl ⊢
  cases hl with
  | none => exact Ref.ub
  | some hl =>
    refine (isogenyB_ref false hl.1 hl.2 .none).bind fun r r' hr => ?_
    cases hr with
    | none => exact Ref.ub
    | some hr => exact Ref.pure hr.1

theorem randomHide_ref (n : ℕ) : Ref l (· = ·) (randomHide n) (Protocol.randomHide l n) := by
  intro t ht
  rw [randomHide, Protocol.randomHide]
  rw [show (fieldTape l t).hide = t.hide from rfl]
  cases t.hide with
  | nil => exact .starved
  | cons r rs =>
    dsimp only
    by_cases h : r.length = n
    · rw [if_pos h, if_pos h]
      exact .ok ⟨rfl, ht, rfl⟩
    · rw [if_neg h, if_neg h]
      exact .starved

/-- Instances -/
structure VIn (l : Level) (v : Inst) (v' : Protocol.Inst l) : Prop where
  r2 : v.r2 = v'.r2
  r3 : v.r3 = v'.r3
  E2 : VC l v.E2 v'.E2
  E3 : VC l v.E3 v'.E3
  left : VCh l v.left v'.left
  bottom : VCh l v.bottom v'.bottom
  right : VCh l v.right v'.right

/-- The strings of a secret have the right lengths. -/
def SecWF (l : Level) (sec : Secret) : Prop := (∀ a ∈ sec.E, a.WF (params l)) ∧ ∀ x ∈ sec.P, x.WF (params l)

theorem curves_list (hm : mem.WF l) {xs : List PFp2} (h : ∀ x ∈ xs, x.WF (params l)) :
    VL (VC l) (xs.map (unpackCurve l mem)) (xs.map fun a => (⟨Protocol.decode l a, 1⟩ : Crv l.F)) := by
  induction xs with
  | nil => exact .nil
  | cons x xs ih =>
    exact .cons (unpackCurve_v hm (h x List.mem_cons_self)) (ih fun y hy => h y (List.mem_cons_of_mem _ hy))

theorem points_list (hm : mem.WF l) {xs : List PFp2} (h : ∀ x ∈ xs, x.WF (params l)) :
    VL (VP l) (xs.map fun x => unpackPoint l (decode l mem x)) (xs.map fun x => Curve.unpackPoint (Protocol.decode l x)) := by
  induction xs with
  | nil => exact .nil
  | cons x xs ih =>
    exact .cons (unpackPoint_ref (decode_v hm (h x List.mem_cons_self))) (ih fun y hy => h y (List.mem_cons_of_mem _ hy))

theorem map_rel {R : α → β → Prop} {S : γ → δ → Prop} {f : α → γ} {g : β → δ} (hf : ∀ a b, R a b → S (f a) (g b)) :
    ∀ {as : List α} {bs : List β}, VL R as bs → VL S (as.map f) (bs.map g)
  | _, _, .nil => .nil
  | _, _, .cons h hs => .cons (hf _ _ h) (map_rel hf hs)

theorem append_rel {R : α → β → Prop} {cs : List α} {ds : List β} (g : VL R cs ds) : ∀ {as : List α} {bs : List β}, VL R as bs →
    VL R (as ++ cs) (bs ++ ds)
  | _, _, .nil => g
  | _, _, .cons h hs => .cons h (append_rel g hs)

theorem instanceM_ref (hm : mem.WF l) {sec : Secret} (hs : SecWF l sec) :
    Ref l (fun a b => VIn l a.1 b.1 ∧ a.2 = b.2) (instanceM l H mem sec) (Protocol.instanceM l H sec) := by
  have hE := curves_list hm hs.1
  have hP := points_list hm hs.2
  unfold instanceM Protocol.instanceM
  dsimp only
  generalize sec.E.map (unpackCurve l mem) = Es at hE ⊢
  generalize (sec.E.map fun a => (⟨Protocol.decode l a, 1⟩ : Crv l.F)) = Es' at hE ⊢
  cases hE with
  | nil => exact Ref.ub
  | cons h0 hr =>
    refine (randomChainB_ref (params l).height h0).bind fun left left' hl => ?_
    refine (gridLoop_ref (zip_rel hl.E hl.P) (zip_rel (.cons h0 hr) hP)).bind fun g g' hg => ?_
    refine (lastA_ref hg.1).bind fun EA EA' hA => ?_
    refine (lastB_ref hg.2).bind fun EB EB' hB => ?_
    have hL := getLast_rel hl.E
    generalize left.E.getLast? = o at hL ⊢
    generalize left'.E.getLast? = o' at hL ⊢
    cases hL with
    | none => exact Ref.ub
    | some hL =>
      refine (randomHide_ref (params l).hide).bind fun r2 _ e2 => ?_
      subst e2
      refine (randomHide_ref (params l).hide).bind fun r3 _ e3 => ?_
      subst e3
      rw [encJ_ref hL, encJ_ref hB]
      exact Ref.pure ⟨⟨rfl, rfl, hL, hB, hl, ⟨append_rel (.cons hA .nil) (map_rel (fun _ _ h => h.1) hg.1), map_rel (fun _ _ h => h.2) hg.1⟩,
        ⟨append_rel (.cons hB .nil) (map_rel (fun _ _ h => h.1) hg.2), map_rel (fun _ _ h => h.2) hg.2⟩⟩, rfl⟩

theorem packResponse_ref (hm : mem.WF l) (which : Int) {v : Inst} {v' : Protocol.Inst l} (hv : VIn l v v') (c : Comm) :
    Ref l (· = ·) (packResponse l mem which v c) (Protocol.packResponse l which v' c) := by
  rw [packResponse, Protocol.packResponse]
  refine Ref.ite Iff.rfl (fun _ => ?_) fun _ => Ref.ite Iff.rfl (fun _ => ?_) fun _ => Ref.ite Iff.rfl (fun _ => ?_) fun _ => Ref.ub
  · refine (packChainB_ref hv.left.E hv.left.P).bind fun xs xs' hx => ?_
    rw [encode_list hx, hv.r2]
    exact Ref.pure rfl
  · refine (Ref.lift (packCurve_ref hv.E2)).bind fun a a' ha => ?_
    refine (packChainA_ref hm.scalar hv.bottom.E hv.bottom.P).bind fun xs xs' hx => ?_
    rw [encode_list hx, encode_n ha, hv.r2, hv.r3]
    exact Ref.pure rfl
  · refine (packChainB_ref hv.right.E hv.right.P).bind fun xs xs' hx => ?_
    rw [encode_list hx, hv.r3]
    exact Ref.pure rfl

theorem generate_ref (hm : mem.WF l) {E0 : PFp2} (h : E0.WF (params l)) :
    Ref l (· = ·) (generate l mem E0) (Protocol.generate l pmem E0) := by
  rw [generate, Protocol.generate]
  refine (checkedCurve_ref hm h).bind fun _ _ h' => ?_
  subst h'
  refine Ref.ite Iff.rfl (fun _ => Ref.pure rfl) fun _ => ?_
  refine (randomChainA_ref (params l).width (unpackCurve_v hm h)).bind fun c c' hc => ?_
  have e1 : ∀ {as : List (Crv F2)} {bs : List (Crv l.F)}, VL (VC l) as bs →
      (as.map fun E => encode l (div l E.A E.C)) = bs.map fun E => Protocol.encode l (Curve.fp2div E.A E.C) := by
    intro as bs h
    induction h with
    | nil => rfl
    | cons h _ ih => rw [List.map_cons, List.map_cons, encode_v h.div, ih]
  have e2 : ∀ {as : List (Pt F2)} {bs : List (Pt l.F)}, VL (VP l) as bs →
      (as.map fun P => encode l (div l P.X P.Z)) = bs.map fun P => Protocol.encode l (Curve.fp2div P.X P.Z) := by
    intro as bs h
    induction h with
    | nil => rfl
    | cons h _ ih =>
      rw [List.map_cons, List.map_cons, encode_v ((h.X.mono (show 2 ≤ 4 by norm_num)).divN h.Z), ih]
  rw [e1 hc.E, e2 hc.P]
  exact Ref.pure rfl

theorem instances_ref (hm : mem.WF l) {sec : Secret} (hs : SecWF l sec) : ∀ n,
    Ref l (VL fun a b => VIn l a.1 b.1 ∧ a.2 = b.2) (instances l H mem sec n) (Protocol.instances l H sec n)
  | 0 => Ref.pure .nil
  | n + 1 => by
    rw [instances, Protocol.instances]
    exact (instanceM_ref hm hs).bind fun _ _ h => (instances_ref hm hs n).bind fun _ _ h' => Ref.pure (.cons h h')

theorem packAll_ref (hm : mem.WF l) : ∀ {chs : List Int} {vs : List (Inst × Comm)} {vs' : List (Protocol.Inst l × Comm)},
    VL (fun a b => VIn l a.1 b.1 ∧ a.2 = b.2) vs vs' → Ref l (· = ·) (packAll l mem chs vs) (Protocol.packAll l chs vs')
  | [], _, _, _ => Ref.pure rfl
  | _ :: _, _, _, .nil => Ref.pure rfl
  | ch :: chs, _, _, .cons (a := a) (b := b) h hs => by
    obtain ⟨v, c⟩ := a
    obtain ⟨v', c'⟩ := b
    obtain ⟨h, e⟩ := h
    subst e
    rw [packAll, Protocol.packAll]
    refine (packResponse_ref hm ch h c).bind fun _ _ e => ?_
    subst e
    refine (packAll_ref hm hs).bind fun _ _ e => ?_
    subst e
    exact Ref.pure rfl

theorem prove_ref (hm : mem.WF l) (hc : mem.challs = pmem.challs) (fuel : ℕ) {sec : Secret} (hs : SecWF l sec) :
    Ref l (· = ·) (prove l H mem fuel sec) (Protocol.prove l H pmem fuel sec) := by
  unfold prove Protocol.prove
  cases h0 : sec.E.head? with
  | none => exact Ref.ub
  | some a0 =>
    cases h1 : sec.E.getLast? with
    | none => exact Ref.ub
    | some a1 =>
      have w0 := unpackCurve_v hm (hs.1 a0 (List.mem_of_head? h0))
      have w1 := unpackCurve_v hm (hs.1 a1 (List.mem_of_getLast? h1))
      dsimp only
      refine (instances_ref hm hs _).bind fun vs vs' hv => ?_
      have e : vs.map Prod.snd = vs'.map Prod.snd := by
        induction hv with
        | nil => rfl
        | cons h _ ih => rw [List.map_cons, List.map_cons, h.2, ih]
      rw [encJ_ref w0, encJ_ref w1, e]
      refine (challengeM_ref hc fuel _ _ _).bind fun ch _ e => ?_
      subst e
      refine (Ref.lift (packCurve_ref w0)).bind fun e0 e0' he0 => ?_
      refine (Ref.lift (packCurve_ref w1)).bind fun e1 e1' he1 => ?_
      refine (packAll_ref hm hv).bind fun r _ e => ?_
      subst e
      rw [encode_n he0, encode_n he1]
      exact Ref.pure rfl

end Secuer.WProtocol
