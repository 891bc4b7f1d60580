import Verif.Sage.Sound
import Verif.Sage.Read
import Verif.Props.SageProps

/-!
# C72, C73: the verdict of the Sage verifier
-/

namespace Secuer.SageVerifyProps

open Secuer.Protocol Secuer.Curve Secuer.Mont Secuer.Field Secuer.Text Secuer.Scalar Secuer.ChainProps Secuer.CurveProps
open Secuer.ProtocolProps Secuer.CliProps Secuer.Sage
open Secuer.Cli (parsed)
open Secuer.Text.Spec (proofText)
open Secuer.Challenge.Spec (tritStream firstBlocks)

variable {l : Level}

/-! ### Specification -/

/-- Sage's `set_order` never accepts a wrong order. (It multiplies random points, so this holds up to a small probability.) -/
def ExactOrder (lib : Lib l) : Prop := ∀ a : l.F, a ^ 2 ≠ 4 → lib.order a = true → RightOrder l a

/-- No step of the chain but the first starts from a curve with j-invariant 0 or 1728. -/
def Regular (lib : Lib l) (a₀ a₁ : l.F) : SResp l → Prop
  | .left _ _ xs => ∀ c ∈ (stops lib (3 ^ l.iso.e3) xs a₀).tail, Ordinary c
  | .bottom _ _ a₂ xs => ∀ c ∈ (stops lib (2 ^ l.iso.e2) xs a₂).tail, Ordinary c
  | .right _ _ xs => ∀ c ∈ (stops lib (3 ^ l.iso.e3) xs a₁).tail, Ordinary c

/-- What a response with tag `t` shows if the pair of hashes `h` belongs to it: the hash is the commitment to the end of an
isogeny with cyclic kernel of the right order between curves of the right order; the other hash is any string, for `t = ±1`. -/
def SOpens (H : Hash) (a₀ a₁ : l.F) (t : Int) (h : Bytes × Bytes) : Prop :=
  (t = -1 ∧ ∃ r2 a₂, h.1 = H.out 32 (commitBytes l r2 a₂) ∧ RightOrder l a₂ ∧
    CyclicIsogeny l (3 ^ (l.iso.e3 * (params l).height)) a₀ a₂) ∨
  (t = 0 ∧ ∃ r2 r3 a₂ a₃, h.1 = H.out 32 (commitBytes l r2 a₂) ∧ h.2 = H.out 32 (commitBytes l r3 a₃) ∧ RightOrder l a₂ ∧
    RightOrder l a₃ ∧ CyclicIsogeny l (2 ^ (l.iso.e2 * (params l).width)) a₂ a₃) ∨
  (t = 1 ∧ ∃ r3 a₃, h.2 = H.out 32 (commitBytes l r3 a₃) ∧ RightOrder l a₃ ∧
    CyclicIsogeny l (3 ^ (l.iso.e3 * (params l).height)) a₁ a₃)

/-! ### Lemmas -/

theorem parameters_eq (l : Level) : (parameters l).a = l.iso.e2 ∧ (parameters l).b = l.iso.e3 ∧
    (parameters l).reps = (params l).reps ∧ (parameters l).w = (params l).width ∧ (parameters l).h = (params l).height := by
  cases l <;> exact ⟨rfl, rfl, rfl, rfl, rfl⟩

theorem bind_eq_ok {α β : Type} {r : Res α} {k : α → Res β} {b : β} : r.bind k = .ok b ↔ ∃ a, r = .ok a ∧ k a = .ok b := by
  cases r <;> simp [Res.bind]

theorem curve_eq_ok {lib : Lib l} (hlib : lib.OK) (hx : ExactOrder lib) {a : l.F} : curve lib a = .ok () ↔ RightOrder l a := by
  constructor
  · intro h
    unfold curve at h
    by_cases h4 : a ^ 2 = 4
    · rw [if_pos h4] at h; cases h
    · rw [if_neg h4] at h
      by_cases ho : lib.order a = true
      · exact hx a h4 ho
      · rw [if_neg ho] at h; cases h
  · exact fun h => curve_ok hlib h

theorem hash_reach (hl : l = .l434 ∨ l = .l503) (H : Hash) (r : Bytes) {b : l.F} {E : Crv l.F} (hb : RightOrder l b)
    (hC : E.C ≠ 0) (hs : Super l.φ l.σ l.p (E.A / E.C)) (hj : SameJ b (E.A / E.C)) :
    Protocol.hashHiding l H r (encJ l E) = Sage.hashHiding l H r (jOf b) := by
  have h32 : (params l).hash = 32 := by rcases hl with rfl | rfl <;> rfl
  have hj' : jOf b = jOf (E.A / E.C) := (jOf_eq_iff l.two ((rightOrder_iff l).1 hb).1 hs.1).2 hj
  rw [SageProps.commit_eq, Protocol.hashHiding, commit_bytes l r hC, h32, commitBytes, commitBytes, hj']

/-- What `Unpack_Response` returns when `unpack` comes to `r` -/
def RespMatch (tag : Int) (o : Option (Int × Comm)) : Res (Bytes × Bytes) → Prop
  | .ok h => o = some (tag, ⟨h.1, h.2⟩)
  | .running => False
  | _ => o = none

/-- `unpack` and `Unpack_Response` -/
theorem resp_agree {lib : Lib l} (hlib : lib.OK) (hx : ExactOrder lib) (hl : l = .l434 ∨ l = .l503) (H : Hash) (mem : Mem l)
    {x₀ x₁ : PFp2} (h0 : RightOrder l (decode l x₀)) (h1 : RightOrder l (decode l x₁)) {c : CResp} {q : Resp}
    (hc : c.active = some q) (hq : q.WF (params l)) (hr : Regular lib (decode l x₀) (decode l x₁) (sresp l q)) :
    Ret (unpackResponse l H mem x₀ x₁ c)
      (RespMatch q.tag · (unpackResp lib H (decode l x₀) (decode l x₁) (sresp l q))) := by
  have hph := params_height l
  have hpw := params_width l
  obtain ⟨pa, pb, -, -, -⟩ := parameters_eq l
  have ne : ∀ {L : List PFp2} {n : ℕ}, L.length = n → 0 < n → L.map (decode l) ≠ [] := by
    intro L n h hn h0
    have := congrArg List.length h0
    simp at this
    simp [this] at h
    omega
  cases q with
  | left r2 h3 ch =>
    obtain ⟨e0, e1, e2, e3⟩ := active_left hc
    have wc : ch.length = (params l).height := hq.2.2.1
    unfold unpackResponse
    simp only [e0, e1, e2, e3, show int8 (-1) = -1 from rfl, if_true]
    refine Ret.bind (chainB_agree hlib l.po mem.pts h0 (ne wc hph) hr) ?_
    rintro (_ | E) hm
    · refine Ret.pure ?_
      simp only [sresp, unpackResp, pb]
      revert hm
      cases unpackChain lib (decode l x₀) (ch.map (decode l)) 3 (3 ^ l.iso.e3) with
      | ok b => rintro ⟨_, _, h, _⟩; cases h
      | running => exact False.elim
      | invalid => exact fun _ => rfl
      | crash => exact fun _ => rfl
    · refine Ret.pure ?_
      simp only [sresp, unpackResp, pb]
      revert hm
      cases unpackChain lib (decode l x₀) (ch.map (decode l)) 3 (3 ^ l.iso.e3) with
      | ok b =>
        rintro ⟨hb, _, ⟨⟩, hC, hs, hj⟩
        simp only [Res.bind, RespMatch, hash_reach hl H r2 hb hC hs hj]
        rfl
      | running => exact False.elim
      | invalid => intro h; cases h
      | crash => intro h; cases h
  | bottom r2 r3 x ch =>
    obtain ⟨e0, e1, e2, e3, e4⟩ := active_bottom hc
    have wc : ch.length = (params l).width := hq.2.2.2.1
    unfold unpackResponse
    simp only [e0, e1, e2, e3, e4, show int8 0 = 0 from rfl, if_true, show (0 : Int) ≠ -1 by decide, if_false]
    refine Ret.bind (checkedCurve_ret l mem x).2 ?_
    rintro (_ | _) hb
    · simp only [if_true]
      refine Ret.pure ?_
      have : ¬ RightOrder l (decode l x) := fun h => by
        have := hb.2 ((rightOrder_iff l).1 h)
        cases this
      simp only [sresp, unpackResp]
      rw [show curve lib (decode l x) = .crash by
        unfold curve
        by_cases h4 : decode l x ^ 2 = 4
        · rw [if_pos h4]
        · rw [if_neg h4, if_neg fun ho => this (hx _ h4 ho)]]
      rfl
    · simp only [Bool.true_eq_false, if_false]
      have h2 : RightOrder l (decode l x) := (rightOrder_iff l).2 (hb.1 rfl)
      refine Ret.bind (chainA_agree hlib l.po mem.pts h2 (ne wc hpw) hr) ?_
      rintro (_ | E) hm
      · refine Ret.pure ?_
        simp only [sresp, unpackResp, pa, curve_ok hlib h2]
        revert hm
        cases unpackChain lib (decode l x) (ch.map (decode l)) 2 (2 ^ l.iso.e2) with
        | ok b => rintro ⟨_, _, h, _⟩; cases h
        | running => exact False.elim
        | invalid => exact fun _ => rfl
        | crash => exact fun _ => rfl
      · refine Ret.pure ?_
        simp only [sresp, unpackResp, pa, curve_ok hlib h2]
        revert hm
        cases unpackChain lib (decode l x) (ch.map (decode l)) 2 (2 ^ l.iso.e2) with
        | ok b =>
          rintro ⟨hb, _, ⟨⟩, hC, hs, hj⟩
          have e := hash_reach (E := ⟨decode l x, 1⟩) hl H r2 h2 one_ne_zero (by rw [div_one]; exact (rightOrder_iff l).1 h2)
            (by rw [div_one]; rfl)
          simp only [Res.bind, RespMatch, hash_reach hl H r3 hb hC hs hj, e]
          rfl
        | running => exact False.elim
        | invalid => intro h; cases h
        | crash => intro h; cases h
  | right h2 r3 ch =>
    obtain ⟨e0, e1, e2, e3⟩ := active_right hc
    have wc : ch.length = (params l).height := hq.2.2.1
    unfold unpackResponse
    simp only [e0, e1, e2, e3, show int8 1 = 1 from rfl, if_true, show (1 : Int) ≠ -1 by decide,
      show (1 : Int) ≠ 0 by decide, if_false]
    refine Ret.bind (chainB_agree hlib l.po mem.pts h1 (ne wc hph) hr) ?_
    rintro (_ | E) hm
    · refine Ret.pure ?_
      simp only [sresp, unpackResp, pb]
      revert hm
      cases unpackChain lib (decode l x₁) (ch.map (decode l)) 3 (3 ^ l.iso.e3) with
      | ok b => rintro ⟨_, _, h, _⟩; cases h
      | running => exact False.elim
      | invalid => exact fun _ => rfl
      | crash => exact fun _ => rfl
    · refine Ret.pure ?_
      simp only [sresp, unpackResp, pb]
      revert hm
      cases unpackChain lib (decode l x₁) (ch.map (decode l)) 3 (3 ^ l.iso.e3) with
      | ok b =>
        rintro ⟨hb, _, ⟨⟩, hC, hs, hj⟩
        simp only [Res.bind, RespMatch, hash_reach hl H r3 hb hC hs hj]
        rfl
      | running => exact False.elim
      | invalid => intro h; cases h
      | crash => intro h; cases h

theorem firstBlocks_le (b : ℕ → List UInt8) {k m : ℕ} (h : k ≤ m) : ∃ u, firstBlocks b m = firstBlocks b k ++ u := by
  obtain ⟨d, rfl⟩ := Nat.exists_eq_add_of_le h
  exact ⟨_, by rw [firstBlocks, firstBlocks, List.range_add, List.flatMap_append]⟩

/-- The loop of `challenge` finishes with `ts` exactly if these are the challenges. -/
theorem sampler_iff {H : Hash} {input : Bytes} {ts : List Int} :
    (∃ fuel, sampler (params l).reps (firstBlocks (H.block input) fuel) [] = some ts) ↔
      IsChallenge l H input ts ∧ ts.length = (params l).reps := by
  constructor
  · rintro ⟨fuel, h⟩
    rw [SageProps.sampler_eq, List.nil_append] at h
    by_cases hn : (params l).reps ≤ (tritStream (firstBlocks (H.block input) fuel)).length
    · rw [if_pos hn] at h
      injection h with h
      subst h
      refine ⟨⟨fuel, fun m hm => ?_⟩, by rw [List.length_take]; omega⟩
      obtain ⟨u, hu⟩ := firstBlocks_le (H.block input) hm
      rw [hu, Challenge.tritStream_append, List.take_append_of_le_length hn]
    · rw [if_neg hn] at h
      cases h
  · rintro ⟨⟨k, hk⟩, hlen⟩
    have h := hk k le_rfl
    refine ⟨k, ?_⟩
    have hl := congrArg List.length h
    rw [hlen, List.length_take] at hl
    rw [SageProps.sampler_eq, List.nil_append, if_pos (by omega), ← h]

theorem unpackList_ok {lib : Lib l} {H : Hash} {a₀ a₁ : l.F} : ∀ {rs : List (SResp l)} {hs : List (Bytes × Bytes)},
    unpackList lib H a₀ a₁ rs = .ok hs ↔ List.Forall₂ (fun r h => unpackResp lib H a₀ a₁ r = .ok h) rs hs
  | [], hs => by
    unfold unpackList
    constructor
    · intro h; cases h; exact .nil
    · intro h; cases h; rfl
  | r :: rs, hs => by
    unfold unpackList
    simp only [bind_eq_ok]
    constructor
    · rintro ⟨h, h1, hs', h2, ⟨⟩⟩
      exact .cons h1 (unpackList_ok.1 h2)
    · intro h
      cases h with
      | cons h1 h2 => exact ⟨_, h1, _, unpackList_ok.2 h2, rfl⟩

theorem verify_accepts {lib : Lib l} (hlib : lib.OK) {H : Hash} {prf : SProof l}
    (hn : prf.responses.length = (params l).reps) (h0 : RightOrder l prf.E0) (h1 : RightOrder l prf.E1)
    (ht : prf.tags.length = (params l).reps) {hs : List (Bytes × Bytes)}
    (h : List.Forall₂ (fun r h => unpackResp lib H prf.E0 prf.E1 r = .ok h) prf.responses hs)
    (hc : IsChallenge l H (challengeBytes l prf.E0 prf.E1 hs) prf.tags) :
    ∃ fuel, Sage.verify lib H fuel prf = .ok (prf.E0, prf.E1) := by
  unfold Sage.verify challenge
  simp only [bind_eq_ok, unpackList_ok]
  have hlen : hs.length = (params l).reps := by rw [← h.length_eq, hn]
  rw [← SageProps.input_eq] at hc
  obtain ⟨fuel, hf⟩ := sampler_iff.2 ⟨hc, ht⟩
  refine ⟨fuel, hs, h, prf.tags, ⟨(), curve_ok hlib h0, (), curve_ok hlib h1, ?_⟩, if_pos rfl⟩
  rw [hlen, hf]

/-- When `verify` accepts -/
theorem verify_ok {lib : Lib l} (hlib : lib.OK) (hx : ExactOrder lib) {H : Hash} {prf : SProof l}
    (hn : prf.responses.length = (params l).reps) {v : l.F × l.F} :
    (∃ fuel, Sage.verify lib H fuel prf = .ok v) ↔ v = (prf.E0, prf.E1) ∧ RightOrder l prf.E0 ∧ RightOrder l prf.E1 ∧
      prf.tags.length = (params l).reps ∧
      ∃ hs, List.Forall₂ (fun r h => unpackResp lib H prf.E0 prf.E1 r = .ok h) prf.responses hs ∧
        IsChallenge l H (challengeBytes l prf.E0 prf.E1 hs) prf.tags := by
  unfold Sage.verify challenge
  simp only [bind_eq_ok, unpackList_ok]
  constructor
  · rintro ⟨fuel, hs, h, ts, ⟨_, h0, _, h1, hts⟩, hv⟩
    have hlen : hs.length = (params l).reps := by rw [← h.length_eq, hn]
    rw [hlen] at hts
    by_cases e : ts = prf.tags
    · rw [if_pos e] at hv
      injection hv with hv
      subst e
      have : ∃ fuel, sampler (params l).reps (firstBlocks (H.block (Sage.challengeInput l prf.E0 prf.E1 hs)) fuel) [] =
          some prf.tags := by
        refine ⟨fuel, ?_⟩
        revert hts
        cases sampler (params l).reps (firstBlocks (H.block (Sage.challengeInput l prf.E0 prf.E1 hs)) fuel) [] with
        | none => intro h; cases h
        | some ts => intro h; cases h; rfl
      rw [sampler_iff, SageProps.input_eq] at this
      exact ⟨hv.symm, (curve_eq_ok hlib hx).1 h0, (curve_eq_ok hlib hx).1 h1, this.2, hs, h, this.1⟩
    · rw [if_neg e] at hv
      cases hv
  · rintro ⟨rfl, h0, h1, ht, hs, h, hc⟩
    have := verify_accepts hlib hn h0 h1 ht h hc
    unfold Sage.verify challenge at this
    simpa only [bind_eq_ok, unpackList_ok] using this

/-! ### C72: the Sage verifier and the C verifier -/

theorem list_agree {lib : Lib l} (hlib : lib.OK) (hx : ExactOrder lib) (hl : l = .l434 ∨ l = .l503) (H : Hash) {x₀ x₁ : PFp2}
    (h0 : RightOrder l (decode l x₀)) (h1 : RightOrder l (decode l x₁)) : ∀ {cs : List CResp} {rs : List Resp},
    cs.map CResp.active = rs.map some → (∀ c ∈ cs, c.WF (params l)) → (∀ r ∈ rs, r.WF (params l)) →
    (∀ r ∈ rs, Regular lib (decode l x₀) (decode l x₁) (sresp l r)) → ∀ (_ : Mem l) (P : List (Bytes × Bytes) → List Int → Prop),
    (∃ hs, List.Forall₂ (fun r h => unpackResp lib H (decode l x₀) (decode l x₁) r = .ok h) (rs.map (sresp l)) hs ∧
        P hs (rs.map Resp.tag)) ↔
      ∃ os : List (Int × Comm), List.Forall₂ (fun r o => ∃ mem, Possible l (unpackResponse l H mem x₀ x₁ r) (some o)) cs os ∧
        P (os.map fun o => (o.2.h2, o.2.h3)) (os.map Prod.fst)
  | [], [], _, _, _, _, mem, P => by
    constructor
    · rintro ⟨hs, h, hp⟩
      cases h
      exact ⟨[], .nil, hp⟩
    · rintro ⟨os, h, hp⟩
      cases h
      exact ⟨[], .nil, hp⟩
  | [], _ :: _, h, _, _, _, _, _ => by cases h
  | _ :: _, [], h, _, _, _, _, _ => by cases h
  | c :: cs, r :: rs, h, hc, hr, hg, mem, P => by
    simp only [List.map_cons, List.cons.injEq] at h
    have ha := resp_agree hlib hx hl H mem h0 h1 h.1 (hr r (by simp)) (hg r (by simp))
    obtain ⟨s, o, -, hs⟩ := unpackResponse_total l H mem ((rightOrder_iff l).1 h0) ((rightOrder_iff l).1 h1) (hc c (by simp))
    have ho := ha _ _ _ (hs ⟨[], [], []⟩)
    have hposs : Possible l (unpackResponse l H mem x₀ x₁ c) o := ⟨_, _, hs ⟨[], [], []⟩⟩
    have ih := fun P => list_agree hlib hx hl H h0 h1 h.2 (fun c h => hc c (by simp [h])) (fun r h => hr r (by simp [h]))
      (fun r h => hg r (by simp [h])) mem P
    constructor
    · rintro ⟨hs, hf, hp⟩
      cases hf with
      | @cons _ g _ gs hg' hf =>
        rw [hg'] at ho
        simp only [RespMatch] at ho
        subst ho
        obtain ⟨os, hos, hp⟩ := (ih fun hs ts => P (g :: hs) (r.tag :: ts)).1 ⟨gs, hf, hp⟩
        exact ⟨_ :: os, .cons ⟨mem, hposs⟩ hos, hp⟩
    · rintro ⟨os, hf, hp⟩
      cases hf with
      | @cons _ o' _ os hm hf =>
        obtain ⟨mem', hm⟩ := hm
        have e := possible_unique l H h0 h1 hposs hm
        subst e
        revert ho
        cases hu : unpackResp lib H (decode l x₀) (decode l x₁) (sresp l r) with
        | ok g =>
          intro ho
          simp only [RespMatch, Option.some.injEq] at ho
          subst ho
          obtain ⟨gs, hgs, hp⟩ := (ih fun hs ts => P (g :: hs) (r.tag :: ts)).2 ⟨os, hf, hp⟩
          exact ⟨g :: gs, .cons hu hgs, hp⟩
        | running => exact False.elim
        | invalid => intro h; cases h
        | crash => intro h; cases h

theorem exists_holds {p : Proof} (hp : p.WF (params l)) : ∃ q : CProof, Holds p q ∧ q.WF (params l) :=
  ⟨parsed (exWorld l).old p, parsed_holds (by rw [(exWorld_fresh l).old, hp.2.2.1]),
    parsed_wf (exWorld_fresh l).old (exWorld_fresh l).wf hp⟩

/-- **C72.** For 434 and 503, and a library doing what is assumed of it: on a well-formed proof none of whose chains goes
through a curve with j-invariant 0 or 1728, the Sage verifier accepts exactly if the C verifier does. -/
theorem C72_same_verdict {lib : Lib l} (hlib : lib.OK) (hx : ExactOrder lib) (hl : l = .l434 ∨ l = .l503) (H : Hash) {p : Proof}
    (hp : p.WF (params l)) (hg : ∀ r ∈ p.resp, Regular lib (decode l p.E0) (decode l p.E1) (sresp l r)) (v : l.F × l.F) :
    (∃ fuel, Sage.verify lib H fuel (sproof l p) = .ok v) ↔ v = (decode l p.E0, decode l p.E1) ∧ ValidProof l H p := by
  obtain ⟨q, hq, hw⟩ := exists_holds hp
  have hlen : (sproof l p).responses.length = (params l).reps := by simp [sproof, hp.2.2.1]
  rw [verify_ok hlib hx hlen, validProof_iff l H hq]
  unfold Valid
  rw [hq.1, hq.2.1]
  constructor
  · rintro ⟨hv, h0, h1, -, h⟩
    exact ⟨hv, h0, h1, (list_agree hlib hx hl H h0 h1 hq.2.2 hw.2.2.2 hp.2.2.2 hg (someMem l) (fun hs ts =>
      IsChallenge l H (challengeBytes l (decode l p.E0) (decode l p.E1) hs) ts)).1 h⟩
  · rintro ⟨hv, h0, h1, h⟩
    exact ⟨hv, h0, h1, by simp [sproof, hp.2.2.1], (list_agree hlib hx hl H h0 h1 hq.2.2 hw.2.2.2 hp.2.2.2 hg (someMem l)
      (fun hs ts => IsChallenge l H (challengeBytes l (decode l p.E0) (decode l p.E1) hs) ts)).2 h⟩

/-- **C72**, from the file to the exit code: on what the prover prints, followed by anything, the two programs read the same
proof, and the Sage script accepts exactly if `Verify` can return true. -/
theorem C72_same_file {lib : Lib l} (hlib : lib.OK) (hx : ExactOrder lib) (hl : l = .l434 ∨ l = .l503) (H : Hash) {p : Proof}
    (hp : p.WF (params l)) (hg : ∀ r ∈ p.resp, Regular lib (decode l p.E0) (decode l p.E1) (sresp l r)) (rest : Bytes)
    {old : List CResp} (ho : old.length = (params l).reps) (hw : ∀ r ∈ old, r.WF (params l)) {mem : Mem l}
    (hm : mem.challs.length = (params l).reps) :
    parse (params l) (proofText p ++ rest) = .ok p (10 :: rest) ∧
    ((∃ fuel, run lib H fuel (proofText p ++ rest) = .ok (decode l p.E0, decode l p.E1)) ↔
      ∃ fuel t t', Protocol.verify l H mem fuel (parsed old p) t = .ok (true, t')) := by
  refine ⟨parse_text (w := []) (params_supported l).pos hp (by simp) rest, ?_⟩
  unfold run
  rw [read_text (readable_of_wf hp)]
  simp only [Res.bind]
  rw [C72_same_verdict hlib hx hl H hp hg, c15_accepts_iff l H mem hm (parsed_wf ho hw hp),
    validProof_iff l H (parsed_holds (by rw [ho, hp.2.2.1]))]
  exact ⟨And.right, fun h => ⟨rfl, h⟩⟩

/-! The hypotheses are met by proofs with responses of every kind: -/

theorem first_bad {lib : Lib l} (hlib : lib.OK) {a : l.F} (ha : RightOrder l a) {d : ℕ} (hd : 2 < d) (xs : List l.F) :
    (stops lib d (0 :: xs) a).tail = [] := by
  unfold stops
  rw [List.tail_cons]
  cases hK : lib.lift a 0 with
  | none => rfl
  | some K =>
    simp only
    rw [if_neg]
    intro ho
    obtain ⟨y, h, rfl⟩ := hlib.lift_some a 0 K ha hK
    have h2 : (2 : ℕ) • (WeierstrassCurve.Affine.Point.some 0 y h : (W a).Point) = 0 := by
      have heq := ((W a).nonsingular_iff 0 y).1 h |>.1
      rw [WeierstrassCurve.Affine.equation_iff] at heq
      have hy : y = 0 := by simpa [W] using heq
      rw [two_nsmul]
      refine WeierstrassCurve.Affine.Point.add_of_Y_eq rfl ?_
      simp [WeierstrassCurve.Affine.negY, W, hy]
    have := Nat.le_of_dvd (by norm_num) (addOrderOf_dvd_of_nsmul_eq_zero h2)
    omega

/-- A proof with responses of every kind whose chains fail at their first steps -/
def exBad (l : Level) : Proof :=
  ⟨encode l 0, encode l 0, (List.range (params l).reps).map fun i =>
    if i % 3 = 0 then .left (List.replicate (params l).hide 7) (List.replicate (params l).hash 255)
      (List.replicate (params l).height (encode l 0))
    else if i % 3 = 1 then .bottom (List.replicate (params l).hide 1) (List.replicate (params l).hide 2) (encode l 0)
      (List.replicate (params l).width (encode l 0))
    else .right (List.replicate (params l).hash 16) (List.replicate (params l).hide 0)
      (List.replicate (params l).height (encode l 0))⟩

theorem exBad_wf : (exBad l).WF (params l) := by
  have hw := Protocol.encode_wf l 0
  have hh : ∀ n, ∀ v ∈ List.replicate n (encode l 0), v.WF (params l) := fun n v hv => by rw [List.eq_of_mem_replicate hv]; exact hw
  refine ⟨hw, hw, by simp [exBad], ?_⟩
  intro r hr
  obtain ⟨i, _, rfl⟩ := List.mem_map.1 hr
  by_cases h0 : i % 3 = 0
  · rw [if_pos h0]; exact ⟨by simp, by simp, by simp, hh _⟩
  · rw [if_neg h0]
    by_cases h1 : i % 3 = 1
    · rw [if_pos h1]; exact ⟨by simp, by simp, hw, by simp, hh _⟩
    · rw [if_neg h1]; exact ⟨by simp, by simp, by simp, hh _⟩

theorem exBad_regular {lib : Lib l} (hlib : lib.OK) (r : Resp) (hr : r ∈ (exBad l).resp) :
    Regular lib (decode l (exBad l).E0) (decode l (exBad l).E1) (sresp l r) := by
  have h3 : 2 < 3 ^ l.iso.e3 := by
    have := (show Deg l 3 l.iso.e3 from Or.inr ⟨rfl, rfl⟩).pos
    calc 2 < 3 ^ 1 := by norm_num
      _ ≤ _ := Nat.pow_le_pow_right (by norm_num) this
  have h2 : 2 < 2 ^ l.iso.e2 := by
    have : 2 ≤ l.iso.e2 := by cases l <;> decide
    calc 2 < 2 ^ 2 := by norm_num
      _ ≤ _ := Nat.pow_le_pow_right (by norm_num) this
  have hz := rightOrder_zero l
  have ex : ∀ {n : ℕ}, 0 < n → ∃ xs, (List.replicate n (encode l 0)).map (decode l) = 0 :: xs := by
    intro n hn
    obtain ⟨m, rfl⟩ := Nat.exists_eq_succ_of_ne_zero hn.ne'
    exact ⟨_, by rw [List.replicate_succ, List.map_cons, decode_encode]⟩
  obtain ⟨xs, hx⟩ := ex (params_height l)
  obtain ⟨ys, hy⟩ := ex (params_width l)
  obtain ⟨i, _, rfl⟩ := List.mem_map.1 hr
  have e : decode l (exBad l).E0 = 0 ∧ decode l (exBad l).E1 = 0 := ⟨decode_encode l 0, decode_encode l 0⟩
  rw [e.1, e.2]
  by_cases h0 : i % 3 = 0
  · rw [if_pos h0]
    simp only [sresp, Regular, hx]
    rw [first_bad hlib hz h3]
    simp
  · rw [if_neg h0]
    by_cases h1 : i % 3 = 1
    · rw [if_pos h1]
      simp only [sresp, Regular, hy, decode_encode]
      rw [first_bad hlib hz h2]
      simp
    · rw [if_neg h1]
      simp only [sresp, Regular, hx]
      rw [first_bad hlib hz h3]
      simp

example : (someLib l).OK ∧ ExactOrder (someLib l) ∧ (exBad l).WF (params l) ∧
    (∀ r ∈ (exBad l).resp, Regular (someLib l) (decode l (exBad l).E0) (decode l (exBad l).E1) (sresp l r)) ∧
    (exWorld l).old.length = (params l).reps ∧ (∀ r ∈ (exWorld l).old, r.WF (params l)) ∧
    (someMem l).challs.length = (params l).reps :=
  ⟨someLib_ok, fun a _ h => someLib_exact a h, exBad_wf, exBad_regular someLib_ok, (exWorld_fresh l).old, (exWorld_fresh l).wf,
    someMem_challs l⟩

/-! ### C73: what the Sage verifier proves -/

/-- The tag and the length of the chain of a response -/
def Shape (t : Int) : SResp l → Prop
  | .left _ _ xs => t = -1 ∧ xs.length = (parameters l).h
  | .bottom _ _ _ xs => t = 0 ∧ xs.length = (parameters l).w
  | .right _ _ xs => t = 1 ∧ xs.length = (parameters l).h

theorem readElements_length : ∀ {n : ℕ} {ss ss' : List Bytes} {vs : List l.F}, readElements l n ss = .ok (vs, ss') → vs.length = n
  | 0, ss, ss', vs, h => by cases h; rfl
  | n + 1, ss, ss', vs, h => by
    unfold readElements at h
    simp only [bind_eq_ok] at h
    obtain ⟨⟨v, s1⟩, -, ⟨vs, s2⟩, h, ⟨⟩⟩ := h
    rw [List.length_cons, readElements_length h]

theorem readResp_shape {t : Int} {ss ss' : List Bytes} {r : SResp l} (h : readResp l t ss = .ok (r, ss')) : Shape t r := by
  unfold readResp at h
  by_cases h1 : t = -1
  · rw [if_pos h1] at h
    simp only [bind_eq_ok] at h
    obtain ⟨⟨_, _⟩, -, ⟨_, _⟩, -, ⟨xs, _⟩, h, ⟨⟩⟩ := h
    exact ⟨h1, readElements_length h⟩
  rw [if_neg h1] at h
  by_cases h2 : t = 0
  · rw [if_pos h2] at h
    simp only [bind_eq_ok] at h
    obtain ⟨⟨_, _⟩, -, ⟨_, _⟩, -, ⟨_, _⟩, -, ⟨xs, _⟩, h, ⟨⟩⟩ := h
    exact ⟨h2, readElements_length h⟩
  rw [if_neg h2] at h
  by_cases h3 : t = 1
  · rw [if_pos h3] at h
    simp only [bind_eq_ok] at h
    obtain ⟨⟨_, _⟩, -, ⟨_, _⟩, -, ⟨xs, _⟩, h, ⟨⟩⟩ := h
    exact ⟨h3, readElements_length h⟩
  rw [if_neg h3] at h
  cases h

theorem readResps_shape : ∀ {n : ℕ} {ss ss' : List Bytes} {ts : List Int} {rs : List (SResp l)},
    readResps l n ss = .ok ((ts, rs), ss') → rs.length = n ∧ List.Forall₂ Shape ts rs
  | 0, ss, ss', ts, rs, h => by cases h; exact ⟨rfl, .nil⟩
  | n + 1, ss, ss', ts, rs, h => by
    unfold readResps at h
    simp only [bind_eq_ok] at h
    obtain ⟨⟨t, s1⟩, -, ⟨r, s2⟩, hr, ⟨⟨ts, rs⟩, s3⟩, h, ⟨⟩⟩ := h
    obtain ⟨hn, hf⟩ := readResps_shape h
    exact ⟨by rw [List.length_cons, hn], .cons (readResp_shape hr) hf⟩

theorem resp_sound {lib : Lib l} (hlib : lib.OK) (hx : ExactOrder lib) {H : Hash} {a₀ a₁ : l.F} (h0 : RightOrder l a₀)
    (h1 : RightOrder l a₁) {t : Int} {r : SResp l} {h : Bytes × Bytes} (hs : Shape t r) (hu : unpackResp lib H a₀ a₁ r = .ok h) :
    SOpens H a₀ a₁ t h := by
  obtain ⟨pa, pb, -, pw, ph⟩ := parameters_eq l
  have hB : Deg l 3 l.iso.e3 := Or.inr ⟨rfl, rfl⟩
  have hA : Deg l 2 l.iso.e2 := Or.inl ⟨rfl, rfl⟩
  cases r with
  | left r2 h3 xs =>
    obtain ⟨ht, hn⟩ := hs
    simp only [unpackResp, bind_eq_ok, pb] at hu
    obtain ⟨b, hb, ⟨⟩⟩ := hu
    obtain ⟨ho, hi⟩ := chain_sound hlib h0 hB hb
    rw [hn, ph] at hi
    exact Or.inl ⟨ht, r2, b, SageProps.commit_eq l H r2 b, ho, hi⟩
  | bottom r2 r3 a₂ xs =>
    obtain ⟨ht, hn⟩ := hs
    simp only [unpackResp, bind_eq_ok, pa] at hu
    obtain ⟨_, hc, b, hb, ⟨⟩⟩ := hu
    have h2 := (curve_eq_ok hlib hx).1 hc
    obtain ⟨ho, hi⟩ := chain_sound hlib h2 hA hb
    rw [hn, pw] at hi
    exact Or.inr (Or.inl ⟨ht, r2, r3, a₂, b, SageProps.commit_eq l H r2 a₂, SageProps.commit_eq l H r3 b, h2, ho, hi⟩)
  | right h2 r3 xs =>
    obtain ⟨ht, hn⟩ := hs
    simp only [unpackResp, bind_eq_ok, pb] at hu
    obtain ⟨b, hb, ⟨⟩⟩ := hu
    obtain ⟨ho, hi⟩ := chain_sound hlib h1 hB hb
    rw [hn, ph] at hi
    exact Or.inr (Or.inr ⟨ht, r3, b, SageProps.commit_eq l H r3 b, ho, hi⟩)

/-- **C73.** Whatever is on standard input: if the Sage verifier exits with code 0, the printed curves have the right order, and
there are as many pairs of hashes as there are repetitions, each of them belonging to an isogeny with cyclic kernel of the right
order, such that the kinds of the isogenies are the challenges derived from the curves and these hashes. -/
theorem C73_sage_sound {lib : Lib l} (hlib : lib.OK) (hx : ExactOrder lib) {H : Hash} {fuel : ℕ} {stdin : Bytes} {a₀ a₁ : l.F}
    (h : run lib H fuel stdin = .ok (a₀, a₁)) : RightOrder l a₀ ∧ RightOrder l a₁ ∧ ∃ os : List (Int × Bytes × Bytes),
      os.length = (params l).reps ∧ (∀ o ∈ os, SOpens H a₀ a₁ o.1 o.2) ∧
      IsChallenge l H (challengeBytes l a₀ a₁ (os.map Prod.snd)) (os.map Prod.fst) := by
  unfold run at h
  rw [bind_eq_ok] at h
  obtain ⟨⟨prf, ss⟩, hr, hv⟩ := h
  unfold Sage.read at hr
  simp only [bind_eq_ok] at hr
  obtain ⟨⟨E0, s1⟩, -, ⟨E1, s2⟩, -, ⟨⟨ts, rs⟩, s3⟩, hr, ⟨⟩⟩ := hr
  obtain ⟨hn, hshape⟩ := readResps_shape hr
  rw [(parameters_eq l).2.2.1] at hn
  obtain ⟨he, h0, h1, ht, hs, hf, hc⟩ := (verify_ok hlib hx hn).1 ⟨fuel, hv⟩
  dsimp only at he h0 h1 ht hf hc
  cases he
  refine ⟨h0, h1, ts.zip hs, ?_, ?_, ?_⟩
  · rw [List.length_zip, ht, ← hf.length_eq, hn, min_self]
  · clear hc hv hr hn ht
    induction hshape generalizing hs with
    | nil => simp
    | cons a _ ih =>
      cases hf with
      | cons b hf =>
        intro o ho
        rw [List.zip_cons_cons, List.mem_cons] at ho
        rcases ho with rfl | ho
        · exact resp_sound hlib hx h0 h1 a b
        · exact ih _ hf o ho
  · have hl : ts.length = hs.length := by rw [ht, ← hf.length_eq, hn]
    rw [List.map_snd_zip (by omega), List.map_fst_zip (by omega)]
    exact hc

end Secuer.SageVerifyProps
