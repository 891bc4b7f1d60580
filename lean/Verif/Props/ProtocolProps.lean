import Verif.Protocol.Verdict
import Verif.Protocol.Runs
import Verif.Props.ThreadProps
import Verif.Props.TextProps

/-!
# Properties C12, C15, C19-C23, C62: the verifier and what is hashed

`H` stands for SHAKE256 and is an arbitrary function in all statements. `mem` is the contents of uninitialised memory,
`fuel` the number of blocks for which `Challenge` is observed, `t` the random values drawn.
-/

namespace Secuer.ProtocolProps

open Secuer.Protocol Secuer.Curve Secuer.Mont Secuer.Field Secuer.Text Secuer.Scalar Secuer.ChainProps Secuer.CurveProps
open Secuer.Challenge (Spec.Trit Spec.tritStream Spec.firstBlocks)

variable (l : Level)

/-! ### Specification -/

/-- Little-endian bytes of the two coordinates of an element of `GF(p²)`. -/
def fieldBytes (v : l.F) : Bytes := leBytes (params l).fpBytes v.re.val ++ leBytes (params l).fpBytes v.im.val

/-- What is hashed to commit to the isomorphism class of the curve `a`. -/
def commitBytes (r : Bytes) (a : l.F) : Bytes := 2 :: (r ++ fieldBytes l (jOf a))

/-- What is hashed to get the challenge. -/
def challengeBytes (a₀ a₁ : l.F) (hs : List (Bytes × Bytes)) : Bytes :=
  1 :: (fieldBytes l (jOf a₀) ++ fieldBytes l (jOf a₁) ++ (hs.map fun c => c.1 ++ c.2).flatten)

/-- The response `r` opens the commitment `c` for the challenge `ch`: it contains an isogeny with cyclic kernel of the
right order between curves of the right order, and its ends are the committed ones. -/
inductive Opens (H : Hash) (a₀ a₁ : l.F) (r : CResp) : Int × Comm → Prop
  | left (a₂ : l.F) (ht : r.tag % 256 = 255) (ho : RightOrder l a₂)
      (hi : CyclicIsogeny l (3 ^ (l.iso.e3 * (params l).height)) a₀ a₂) :
      Opens H a₀ a₁ r (-1, ⟨H.out (params l).hash (commitBytes l r.leftR2 a₂), r.leftH3⟩)
  | bottom (a₂ a₃ : l.F) (ht : r.tag % 256 = 0) (hd : decode l r.bottomE2 = a₂) (ho : RightOrder l a₂) (ho' : RightOrder l a₃)
      (hi : CyclicIsogeny l (2 ^ (l.iso.e2 * (params l).width)) a₂ a₃) :
      Opens H a₀ a₁ r (0, ⟨H.out (params l).hash (commitBytes l r.bottomR2 a₂),
        H.out (params l).hash (commitBytes l r.bottomR3 a₃)⟩)
  | right (a₃ : l.F) (ht : r.tag % 256 = 1) (ho : RightOrder l a₃)
      (hi : CyclicIsogeny l (3 ^ (l.iso.e3 * (params l).height)) a₁ a₃) :
      Opens H a₀ a₁ r (1, ⟨r.rightH2, H.out (params l).hash (commitBytes l r.rightR3 a₃)⟩)

/-- `ts` are the first values among -1, 0, 1 carried by the output of the XOF on `input`. -/
def IsChallenge (H : Hash) (input : Bytes) (ts : List Int) : Prop :=
  ∃ k, ∀ m, k ≤ m → ts = (Spec.tritStream (Spec.firstBlocks (H.block input) m)).take (params l).reps

/-- The computation can return `a`. -/
def Possible {α : Type} (m : M l.F α) (a : α) : Prop := ∃ t t', m t = .ok (a, t')

/-- C15: the two end curves pass, every response unpacks, and the challenge is the list of tags. -/
def Valid (H : Hash) (prf : CProof) : Prop :=
  RightOrder l (decode l prf.E0) ∧ RightOrder l (decode l prf.E1) ∧ ∃ os : List (Int × Comm),
    List.Forall₂ (fun r o => ∃ mem, Possible l (unpackResponse l H mem prf.E0 prf.E1 r) (some o)) prf.resp os ∧
    IsChallenge l H (challengeBytes l (decode l prf.E0) (decode l prf.E1) (os.map fun o => (o.2.h2, o.2.h3)))
      (os.map Prod.fst)

/-! ### The model and the specification -/

theorem encJ_bytes {E : Crv l.F} (hC : E.C ≠ 0) : flat (encJ l E) = fieldBytes l (jOf (E.A / E.C)) := by
  unfold encJ
  rw [jInv_jOf l hC]
  rfl

theorem commit_bytes (r : Bytes) {E : Crv l.F} (hC : E.C ≠ 0) : commitInput r (encJ l E) = commitBytes l r (E.A / E.C) := by
  unfold commitInput
  rw [encJ_bytes l hC]
  rfl

theorem challenge_bytes (a₀ a₁ : l.F) (hs : List Comm) : challengeInput (encJ l ⟨a₀, 1⟩) (encJ l ⟨a₁, 1⟩) hs =
    challengeBytes l a₀ a₁ (hs.map fun c => (c.h2, c.h3)) := by
  unfold challengeInput
  rw [encJ_bytes l one_ne_zero, encJ_bytes l one_ne_zero]
  simp only [challengeBytes, div_one, List.map_map, List.flatMap_def]
  rfl

theorem int8_eq {t c : Int} (hc : -128 ≤ c) (hc' : c < 128) : int8 t = c ↔ t % 256 = c % 256 := by
  unfold int8
  rw [Int.bmod_eq_iff (by norm_num)]
  omega

theorem fieldBytes_length (v : l.F) : (fieldBytes l v).length = 2 * (params l).fpBytes := by
  simp only [fieldBytes, List.length_append, leBytes_length]; omega

theorem fieldBytes_inj {v w : l.F} (h : fieldBytes l v = fieldBytes l w) : v = w := by
  unfold fieldBytes at h
  obtain ⟨h1, h2⟩ := List.append_inj h (by rw [leBytes_length, leBytes_length])
  have : encode l v = encode l w := by unfold encode; rw [h1, h2]
  rw [← decode_encode l v, this, decode_encode]

/-! ### C12, C20: what is hashed -/

/-- **C12.** The bytes hashed for a commitment determine the hiding string (its length is fixed) and the j-invariant. -/
theorem c12_commit_injective {r r' : Bytes} {a a' : l.F} (hr : r.length = r'.length)
    (h : commitBytes l r a = commitBytes l r' a') : r = r' ∧ jOf a = jOf a' := by
  unfold commitBytes at h
  obtain ⟨h1, h2⟩ := List.append_inj (List.cons.inj h).2 hr
  exact ⟨h1, fieldBytes_inj l h2⟩

theorem pairs_injective {n : ℕ} (hn : 0 < n) : ∀ {hs hs' : List (Bytes × Bytes)},
    (∀ c ∈ hs, c.1.length = n ∧ c.2.length = n) → (∀ c ∈ hs', c.1.length = n ∧ c.2.length = n) →
    (hs.map fun c => c.1 ++ c.2).flatten = (hs'.map fun c => c.1 ++ c.2).flatten → hs = hs'
  | [], [], _, _, _ => rfl
  | [], c :: cs, _, h', h => by
    have := congrArg List.length h
    have h1 := (h' c (by simp)).1
    simp only [List.map_nil, List.flatten_nil, List.length_nil, List.map_cons, List.flatten_cons, List.length_append] at this
    omega
  | c :: cs, [], h', _, h => by
    have := congrArg List.length h
    have h1 := (h' c (by simp)).1
    simp only [List.map_nil, List.flatten_nil, List.length_nil, List.map_cons, List.flatten_cons, List.length_append] at this
    omega
  | c :: cs, d :: ds, hc, hd, h => by
    simp only [List.map_cons, List.flatten_cons] at h
    have e1 := hc c (by simp)
    have e2 := hd d (by simp)
    obtain ⟨h1, h2⟩ := List.append_inj h (by simp only [List.length_append]; omega)
    obtain ⟨h3, h4⟩ := List.append_inj h1 (by omega)
    rw [pairs_injective hn (fun x hx => hc x (by simp [hx])) (fun x hx => hd x (by simp [hx])) h2, Prod.ext h3 h4]

/-- **C12, C20.** The bytes hashed for the challenge determine the j-invariants of both end curves and all commitments,
in order. -/
theorem c12_challenge_injective {a₀ a₁ a₀' a₁' : l.F} {hs hs' : List (Bytes × Bytes)}
    (h : ∀ c ∈ hs, c.1.length = (params l).hash ∧ c.2.length = (params l).hash)
    (h' : ∀ c ∈ hs', c.1.length = (params l).hash ∧ c.2.length = (params l).hash)
    (e : challengeBytes l a₀ a₁ hs = challengeBytes l a₀' a₁' hs') : jOf a₀ = jOf a₀' ∧ jOf a₁ = jOf a₁' ∧ hs = hs' := by
  unfold challengeBytes at e
  have e := (List.cons.inj e).2
  obtain ⟨e1, e2⟩ := List.append_inj e (by simp only [List.length_append, fieldBytes_length])
  obtain ⟨e3, e4⟩ := List.append_inj e1 (by simp only [fieldBytes_length])
  exact ⟨fieldBytes_inj l e3, fieldBytes_inj l e4, pairs_injective (by cases l <;> decide) h h' e2⟩

example : ∃ hs : List (Bytes × Bytes), hs.length = 219 ∧ ∀ c ∈ hs, c.1.length = (params .l434).hash ∧
    c.2.length = (params .l434).hash := by
  refine ⟨List.replicate 219 (List.replicate 32 1, List.replicate 32 2), List.length_replicate, ?_⟩
  intro c hc
  rw [List.eq_of_mem_replicate hc]
  constructor <;> simp [params, params434]

/-- **C12.** No commitment input is a challenge input. -/
theorem c12_domain_separation (r : Bytes) (a a₀ a₁ : l.F) (hs : List (Bytes × Bytes)) :
    commitBytes l r a ≠ challengeBytes l a₀ a₁ hs := by
  intro h
  have := (List.cons.inj h).1
  revert this
  decide

/-- **C12** for the code: these are the strings it hashes. -/
theorem c12_code (r : Bytes) {E E' : Crv l.F} (hC : E.C ≠ 0) (hC' : E'.C ≠ 0) (a₀ a₁ : l.F) (hs : List Comm) :
    commitInput r (encJ l E) = commitBytes l r (E.A / E.C) ∧
    challengeInput (encJ l ⟨a₀, 1⟩) (encJ l ⟨a₁, 1⟩) hs = challengeBytes l a₀ a₁ (hs.map fun c => (c.h2, c.h3)) ∧
    (encJ l E = encJ l E' ↔ jOf (E.A / E.C) = jOf (E'.A / E'.C)) := by
  refine ⟨commit_bytes l r hC, challenge_bytes l a₀ a₁ hs, ?_⟩
  unfold encJ
  rw [jInv_jOf l hC, jInv_jOf l hC']
  constructor
  · intro h
    rw [← decode_encode l (jOf (E.A / E.C)), h, decode_encode]
  · intro h; rw [h]

/-! ### C15: the verdict -/

/-- The arrays of a response have their lengths. -/
theorem unpackResponse_noUB (H : Hash) (mem : Mem l) {x₀ x₁ : PFp2} (h0 : RightOrder l (decode l x₀))
    (h1 : RightOrder l (decode l x₁)) {r : CResp} (hr : r.WF (params l)) :
    NoUB (unpackResponse l H mem x₀ x₁ r) ∧
    Ret (unpackResponse l H mem x₀ x₁ r) (fun o => ∀ o', o = some o' → Opens l H (decode l x₀) (decode l x₁) r o') := by
  have hS := l.setting
  obtain ⟨⟨wa, wb, wc, _⟩, ⟨wd, we, _, wf, _⟩, ⟨wg, wh, wi, _⟩, _⟩ := hr
  have hph := params_height l
  have hpw := params_width l
  have ne : ∀ {xs : List PFp2} {n : ℕ}, xs.length = n → 0 < n → xs.map (decode l) ≠ [] := by
    rintro xs n rfl h e
    rw [List.map_eq_nil_iff] at e
    rw [e] at h
    simp at h
  unfold unpackResponse
  simp only
  by_cases c1 : int8 r.tag = -1
  · simp only [c1, if_true]
    have t1 : r.tag % 256 = 255 := (int8_eq (by norm_num) (by norm_num)).1 c1
    obtain ⟨u1, u2⟩ := unpackChainB_spec hS l.po mem.pts ((rightOrder_iff l).1 h0) (ne wc hph)
    refine bindBoth u1 u2 ?_
    intro o ho
    cases o with
    | none => exact ⟨NoUB.pure' _, Ret.pure (by simp)⟩
    | some E =>
      obtain ⟨hC, hs, gK, P, b, hc, hd⟩ := ho E rfl
      refine ⟨NoUB.pure' _, Ret.pure ?_⟩
      rintro _ ⟨rfl⟩
      unfold hashHiding
      rw [commit_bytes l _ hC]
      rw [List.length_map, wc] at hc hd
      exact .left _ t1 ((rightOrder_iff l).2 hs) (cyclicIsogeny_of l Nat.prime_three hc hd)
  · simp only [c1, if_false]
    by_cases c2 : int8 r.tag = 0
    · simp only [c2, if_true]
      have t1 : r.tag % 256 = 0 := (int8_eq (by norm_num) (by norm_num)).1 c2
      refine bindBoth (checkedCurve_ret l mem _).1 (checkedCurve_ret l mem _).2 ?_
      intro b hb
      cases b with
      | false => simp only [if_true]; exact ⟨NoUB.pure' _, Ret.pure (by simp)⟩
      | true =>
        have hs2 := hb.1 rfl
        simp only [Bool.true_eq_false, if_false]
        obtain ⟨u1, u2⟩ := unpackChainA_spec hS l.po mem.pts hs2 (ne wf hpw)
        refine bindBoth u1 u2 ?_
        intro o ho
        cases o with
        | none => exact ⟨NoUB.pure' _, Ret.pure (by simp)⟩
        | some E =>
          obtain ⟨hC, hs, gK, P, b, hc, hd⟩ := ho E rfl
          refine ⟨NoUB.pure' _, Ret.pure ?_⟩
          rintro _ ⟨rfl⟩
          unfold hashHiding
          rw [commit_bytes l _ hC, commit_bytes l _ one_ne_zero]
          rw [List.length_map, wf] at hc hd
          simp only [div_one]
          exact .bottom _ _ t1 rfl ((rightOrder_iff l).2 hs2) ((rightOrder_iff l).2 hs)
            (cyclicIsogeny_of l Nat.prime_two hc hd)
    · simp only [c2, if_false]
      by_cases c3 : int8 r.tag = 1
      · simp only [c3, if_true]
        have t1 : r.tag % 256 = 1 := (int8_eq (by norm_num) (by norm_num)).1 c3
        obtain ⟨u1, u2⟩ := unpackChainB_spec hS l.po mem.pts ((rightOrder_iff l).1 h1) (ne wi hph)
        refine bindBoth u1 u2 ?_
        intro o ho
        cases o with
        | none => exact ⟨NoUB.pure' _, Ret.pure (by simp)⟩
        | some E =>
          obtain ⟨hC, hs, gK, P, b, hc, hd⟩ := ho E rfl
          refine ⟨NoUB.pure' _, Ret.pure ?_⟩
          rintro _ ⟨rfl⟩
          unfold hashHiding
          rw [commit_bytes l _ hC]
          rw [List.length_map, wi] at hc hd
          exact .right _ t1 ((rightOrder_iff l).2 hs) (cyclicIsogeny_of l Nat.prime_three hc hd)
      · simp only [c3, if_false]
        exact ⟨NoUB.pure' _, Ret.pure (by simp)⟩

theorem unpackAll_noUB (H : Hash) (mem : Mem l) {x₀ x₁ : PFp2} (h0 : RightOrder l (decode l x₀))
    (h1 : RightOrder l (decode l x₁)) : ∀ {rs : List CResp}, (∀ r ∈ rs, r.WF (params l)) →
    NoUB (unpackAll l H mem x₀ x₁ rs)
  | [], _ => NoUB.pure' _
  | r :: rs, h => by
    unfold unpackAll
    refine NoUB.bind (unpackResponse_noUB l H mem h0 h1 (h r (by simp))).1 (fun _ => True) (fun _ _ _ _ => trivial) ?_
    intro o _
    cases o with
    | none => exact NoUB.pure' _
    | some o =>
      refine NoUB.bind (unpackAll_noUB H mem h0 h1 fun r hr => h r (by simp [hr])) (fun _ => True)
        (fun _ _ _ _ => trivial) ?_
      intro os _
      cases os <;> exact NoUB.pure' _

/-- **C15.** `Verify` has no undefined behaviour on any proof in memory, whatever it contains. -/
theorem c15_no_ub (H : Hash) (mem : Mem l) (hm : mem.challs.length = (params l).reps) (fuel : ℕ) {prf : CProof}
    (hw : prf.WF (params l)) (t : Tape l.F) : verify l H mem fuel prf t ≠ .ub := by
  refine (?_ : NoUB (verify l H mem fuel prf)) t
  unfold verify
  refine (bindBoth (R := fun _ => True) (checkedCurve_ret l mem _).1 (checkedCurve_ret l mem _).2 ?_).1
  intro b hb
  cases b with
  | false => simp only [if_true]; exact ⟨NoUB.pure' _, Ret.pure trivial⟩
  | true =>
    simp only [Bool.true_eq_false, if_false]
    refine bindBoth (checkedCurve_ret l mem _).1 (checkedCurve_ret l mem _).2 ?_
    intro b hb'
    cases b with
    | false => simp only [if_true]; exact ⟨NoUB.pure' _, Ret.pure trivial⟩
    | true =>
      simp only [Bool.true_eq_false, if_false]
      refine bindBoth (unpackAll_noUB l H mem ((rightOrder_iff l).2 (hb.1 rfl)) ((rightOrder_iff l).2 (hb'.1 rfl)) hw.2.2.2)
        (Q := fun _ => True) (fun _ _ _ _ => trivial) ?_
      intro os _
      cases os with
      | none => exact ⟨NoUB.pure' _, Ret.pure trivial⟩
      | some os =>
        refine bindBoth (challengeM_ret l H mem hm fuel _ _ _).1 (challengeM_ret l H mem hm fuel _ _ _).2 ?_
        intro ts _
        exact ⟨NoUB.pure' _, Ret.pure trivial⟩

theorem possible_unique (H : Hash) {x₀ x₁ : PFp2} (h0 : RightOrder l (decode l x₀)) (h1 : RightOrder l (decode l x₁))
    {mem mem' : Mem l} {r : CResp} {o o' : Option (Int × Comm)} (h : Possible l (unpackResponse l H mem x₀ x₁ r) o)
    (h' : Possible l (unpackResponse l H mem' x₀ x₁ r) o') : o = o' := by
  obtain ⟨q, hq⟩ := unpackResponse_det l H ((rightOrder_iff l).1 h0) ((rightOrder_iff l).1 h1) r
  obtain ⟨t, t', h⟩ := h
  obtain ⟨u, u', h'⟩ := h'
  rw [hq mem _ _ _ h, hq mem' _ _ _ h']

theorem possible_unique_all (H : Hash) {x₀ x₁ : PFp2} (h0 : RightOrder l (decode l x₀)) (h1 : RightOrder l (decode l x₁))
    {rs : List CResp} {os os' : List (Int × Comm)}
    (h : List.Forall₂ (fun r o => ∃ mem, Possible l (unpackResponse l H mem x₀ x₁ r) (some o)) rs os)
    (h' : List.Forall₂ (fun r o => ∃ mem, Possible l (unpackResponse l H mem x₀ x₁ r) (some o)) rs os') : os = os' := by
  induction h generalizing os' with
  | nil => cases h'; rfl
  | cons a b ih =>
    cases h' with
    | cons a' b' =>
      rw [ih b']
      obtain ⟨m, a⟩ := a
      obtain ⟨m', a'⟩ := a'
      have := possible_unique l H h0 h1 a a'
      cases this
      rfl

theorem isChallenge_unique {H : Hash} {input : Bytes} {ts ts' : List Int} (h : IsChallenge l H input ts)
    (h' : IsChallenge l H input ts') : ts = ts' := by
  obtain ⟨k, h⟩ := h
  obtain ⟨k', h'⟩ := h'
  rw [h (max k k') (le_max_left _ _), ← h' (max k k') (le_max_right _ _)]

/-- **C15.** If `Verify` returns, it returns true exactly if both end curves have the right order, every response unpacks,
and the challenge derived from the end curves and the reconstructed commitments is the list of the tags. -/
theorem c15_verdict (H : Hash) (mem : Mem l) (hm : mem.challs.length = (params l).reps) (fuel : ℕ) (prf : CProof)
    (t t' : Tape l.F) (b : Bool) (h : verify l H mem fuel prf t = .ok (b, t')) : b = true ↔ Valid l H prf := by
  unfold verify at h
  obtain ⟨b0, t0, h0, h⟩ := bind_ok h
  have hb0 := (checkedCurve_ret l mem prf.E0).2 _ _ _ h0
  cases b0 with
  | false =>
    simp only [if_true] at h
    cases h
    refine ⟨(fun h => by cases h), fun hv => ?_⟩
    exact hb0.2 ((rightOrder_iff l).1 hv.1)
  | true =>
    simp only [Bool.true_eq_false, if_false] at h
    obtain ⟨b1, t1, h1, h⟩ := bind_ok h
    have hb1 := (checkedCurve_ret l mem prf.E1).2 _ _ _ h1
    cases b1 with
    | false =>
      simp only [if_true] at h
      cases h
      refine ⟨(fun h => by cases h), fun hv => ?_⟩
      exact hb1.2 ((rightOrder_iff l).1 hv.2.1)
    | true =>
      simp only [Bool.true_eq_false, if_false] at h
      have r0 := (rightOrder_iff l).2 (hb0.1 rfl)
      have r1 := (rightOrder_iff l).2 (hb1.1 rfl)
      obtain ⟨os, t2, h2, h⟩ := bind_ok h
      have hos := unpackAll_ret l H mem prf.E0 prf.E1 prf.resp _ _ _ h2
      cases os with
      | none =>
        cases h
        refine ⟨(fun h => by cases h), fun hv => ?_⟩
        obtain ⟨_, _, os, hos', hcc⟩ := hv
        obtain ⟨r, hr, hn⟩ := hos
        exfalso
        obtain ⟨o, _, mem', ho⟩ : ∃ o, o ∈ os ∧ ∃ mem, Possible l (unpackResponse l H mem prf.E0 prf.E1 r) (some o) := by
          clear h2 hn hcc
          revert hr
          generalize prf.resp = rs at hos'
          intro hr
          induction hos' with
          | nil => simp at hr
          | cons a b ih =>
            rcases List.mem_cons.1 hr with rfl | hr
            · exact ⟨_, by simp, a⟩
            · obtain ⟨o, h1, h2⟩ := ih hr
              exact ⟨o, by simp [h1], h2⟩
        cases possible_unique l H r0 r1 ho hn
      | some os =>
        obtain ⟨ts, t3, h3, h⟩ := bind_ok h
        cases h
        obtain ⟨_, _, hts⟩ := (challengeM_ret l H mem hm fuel _ _ _).2 _ _ _ h3
        rw [challenge_bytes, List.map_map] at hts
        rw [decide_eq_true_iff]
        constructor
        · intro e
          refine ⟨r0, r1, os, hos.imp fun r o h => ⟨mem, h⟩, ?_⟩
          rw [← e]
          exact hts
        · rintro ⟨_, _, os', hos', hc⟩
          have := possible_unique_all l H r0 r1 (hos.imp fun r o h => ⟨mem, h⟩) hos'
          subst this
          exact isChallenge_unique l hts hc

/-- **C62.** The verdict does not depend on the random values drawn, on uninitialised memory, or on the number of blocks
for which `Challenge` is observed. -/
theorem c62_verdict_deterministic (H : Hash) (mem mem' : Mem l) (hm : mem.challs.length = (params l).reps)
    (hm' : mem'.challs.length = (params l).reps) (fuel fuel' : ℕ) (prf : CProof) (t t' u u' : Tape l.F) (b b' : Bool)
    (h : verify l H mem fuel prf t = .ok (b, t')) (h' : verify l H mem' fuel' prf u = .ok (b', u')) : b = b' := by
  rw [Bool.eq_iff_iff, c15_verdict l H mem hm fuel prf t t' b h, c15_verdict l H mem' hm' fuel' prf u u' b' h']

/-- **C15**, what acceptance means. An accepted proof contains, for every repetition, isogenies with cyclic kernels that
open the commitments bound by the challenge. -/
theorem c15_sound (H : Hash) (mem : Mem l) (hm : mem.challs.length = (params l).reps) (fuel : ℕ) {prf : CProof}
    (hw : prf.WF (params l)) (t t' : Tape l.F) (h : verify l H mem fuel prf t = .ok (true, t')) :
    RightOrder l (decode l prf.E0) ∧ RightOrder l (decode l prf.E1) ∧ ∃ os : List (Int × Comm),
      os.length = (params l).reps ∧
      List.Forall₂ (fun r o => Opens l H (decode l prf.E0) (decode l prf.E1) r o) prf.resp os ∧
      IsChallenge l H (challengeBytes l (decode l prf.E0) (decode l prf.E1) (os.map fun o => (o.2.h2, o.2.h3)))
        (os.map Prod.fst) := by
  obtain ⟨r0, r1, os, hos, hc⟩ := (c15_verdict l H mem hm fuel prf t t' true h).1 rfl
  refine ⟨r0, r1, os, by rw [← hos.length_eq, hw.2.2.1], ?_, hc⟩
  have hwf := hw.2.2.2
  clear hc h hw
  revert hwf
  generalize prf.resp = rs at hos
  intro hwf
  induction hos with
  | nil => exact .nil
  | cons a b ih =>
    obtain ⟨mem, t, t', a⟩ := a
    exact .cons ((unpackResponse_noUB l H mem r0 r1 (hwf _ (by simp))).2 _ _ _ a _ rfl)
      (ih fun r hr => hwf r (by simp [hr]))

/-- What is a challenge is computed after finitely many blocks. -/
theorem isChallenge_finishes {H : Hash} (mem : Mem l) (hm : mem.challs.length = (params l).reps) {j0 j1 : PFp2} {hs : List Comm}
    {ts : List Int} (h : IsChallenge l H (challengeInput j0 j1 hs) ts) (hl : ts.length = (params l).reps) :
    ∃ fuel, challengeM l H mem fuel j0 j1 hs = pure ts := by
  obtain ⟨k, hk⟩ := id h
  have hlen : (params l).reps ≤ (Spec.tritStream (Spec.firstBlocks (H.block (challengeInput j0 j1 hs)) k)).length := by
    have := congrArg List.length (hk k le_rfl)
    rw [hl, List.length_take] at this
    omega
  rw [Challenge.tritStream_length] at hlen
  obtain ⟨fuel, t, k', hf⟩ := (Challenge.C11_finishes_iff (params l).reps (H.block (challengeInput j0 j1 hs)) mem.challs hm).2
    ⟨k, by unfold Challenge.Spec.goodBytes; omega⟩
  refine ⟨fuel, ?_⟩
  have : t = ts := isChallenge_unique l ⟨k', Challenge.C09_challenge_streaming _ _ _ _ _ _ hm hf⟩ h
  unfold challengeM
  rw [hf, this]

theorem unpackAll_can (H : Hash) (mem : Mem l) {x₀ x₁ : PFp2} (h0 : RightOrder l (decode l x₀)) (h1 : RightOrder l (decode l x₁))
    {rs : List CResp} {os : List (Int × Comm)} (hw : ∀ r ∈ rs, r.WF (params l))
    (h : List.Forall₂ (fun r o => ∃ mem, Possible l (unpackResponse l H mem x₀ x₁ r) (some o)) rs os) :
    Can (unpackAll l H mem x₀ x₁ rs) (fun q => q = some os) := by
  induction h with
  | nil => exact Can.pure rfl
  | @cons r o rs os a _ ih =>
    obtain ⟨mem', hp⟩ := a
    have hs0 := (rightOrder_iff l).1 h0
    have hs1 := (rightOrder_iff l).1 h1
    have hcan : Can (unpackResponse l H mem x₀ x₁ r) (fun q => q = some o) := by
      obtain ⟨s, q, _, hs⟩ := unpackResponse_total l H mem hs0 hs1 (hw r (by simp))
      have : q = some o := possible_unique l H h0 h1 ⟨_, _, hs s⟩ hp
      exact ⟨s, q, this, hs⟩
    unfold unpackAll
    refine hcan.bind ?_
    rintro _ rfl
    simp only
    refine (ih fun r hr => hw r (by simp [hr])).bind ?_
    rintro _ rfl
    exact Can.pure rfl

/-- **C15**, acceptance characterised: `Verify` can return true (for some random values, after some number of blocks of the
XOF) exactly for the valid proofs. With `c15_verdict` this means that no run on a valid proof returns false and that no valid
proof is one on which no run returns true. -/
theorem c15_accepts_iff (H : Hash) (mem : Mem l) (hm : mem.challs.length = (params l).reps) {prf : CProof}
    (hw : prf.WF (params l)) : (∃ fuel t t', verify l H mem fuel prf t = .ok (true, t')) ↔ Valid l H prf := by
  constructor
  · rintro ⟨fuel, t, t', h⟩
    exact (c15_verdict l H mem hm fuel prf t t' true h).1 rfl
  · rintro ⟨r0, r1, os, hos, hc⟩
    have hlen : (os.map Prod.fst).length = (params l).reps := by
      rw [List.length_map, ← hos.length_eq, hw.2.2.1]
    have hc' : IsChallenge l H (challengeInput (encJ l ⟨decode l prf.E0, 1⟩) (encJ l ⟨decode l prf.E1, 1⟩) (os.map Prod.snd))
        (os.map Prod.fst) := by
      rw [challenge_bytes]
      simpa [List.map_map, Function.comp_def] using hc
    obtain ⟨fuel, hch⟩ := isChallenge_finishes l mem hm hc' hlen
    have hall := unpackAll_can l H mem r0 r1 hw.2.2.2 hos
    have : Can (verify l H mem fuel prf) (fun b => b = true) := by
      unfold verify
      refine (checkedCurve_can l mem _ ((rightOrder_iff l).1 r0)).bind ?_
      rintro _ rfl
      simp only [Bool.true_eq_false, if_false]
      refine (checkedCurve_can l mem _ ((rightOrder_iff l).1 r1)).bind ?_
      rintro _ rfl
      simp only [Bool.true_eq_false, if_false]
      refine hall.bind ?_
      rintro _ rfl
      simp only
      rw [hch]
      refine (Can.pure (Q := fun c => c = os.map Prod.fst) rfl).bind ?_
      rintro _ rfl
      exact Can.pure (by simp)
    obtain ⟨s, _, rfl, hs⟩ := this
    exact ⟨fuel, _, _, hs s⟩

/-! #### Runs that accept

For all end curves of the right order and every sequence of challenges there is a hash function and a proof with responses
of these kinds that is accepted; so the hypotheses of the theorems above are met by proofs with responses of every kind. -/

theorem accepting (mem : Mem l) (hm : mem.challs.length = (params l).reps) {a₀ a₁ : l.F} (h0 : RightOrder l a₀)
    (h1 : RightOrder l a₁) {ts : List Int} (hl : ts.length = (params l).reps) (ht : ∀ c ∈ ts, Spec.Trit c) :
    ∃ (H : Hash) (fuel : ℕ) (prf : CProof) (t t' : Tape l.F), (∀ n x, (H.out n x).length = n) ∧
      (∀ x i, (H.block x i).length = 136) ∧ prf.WF (params l) ∧ decode l prf.E0 = a₀ ∧ decode l prf.E1 = a₁ ∧
      prf.resp.map CResp.tag = ts ∧ verify l H mem fuel prf t = .ok (true, t') := by
  obtain ⟨H, fuel, ho, hb, hH⟩ := exists_answers l mem hm (fun n _ => List.replicate n 0) hl ht
  obtain ⟨prf, hw, e0, e1, htag, s, _, rfl, hs⟩ := verify_can l hH hl ht ((rightOrder_iff l).1 h0) ((rightOrder_iff l).1 h1)
  exact ⟨H, fuel, prf, _, _, fun n x => by rw [ho]; simp, hb, hw, e0, e1, htag, hs s⟩

/-- The hypotheses of `c15_verdict`, `c15_sound`, `c62_verdict_deterministic` and a valid proof for `c15_accepts_iff`: from the
curve `y² = x³ + x` to itself, with tags -1, 0, 1, -1, 0, 1, … -/
example (l : Level) : ∃ (H : Hash) (mem : Mem l) (fuel : ℕ) (prf : CProof) (t t' : Tape l.F),
    mem.challs.length = (params l).reps ∧ prf.WF (params l) ∧
    prf.resp.map CResp.tag = (List.range (params l).reps).map (fun i => (i % 3 : Int) - 1) ∧
    verify l H mem fuel prf t = .ok (true, t') ∧ Valid l H prf := by
  let mem : Mem l := ⟨fun _ => (⟨0, 0⟩, ⟨0, 0⟩), List.replicate (params l).reps 0⟩
  have hm : mem.challs.length = (params l).reps := by simp [mem]
  obtain ⟨H, fuel, prf, t, t', _, _, hw, _, _, htag, h⟩ := accepting l mem hm (rightOrder_zero l) (rightOrder_zero l)
    (ts := (List.range (params l).reps).map (fun i => (i % 3 : Int) - 1)) (by simp) (by
      intro c hc
      obtain ⟨i, _, rfl⟩ := List.mem_map.1 hc
      unfold Spec.Trit
      omega)
  exact ⟨H, mem, fuel, prf, t, t', hm, hw, htag, h, (c15_accepts_iff l H mem hm hw).1 ⟨_, _, _, h⟩⟩

end Secuer.ProtocolProps
