import Verif.Props.ProofProps
import Verif.Curve.WalkCyc

/-!
# Properties C24 and C63: the honest prover

Conventions as in `Verif.Props.ProtocolProps`.
-/

namespace Secuer.ProtocolProps

open Secuer.Protocol Secuer.Curve Secuer.Mont Secuer.Field Secuer.Text Secuer.Scalar Secuer.ChainProps Secuer.CurveProps
open Secuer.Challenge (Spec.Trit)

variable (l : Level)

/-- One of the curves between the ends of one of the three chains has j-invariant 0 or 1728, i.e. has automorphisms other
than negation. -/
def Exceptional (v : Inst l) : Prop :=
  ∃ E, (E ∈ v.left.E.tail.dropLast ∨ E ∈ v.bottom.E.tail.dropLast ∨ E ∈ v.right.E.tail.dropLast) ∧
    (jOf (E.A / E.C) = 0 ∨ jOf (E.A / E.C) = 1728)

/-- The proof `prf`, in memory in any way, does not lead `Verify` into undefined behaviour, and the verdict is `true`. -/
def AcceptedBy (H : Hash) (prf : Proof) : Prop :=
  ∀ (mem : Mem l) (fuel : ℕ) (prf' : CProof), mem.challs.length = (params l).reps → prf'.E0 = prf.E0 → prf'.E1 = prf.E1 →
    prf'.resp.map CResp.active = prf.resp.map some →
    ∀ t, verify l H mem fuel prf' t ≠ .ub ∧ ∀ b t', verify l H mem fuel prf' t = .ok (b, t') → b = true

theorem sixtyfour_ne : (64 : l.F) ≠ 0 := by
  have : (64 : l.F) = 2 ^ 6 := by norm_num
  rw [this]
  exact pow_ne_zero _ l.two

/-- Not exceptional, in terms of the coefficient. -/
theorem generic_of {a : l.F} (h0 : jOf a ≠ 0) (h1 : jOf a ≠ 1728) : Generic a := by
  constructor
  · intro h
    apply h0
    unfold jOf
    rw [h]
    norm_num
  · intro h
    by_cases hd : a ^ 2 - 4 = 0
    · apply h0
      unfold jOf
      rw [hd, div_zero]
    · apply h1
      unfold jOf
      rw [div_eq_iff hd]
      linear_combination 64 * a * (2 * a ^ 2 - 9) * h

/-- **C24.** `Generate` and `Prove` have no undefined behaviour: `Generate` on any input, `Prove` on what `Generate`
returned. -/
theorem c24_no_ub (H : Hash) (mem mem' : Mem l) (hm : mem'.challs.length = (params l).reps) (fuel : ℕ) (x : PFp2)
    (t : Tape l.F) : generate l mem x t ≠ .ub ∧ ∀ sec t₁, generate l mem x t = .ok (some sec, t₁) →
      ∀ u, prove l H mem' fuel sec u ≠ .ub := by
  refine ⟨(generate_ret l mem x).1 t, fun sec t₁ h u => ?_⟩
  obtain ⟨ha, a₁, hs⟩ := (generate_ret l mem x).2 _ _ _ h sec rfl
  exact (prove_ret l H mem' hm fuel hs ha).1 u

/-- **C24.** Every proof that `Prove` computes from a secret of `Generate` is accepted - unless the path led through a
curve with additional automorphisms. -/
theorem c24_complete (H : Hash) {mem mem' : Mem l} (hm : mem'.challs.length = (params l).reps) {fuel : ℕ} {x : PFp2}
    {t t₁ u u' : Tape l.F} {sec : Secret} {prf : Proof} (hg : generate l mem x t = .ok (some sec, t₁))
    (hp : prove l H mem' fuel sec u = .ok (prf, u')) :
    prf.resp.length = (params l).reps ∧ ((∃ vs u₁, instances l H sec (params l).reps u = .ok (vs, u₁) ∧
      ∃ v ∈ vs, Exceptional l v.1) ∨ AcceptedBy l H prf) := by
  obtain ⟨ha, a₁, hs⟩ := (generate_ret l mem x).2 _ _ _ hg sec rfl
  obtain ⟨vs, u₁, hi, hr⟩ : ∃ vs u₁, instances l H sec (params l).reps u = .ok (vs, u₁) ∧
      prf.resp.length = (params l).reps := by
    obtain ⟨x₀, hx0, hd⟩ := hs.head
    obtain ⟨x₁, hx1, rfl⟩ := hs.last
    rw [prove_eq l H mem' fuel hx0 hx1] at hp
    rw [← hd] at hs ha
    obtain ⟨vs, u₁, h1, h2⟩ := bind_ok hp
    obtain ⟨G, hw⟩ := hs.walk
    have hvs := (instances_ret l H hs ha (params l).reps).2 _ _ _ h1
    exact ⟨vs, u₁, h1, ((respond_ret l H mem' hm fuel ha (hw.super l.setting ha) hvs.1 hvs.2).2 _ _ _ h2).1⟩
  refine ⟨hr, ?_⟩
  by_cases he : ∃ v ∈ vs, Exceptional l v.1
  · exact .inl ⟨vs, u₁, hi, he⟩
  · right
    have hgen : ∀ v ∈ vs, InteriorGeneric l v.1 := by
      intro v hv E hE
      exact generic_of l (fun h => he ⟨v, hv, E, hE, .inl h⟩) (fun h => he ⟨v, hv, E, hE, .inr h⟩)
    obtain ⟨-, hA⟩ := (prove_ret l H mem' hm fuel hs ha).2 u vs u₁ hi hgen prf u' hp
    intro mem fuel prf' h1 h2 h3 h4 t
    obtain ⟨q1, q2⟩ := hA mem fuel prf' h1 h2 h3 h4
    exact ⟨q1 t, fun b t' h => q2 t b t' h⟩

/-! ### The arrays of an honest proof have their sizes -/

theorem encode_wf (v : l.F) : (encode l v).WF (params l) := ⟨leBytes_length _ _, leBytes_length _ _⟩

theorem packChainB_length : ∀ (Es : List (Crv l.F)) (Ps : List (Pt l.F)),
    Ret (packChainB l.env Es Ps) (fun xs => xs.length = min Es.length Ps.length)
  | [], _ => by unfold packChainB; exact Ret.pure (by simp)
  | _ :: _, [] => by unfold packChainB; exact Ret.pure (by simp)
  | E :: Es, P :: Ps => by
    unfold packChainB
    refine Ret.bind (Q := fun _ => True) (fun _ _ _ _ => trivial) fun x _ => ?_
    refine Ret.bind (packChainB_length Es Ps) fun xs h => Ret.pure ?_
    simp only [List.length_cons, h]
    omega

theorem packChainA_length : ∀ (Es : List (Crv l.F)) (Ps : List (Pt l.F)),
    Ret (packChainA l.env Es Ps) (fun xs => xs.length = min Es.length Ps.length)
  | [], _ => by unfold packChainA; exact Ret.pure (by simp)
  | _ :: _, [] => by unfold packChainA; exact Ret.pure (by simp)
  | E :: Es, P :: Ps => by
    unfold packChainA
    refine Ret.bind (Q := fun _ => True) (fun _ _ _ _ => trivial) fun x _ => ?_
    refine Ret.bind (Q := fun _ => True) (fun _ _ _ _ => trivial) fun x _ => ?_
    refine Ret.bind (packChainA_length Es Ps) fun xs h => Ret.pure ?_
    simp only [List.length_cons, h]
    omega

theorem packResponse_wf (H : Hash) (hH : ∀ n x, (H.out n x).length = n) {a₀ a₁ : l.F} {v : Inst l} {c : Comm}
    (hv : InstOK l H a₀ a₁ v c) (ch : Int) : Ret (packResponse l ch v c) (fun r => r.WF (params l)) := by
  have hc2 : c.h2.length = (params l).hash := by rw [hv.comm]; exact hH _ _
  have hc3 : c.h3.length = (params l).hash := by rw [hv.comm]; exact hH _ _
  have he : ∀ xs : List l.F, ∀ v ∈ xs.map (encode l), v.WF (params l) := by
    intro xs v hv
    obtain ⟨w, -, rfl⟩ := List.mem_map.1 hv
    exact encode_wf l w
  unfold packResponse
  split
  · refine Ret.bind (packChainB_length l _ _) fun xs h => Ret.pure ⟨hv.r2, hc3, ?_, he _⟩
    rw [List.length_map, h, hv.leftE, hv.leftP]; omega
  · split
    · refine Ret.bind (Q := fun _ => True) (fun _ _ _ _ => trivial) fun x _ => ?_
      refine Ret.bind (packChainA_length l _ _) fun xs h => Ret.pure ⟨hv.r2, hv.r3, encode_wf l _, ?_, he _⟩
      rw [List.length_map, h, hv.bottomE, hv.bottomP]; omega
    · split
      · refine Ret.bind (packChainB_length l _ _) fun xs h => Ret.pure ⟨hc2, hv.r3, ?_, he _⟩
        rw [List.length_map, h, hv.rightE, hv.rightP]; omega
      · intro t a t' h; cases h

theorem packAll_wf (H : Hash) (hH : ∀ n x, (H.out n x).length = n) {a₀ a₁ : l.F} : ∀ (chs : List Int)
    {vs : List (Inst l × Comm)}, (∀ v ∈ vs, InstOK l H a₀ a₁ v.1 v.2) →
    Ret (packAll l chs vs) (fun rs => ∀ r ∈ rs, r.WF (params l))
  | [], _, _ => by unfold packAll; exact Ret.pure (by simp)
  | _ :: _, [], _ => by unfold packAll; exact Ret.pure (by simp)
  | ch :: chs, v :: vs, h => by
    unfold packAll
    refine Ret.bind (packResponse_wf l H hH (h v (by simp)) ch) fun r hr => ?_
    refine Ret.bind (packAll_wf H hH chs (vs := vs) fun w hw => h w (by simp [hw])) fun rs hrs => Ret.pure ?_
    intro q hq
    rcases List.mem_cons.1 hq with rfl | hq
    · exact hr
    · exact hrs q hq

/-- **C24.** The arrays of an honest proof have the sizes that `Dump` and `Verify` rely on. -/
theorem c24_well_formed (H : Hash) (hH : ∀ n x, (H.out n x).length = n) {mem mem' : Mem l}
    (hm : mem'.challs.length = (params l).reps) {fuel : ℕ} {x : PFp2} {t t₁ u u' : Tape l.F} {sec : Secret} {prf : Proof}
    (hg : generate l mem x t = .ok (some sec, t₁)) (hp : prove l H mem' fuel sec u = .ok (prf, u')) :
    prf.WF (params l) := by
  have hlen := (c24_complete l H hm hg hp).1
  obtain ⟨ha, a₁, hs⟩ := (generate_ret l mem x).2 _ _ _ hg sec rfl
  obtain ⟨x₀, hx0, hd⟩ := hs.head
  obtain ⟨x₁, hx1, rfl⟩ := hs.last
  rw [prove_eq l H mem' fuel hx0 hx1] at hp
  rw [← hd] at hs ha
  obtain ⟨vs, u₁, h1, h2⟩ := bind_ok hp
  have hvs := (instances_ret l H hs ha (params l).reps).2 _ _ _ h1
  unfold respond at h2
  obtain ⟨ts, u₂, -, h2⟩ := bind_ok h2
  obtain ⟨e0, u₃, -, h2⟩ := bind_ok h2
  obtain ⟨e1, u₄, -, h2⟩ := bind_ok h2
  obtain ⟨rs, u₅, h3, h2⟩ := bind_ok h2
  have := packAll_wf l H hH ts hvs.2 _ _ _ h3
  cases h2
  exact ⟨encode_wf l _, encode_wf l _, hlen, this⟩

/-- **C24**, with the file in between: what `Dump` writes for an honest proof is parsed back, and the parsed proof is
accepted, unless the path led through a curve with additional automorphisms. -/
theorem c24_via_file (H : Hash) (hH : ∀ n x, (H.out n x).length = n) {mem mem' : Mem l}
    (hm : mem'.challs.length = (params l).reps) {fuel : ℕ} {x : PFp2} {t t₁ u u' : Tape l.F} {sec : Secret} {prf : Proof}
    (hg : generate l mem x t = .ok (some sec, t₁)) (hp : prove l H mem' fuel sec u = .ok (prf, u')) (f : Sink)
    (hf : ∀ n, f.fault n = none) (he : f.out = []) :
    ∃ f' prf' rest, dump f prf = (true, f') ∧ parse (params l) f'.out = .ok prf' rest ∧
      ((∃ vs u₁, instances l H sec (params l).reps u = .ok (vs, u₁) ∧ ∃ v ∈ vs, Exceptional l v.1) ∨
        AcceptedBy l H prf') := by
  have hP : (params l).Supported := params_supported l
  obtain ⟨f', h1, h2, h3⟩ := C01_dump_parse_roundtrip hP prf (c24_well_formed l H hH hm hg hp) f hf []
  refine ⟨f', prf, [10], h1, ?_, (c24_complete l H hm hg hp).2⟩
  rw [h2, he, List.nil_append]
  simpa using h3

/-! ### C63: the secret and the grid -/

theorem zip_ne_nil {α β : Type} {as : List α} {bs : List β} {n : ℕ} (ha : as.length = n + 1) (hb : bs.length = n)
    (hn : 0 < n) : as.zip bs ≠ [] ∧ (as.zip bs).length = n := by
  have : (as.zip bs).length = n := by rw [List.length_zip, ha, hb]; omega
  exact ⟨fun h => by rw [h] at this; simp at this; omega, this⟩

/-- **C63.** What `Generate` returns is a cyclic isogeny of degree `2^(e·width)` from the given curve; it accepts only
curves of the right order. -/
theorem c63_generate {mem : Mem l} {x : PFp2} {t t₁ : Tape l.F} {sec : Secret}
    (hg : generate l mem x t = .ok (some sec, t₁)) :
    RightOrder l (decode l x) ∧ ∃ x₀ x₁, sec.E.head? = some x₀ ∧ sec.E.getLast? = some x₁ ∧ decode l x₀ = decode l x ∧
      RightOrder l (decode l x₁) ∧
      CyclicIsogeny l (2 ^ (l.iso.e2 * (params l).width)) (decode l x) (decode l x₁) := by
  obtain ⟨ha, a₁, hs⟩ := (generate_ret l mem x).2 _ _ _ hg sec rfl
  obtain ⟨x₀, hx0, hd⟩ := hs.head
  obtain ⟨x₁, hx1, rfl⟩ := hs.last
  obtain ⟨G, hw⟩ := hs.walk
  refine ⟨(rightOrder_iff l).2 ha, x₀, x₁, hx0, hx1, hd, (rightOrder_iff l).2 (hw.super l.setting ha), ?_⟩
  have hz := zip_ne_nil (as := sec.E.map fun a => (⟨decode l a, 1⟩ : Crv l.F))
    (bs := sec.P.map fun x => unpackPoint (decode l x)) (by rw [List.length_map, hs.E]) (by rw [List.length_map, hs.P])
    (params_width l)
  obtain ⟨P, b, hc, hd⟩ := hw.cyc (two_map l.φ l.two) (three_K l) (Or.inl rfl) hz.1
  rw [hz.2] at hc hd
  exact cyclicIsogeny_of l Nat.prime_two hc hd

/-- **C63.** The grid of `Instance` closes: with `a₁` the end of the secret walk from `a₀`, the left chain leads from `a₀` to
the curve `a₂`, the right chain from `a₁` to the curve `a₃`, and the bottom chain from `a₂` to the same `a₃`; all three are
cyclic isogenies of full degree, and the commitments are to the isomorphism classes of `a₂` and `a₃`. -/
theorem c63_instance (H : Hash) {mem : Mem l} {x : PFp2} {t t₁ u u₁ : Tape l.F} {sec : Secret} {v : Inst l} {c : Comm}
    (hg : generate l mem x t = .ok (some sec, t₁)) (hi : instanceM l H sec u = .ok ((v, c), u₁)) :
    ∃ x₁ a₂ a₃, sec.E.getLast? = some x₁ ∧ RightOrder l a₂ ∧ RightOrder l a₃ ∧
      CyclicIsogeny l (3 ^ (l.iso.e3 * (params l).height)) (decode l x) a₂ ∧
      CyclicIsogeny l (3 ^ (l.iso.e3 * (params l).height)) (decode l x₁) a₃ ∧
      CyclicIsogeny l (2 ^ (l.iso.e2 * (params l).width)) a₂ a₃ ∧
      v.E2.A / v.E2.C = a₂ ∧ v.E3.A / v.E3.C = a₃ ∧
      c = ⟨H.out (params l).hash (commitBytes l v.r2 a₂), H.out (params l).hash (commitBytes l v.r3 a₃)⟩ ∧
      v.r2.length = (params l).hide ∧ v.r3.length = (params l).hide := by
  obtain ⟨ha, a₁, hs⟩ := (generate_ret l mem x).2 _ _ _ hg sec rfl
  have hv := (instanceM_ret l H hs ha).2 _ _ _ hi
  obtain ⟨x₁, hx1, rfl⟩ := hs.last
  obtain ⟨G, hw⟩ := hs.walk
  obtain ⟨a₂, a₃, gL, gB, gR, on2, on3, wL, wB, wR⟩ := hv.walks
  have s2 := wL.super l.setting ha
  have s3 := wB.super l.setting s2
  have h2 := two_map l.φ l.two
  have h3 := three_K l
  have zL := zip_ne_nil hv.leftE hv.leftP (params_height l)
  have zB := zip_ne_nil hv.bottomE hv.bottomP (params_width l)
  have zR := zip_ne_nil hv.rightE hv.rightP (params_height l)
  obtain ⟨_, _, cL, dL⟩ := wL.cyc h2 h3 (Or.inr rfl) zL.1
  obtain ⟨_, _, cB, dB⟩ := wB.cyc h2 h3 (Or.inl rfl) zB.1
  obtain ⟨_, _, cR, dR⟩ := wR.cyc h2 h3 (Or.inr rfl) zR.1
  rw [zL.2] at cL dL
  rw [zB.2] at cB dB
  rw [zR.2] at cR dR
  refine ⟨x₁, a₂, a₃, hx1, (rightOrder_iff l).2 s2, (rightOrder_iff l).2 s3, cyclicIsogeny_of l Nat.prime_three cL dL,
    cyclicIsogeny_of l Nat.prime_three cR dR, cyclicIsogeny_of l Nat.prime_two cB dB, on2.2, on3.2, ?_, hv.r2, hv.r3⟩
  have hc := hv.comm
  dsimp only at hc
  rw [hc]
  unfold hashHiding
  rw [commit_bytes l _ on2.1, commit_bytes l _ on3.1, on2.2, on3.2]

/-! ### Honest runs exist -/

theorem packResponse_tag (c : Int) (v : Inst l) (k : Comm) : Ret (packResponse l c v k) (fun r => r.tag = c) := by
  unfold packResponse
  by_cases h1 : c = -1
  · rw [if_pos h1, h1]
    exact Ret.bind (Q := fun _ => True) (fun _ _ _ _ => trivial) fun _ _ => Ret.pure rfl
  rw [if_neg h1]
  by_cases h2 : c = 0
  · rw [if_pos h2, h2]
    exact Ret.bind (Q := fun _ => True) (fun _ _ _ _ => trivial) fun _ _ =>
      Ret.bind (Q := fun _ => True) (fun _ _ _ _ => trivial) fun _ _ => Ret.pure rfl
  rw [if_neg h2]
  by_cases h3 : c = 1
  · rw [if_pos h3, h3]
    exact Ret.bind (Q := fun _ => True) (fun _ _ _ _ => trivial) fun _ _ => Ret.pure rfl
  rw [if_neg h3]
  intro t a t' h
  cases h

theorem packAll_tag : ∀ (cs : List Int) (vs : List (Inst l × Comm)), cs.length = vs.length →
    Ret (packAll l cs vs) (fun rs => rs.map Resp.tag = cs)
  | [], [], _ => by unfold packAll; exact Ret.pure rfl
  | c :: cs, v :: vs, h => by
    unfold packAll
    refine Ret.bind (packResponse_tag l c v.1 v.2) fun r hr => ?_
    refine Ret.bind (packAll_tag cs vs (by simpa using h)) fun rs hrs => Ret.pure ?_
    rw [List.map_cons, hr, hrs]
  | [], _ :: _, h => by simp at h
  | _ :: _, [], h => by simp at h

/-- From every curve of the right order there are runs of `Generate` and then `Prove` that return, if the hash function
answers `ts`. -/
theorem honest_runs {H : Hash} (mem : Mem l) {mem' : Mem l} {fuel : ℕ} {x : PFp2} (h0 : RightOrder l (decode l x))
    {ts : List Int} (hl : ts.length = (params l).reps) (ht : ∀ c ∈ ts, Spec.Trit c) (hH : Answers l H mem' fuel ts) :
    ∃ (sec : Secret) (prf : Proof) (t t₁ t₂ : Tape l.F),
      generate l mem x t = .ok (some sec, t₁) ∧ prove l H mem' fuel sec t₁ = .ok (prf, t₂) ∧ prf.resp.map Resp.tag = ts := by
  have ha := (rightOrder_iff l).1 h0
  obtain ⟨s, _, ⟨sec, a₁, rfl, hs⟩, hg⟩ := generate_can l mem x ha
  obtain ⟨s', prf, -, hp⟩ := prove_can l hH ht hs ha
  refine ⟨sec, prf, _, _, _, hg (s'.app s'), hp s', ?_⟩
  have hp := hp s'
  obtain ⟨x₀, hx0, hd⟩ := hs.head
  obtain ⟨x₁, hx1, rfl⟩ := hs.last
  rw [prove_eq l H mem' fuel hx0 hx1] at hp
  rw [← hd] at hs ha
  obtain ⟨vs, u₁, h1, h2⟩ := bind_ok hp
  have hvs := (instances_ret l H hs ha (params l).reps).2 _ _ _ h1
  unfold respond at h2
  rw [challengeM_can l hH] at h2
  obtain ⟨_, u₂, hts, h2⟩ := bind_ok h2
  cases hts
  obtain ⟨e0, u₃, -, h2⟩ := bind_ok h2
  obtain ⟨e1, u₄, -, h2⟩ := bind_ok h2
  obtain ⟨rs, u₅, h3, h2⟩ := bind_ok h2
  cases h2
  exact packAll_tag l ts vs (by rw [hl, hvs.1]) _ _ _ h3

/-- From every curve of the right order and for every sequence of challenges there are a hash function and runs of
`Generate` and `Prove` that return. -/
theorem honest (mem mem' : Mem l) (hm : mem'.challs.length = (params l).reps) {x : PFp2} (h0 : RightOrder l (decode l x))
    {ts : List Int} (hl : ts.length = (params l).reps) (ht : ∀ c ∈ ts, Spec.Trit c) :
    ∃ (H : Hash) (fuel : ℕ) (sec : Secret) (prf : Proof) (t t₁ t₂ : Tape l.F), (∀ n x, (H.out n x).length = n) ∧
      Answers l H mem' fuel ts ∧
      generate l mem x t = .ok (some sec, t₁) ∧ prove l H mem' fuel sec t₁ = .ok (prf, t₂) ∧ prf.resp.map Resp.tag = ts := by
  obtain ⟨H, fuel, ho, -, hH⟩ := exists_answers l mem' hm (fun n _ => List.replicate n 0) hl ht
  obtain ⟨sec, prf, t, t₁, t₂, h⟩ := honest_runs l mem h0 hl ht hH
  exact ⟨H, fuel, sec, prf, t, t₁, t₂, fun n x => by rw [ho]; simp, hH, h⟩

/-- Memory with some contents. -/
def someMem : Mem l := ⟨fun _ => (⟨0, 0⟩, ⟨0, 0⟩), List.replicate (params l).reps 0⟩

theorem someMem_challs : (someMem l).challs.length = (params l).reps := by simp [someMem]

/-- The challenges -1, 0, 1, -1, 0, 1, … -/
def someTrits : List Int := (List.range (params l).reps).map (fun i => (i % 3 : Int) - 1)

theorem someTrits_length : (someTrits l).length = (params l).reps := by simp [someTrits]

theorem someTrits_trit : ∀ c ∈ someTrits l, Spec.Trit c := by
  intro c hc
  obtain ⟨i, _, rfl⟩ := List.mem_map.1 hc
  unfold Spec.Trit
  omega

/-- The hypotheses of the theorems of this file, from the curve that `--initial` stands for, with challenges -1, 0, 1, … -/
theorem honest_initial : ∃ (H : Hash) (fuel : ℕ) (x : PFp2) (sec : Secret) (prf : Proof) (t t₁ t₂ : Tape l.F),
    (∀ n x, (H.out n x).length = n) ∧ Answers l H (someMem l) fuel (someTrits l) ∧
    x.WF (params l) ∧ leNat x.real = 0 ∧ leNat x.imag = 0 ∧
    generate l (someMem l) x t = .ok (some sec, t₁) ∧ prove l H (someMem l) fuel sec t₁ = .ok (prf, t₂) ∧
    prf.resp.map Resp.tag = someTrits l := by
  have h0 : leNat (leBytes (params l).fpBytes 0) = 0 := leNat_leBytes _ _ (Nat.zero_lt_of_lt (p_lt l))
  obtain ⟨H, fuel, sec, prf, t, t₁, t₂, h⟩ := honest l (someMem l) (someMem l) (someMem_challs l)
    (x := ⟨leBytes (params l).fpBytes 0, leBytes (params l).fpBytes 0⟩) (by
      have : decode l ⟨leBytes (params l).fpBytes 0, leBytes (params l).fpBytes 0⟩ = 0 := by
        unfold decode
        simp only [h0]
        exact QuadraticAlgebra.ext (by simp) (by simp)
      rw [this]
      exact rightOrder_zero l) (someTrits_length l) (someTrits_trit l)
  exact ⟨H, fuel, _, sec, prf, t, t₁, t₂, h.1, h.2.1, ⟨leBytes_length _ _, leBytes_length _ _⟩, h0, h0, h.2.2⟩

/-- `c24_no_ub`, `c24_complete`, `c24_well_formed`, `c24_via_file` and `c63_generate` applied to that run. -/
example : ∃ (H : Hash) (fuel : ℕ) (x : PFp2) (sec : Secret) (prf : Proof) (t t₁ t₂ : Tape l.F),
    generate l (someMem l) x t = .ok (some sec, t₁) ∧ prove l H (someMem l) fuel sec t₁ = .ok (prf, t₂) ∧
    prf.resp.length = (params l).reps ∧ prf.WF (params l) ∧ RightOrder l (decode l x) := by
  obtain ⟨H, fuel, x, sec, prf, t, t₁, t₂, hH, -, -, -, -, hg, hp, -⟩ := honest_initial l
  exact ⟨H, fuel, x, sec, prf, t, t₁, t₂, hg, hp, (c24_complete l H (someMem_challs l) hg hp).1,
    c24_well_formed l H hH (someMem_challs l) hg hp, (c63_generate l hg).1⟩

/-- `c63_instance` applied to a run. -/
example (H : Hash) : ∃ (x : PFp2) (sec : Secret) (v : Inst l) (c : Comm) (t t₁ u u₁ : Tape l.F),
    generate l (someMem l) x t = .ok (some sec, t₁) ∧ instanceM l H sec u = .ok ((v, c), u₁) ∧
    v.r2.length = (params l).hide := by
  obtain ⟨_, _, x, sec, _, t, t₁, _, -, -, -, -, -, hg, -, -⟩ := honest_initial l
  obtain ⟨ha, a₁, hs⟩ := (generate_ret l (someMem l) x).2 _ _ _ hg sec rfl
  obtain ⟨s, ⟨v, c⟩, -, hi⟩ := instanceM_can l H hs ha
  obtain ⟨_, _, _, _, _, _, _, _, _, _, _, _, h, -⟩ := c63_instance l H hg (hi s)
  exact ⟨x, sec, v, c, t, t₁, _, _, hg, hi s, h⟩

/-- The hypotheses of `c23_left_independent_of_secret`: a run of `Instance` for the secret of a run of `Generate` from the initial
curve. -/
example (H : Hash) : ∃ (s : Secret) (a : PFp2) (t u : Tape l.F) (v : Inst l) (c : Comm),
    s.E.head? = some a ∧ instanceM l H s t = .ok ((v, c), u) ∧ v.left = v.left := by
  obtain ⟨_, _, x, sec, _, t, t₁, _, -, -, -, -, -, hg, -, -⟩ := honest_initial l
  obtain ⟨ha, a₁, hs⟩ := (generate_ret l (someMem l) x).2 _ _ _ hg sec rfl
  obtain ⟨s, ⟨v, c⟩, -, hi⟩ := instanceM_can l H hs ha
  obtain ⟨x₀, hx0, hd⟩ := hs.head
  exact ⟨sec, x₀, _, _, v, c, hx0, hi s, (c23_left_independent_of_secret l H hx0 hx0 rfl (hi s) (hi s)).1⟩

end Secuer.ProtocolProps
