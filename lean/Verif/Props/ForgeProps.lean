import Verif.Props.SageVerifyProps

/-!
# C74: the Sage verifier accepts proofs made without any isogeny between the two curves

`read_bytes` (`verify.sage:19-23`) accepts strings of any length, and `challenge` (`verify.sage:45-61`) hashes the pairs of hashes
one after the other. So the bytes that are hashed can be divided into pairs after the challenge is known.
-/

namespace Secuer.ForgeProps

open Secuer.Protocol Secuer.Curve Secuer.Mont Secuer.Field Secuer.Text Secuer.Scalar Secuer.ChainProps Secuer.CurveProps
open Secuer.ProtocolProps Secuer.CliProps Secuer.Sage Secuer.SageVerifyProps
open Secuer.Text.Spec (proofText)
open Secuer.Challenge (Spec.Trit)

variable {l : Level}

/-! ### Dividing a string -/

section
variable (L R B : Bytes) (K : ℕ)

/-- The hash of a right response, then those of `k` bottom responses, then that of a left response -/
def piece (k : ℕ) : Bytes := R ++ (List.replicate k B).flatten ++ L

/-- `piece 0`, …, `piece (K - 1)` -/
def unit : Bytes := (List.range K).flatMap (piece L R B)

theorem unit_split {k : ℕ} (hk : k < K) : ∃ X Y, unit L R B K = X ++ (piece L R B k ++ Y) := by
  have e : K = k + (1 + (K - k - 1)) := by omega
  refine ⟨(List.range k).flatMap (piece L R B), ?_⟩
  unfold unit
  rw [e, List.range_add, List.flatMap_append]
  refine ⟨?_, by
    congr 1
    rw [add_comm 1, List.range_succ_eq_map, List.map_cons, List.flatMap_cons, add_zero]⟩

/-- The pair of hashes `h` can be that of a response with tag `t`. -/
def Fits (B2 B3 : Bytes) (t : Int) (h : Bytes × Bytes) : Prop :=
  (t = -1 ∧ h.1 = L ∧ h.2 ≠ []) ∨ (t = 0 ∧ h = (B2, B3)) ∨ (t = 1 ∧ h.1 ≠ [] ∧ h.2 = R)

theorem zeros_split : ∀ ts : List Int, ∃ k ts', ts = List.replicate k 0 ++ ts' ∧ ts'.head? ≠ some 0
  | [] => ⟨0, [], rfl, by simp⟩
  | t :: ts => by
    by_cases h : t = 0
    · obtain ⟨k, ts', e, h'⟩ := zeros_split ts
      exact ⟨k + 1, ts', by rw [h, e, List.replicate_succ]; rfl, h'⟩
    · exact ⟨0, t :: ts, rfl, by simpa using h⟩

theorem fits_zeros (B2 B3 : Bytes) (k : ℕ) :
    List.Forall₂ (Fits L R B2 B3) (List.replicate k 0) (List.replicate k (B2, B3)) := by
  induction k with
  | zero => exact .nil
  | succ k ih => exact .cons (Or.inr (Or.inl ⟨rfl, rfl⟩)) ih

theorem divide {B2 B3 : Bytes} (hL : L ≠ []) (hR : R ≠ []) {tail : Bytes} (htail : tail ≠ []) : ∀ (n : ℕ) (ts : List Int) (X : Bytes),
    ts.length ≤ n → ts.length ≤ K → (∀ t ∈ ts, Spec.Trit t) → ts.head? ≠ some 0 → ts.getLast? = some (-1) →
    ∃ hs, List.Forall₂ (Fits L R B2 B3) ts hs ∧
      (hs.map fun h => h.1 ++ h.2).flatten = L ++ (X ++ ((List.replicate n (unit L R (B2 ++ B3) K)).flatten ++ tail))
  | _, [], _, _, _, _, _, hlast => by simp at hlast
  | 0, _ :: _, _, hn, _, _, _, _ => by simp at hn
  | n + 1, t :: ts, X, hn, hK, htr, hhead, hlast => by
    obtain ⟨k, ts', rfl, hhead'⟩ := zeros_split ts
    have ht0 : t ≠ 0 := by simpa using hhead
    have ht : t = -1 ∨ t = 1 := by
      have := htr t (by simp)
      unfold Spec.Trit at this
      omega
    simp only [List.length_cons, List.length_append, List.length_replicate] at hn hK
    by_cases he : ts' = []
    · subst he
      have hk : k = 0 := by
        by_contra hk
        obtain ⟨j, rfl⟩ := Nat.exists_eq_succ_of_ne_zero hk
        rw [List.append_nil, List.replicate_succ', ← List.cons_append, List.getLast?_concat] at hlast
        simp at hlast
      subst hk
      have ht1 : t = -1 := by simpa using hlast
      refine ⟨[(L, X ++ ((List.replicate (n + 1) (unit L R (B2 ++ B3) K)).flatten ++ tail))], .cons (Or.inl ⟨ht1, rfl, ?_⟩) .nil, ?_⟩
      · simp [htail]
      · simp
    · obtain ⟨Y, Z, hU⟩ := unit_split L R (B2 ++ B3) K (k := k) (by omega)
      have hlast' : ts'.getLast? = some (-1) := by
        rw [← List.cons_append, List.getLast?_append_of_ne_nil _ he] at hlast
        exact hlast
      obtain ⟨hs, hf, hcat⟩ := divide hL hR htail n ts' Z (by omega) (by omega) (fun t h => htr t (by simp [h])) hhead' hlast'
      have hz : ((List.replicate k (B2, B3)).map fun h => h.1 ++ h.2).flatten = (List.replicate k (B2 ++ B3)).flatten := by
        rw [List.map_replicate]
      rcases ht with rfl | rfl
      · refine ⟨(L, X ++ (Y ++ R)) :: (List.replicate k (B2, B3) ++ hs), .cons (Or.inl ⟨rfl, rfl, by simp [hR]⟩)
          (List.rel_append (fits_zeros L R B2 B3 k) hf), ?_⟩
        rw [List.map_cons, List.map_append, List.flatten_cons, List.flatten_append, hz, hcat, List.replicate_succ, List.flatten_cons, hU]
        simp [piece, List.append_assoc]
      · refine ⟨(L ++ (X ++ Y), R) :: (List.replicate k (B2, B3) ++ hs), .cons (Or.inr (Or.inr ⟨rfl, by simp [hL], rfl⟩))
          (List.rel_append (fits_zeros L R B2 B3 k) hf), ?_⟩
        rw [List.map_cons, List.map_append, List.flatten_cons, List.flatten_append, hz, hcat, List.replicate_succ, List.flatten_cons, hU]
        simp [piece, List.append_assoc]

end

/-! ### The responses -/

theorem pne_encode (v : l.F) : PNe (encode l v) := by
  obtain ⟨h1, h2⟩ := Protocol.encode_wf l v
  have hp : 0 < (params l).fpBytes := (params_supported l).pos.fpBytes
  constructor
  · intro h; rw [h] at h1; simp at h1; omega
  · intro h; rw [h] at h2; simp at h2; omega

/-- Given what the three kinds of responses need, every tag with hashes that fit it has a response. -/
theorem exists_resps {lib : Lib l} {H : Hash} {a₀ a₁ a₂ b₀ b₁ b₂ : l.F} {xs ys zs : List l.F} {r : Bytes} (hr : r ≠ [])
    (hx : unpackChain lib a₀ xs 3 (3 ^ l.iso.e3) = .ok b₀) (hy : unpackChain lib a₁ ys 3 (3 ^ l.iso.e3) = .ok b₁)
    (hz : unpackChain lib a₂ zs 2 (2 ^ l.iso.e2) = .ok b₂) (hc : curve lib a₂ = .ok ()) (hxn : xs.length = (parameters l).h)
    (hyn : ys.length = (parameters l).h) (hzn : zs.length = (parameters l).w) {ts : List Int} {hs : List (Bytes × Bytes)}
    (h : List.Forall₂ (Fits (H.out 32 (commitBytes l r b₀)) (H.out 32 (commitBytes l r b₁)) (H.out 32 (commitBytes l r a₂))
      (H.out 32 (commitBytes l r b₂))) ts hs) :
    ∃ rs : List Resp, rs.map Resp.tag = ts ∧ (∀ q ∈ rs, SResp.Readable l q) ∧
      List.Forall₂ (fun q h => unpackResp lib H a₀ a₁ q = .ok h) (rs.map (sresp l)) hs := by
  obtain ⟨pa, pb, -, -, -⟩ := parameters_eq l
  have hne : ∀ {vs : List l.F}, ∀ v ∈ vs.map (encode l), PNe v := by
    intro vs v hv
    obtain ⟨w, -, rfl⟩ := List.mem_map.1 hv
    exact pne_encode w
  induction h with
  | nil => exact ⟨[], rfl, by simp, .nil⟩
  | @cons t h ts hs hf _ ih =>
    obtain ⟨rs, h1, h2, h3⟩ := ih
    rcases hf with ⟨rfl, e, hn⟩ | ⟨rfl, e⟩ | ⟨rfl, hn, e⟩
    · refine ⟨.left r h.2 (xs.map (encode l)) :: rs, by rw [List.map_cons, h1]; rfl, ?_, .cons ?_ h3⟩
      · intro q hq
        rcases List.mem_cons.1 hq with rfl | hq
        · exact ⟨hr, hn, by rw [List.length_map, hxn], hne⟩
        · exact h2 q hq
      · simp only [sresp, unpackResp, map_decode_encode, pb, hx, Res.bind, SageProps.commit_eq, ← e]
    · refine ⟨.bottom r r (encode l a₂) (zs.map (encode l)) :: rs, by rw [List.map_cons, h1]; rfl, ?_, .cons ?_ h3⟩
      · intro q hq
        rcases List.mem_cons.1 hq with rfl | hq
        · exact ⟨hr, hr, pne_encode a₂, by rw [List.length_map, hzn], hne⟩
        · exact h2 q hq
      · simp only [sresp, unpackResp, map_decode_encode, decode_encode, pa, hz, hc, Res.bind, SageProps.commit_eq, ← e]
    · refine ⟨.right h.1 r (ys.map (encode l)) :: rs, by rw [List.map_cons, h1]; rfl, ?_, .cons ?_ h3⟩
      · intro q hq
        rcases List.mem_cons.1 hq with rfl | hq
        · exact ⟨hn, hr, by rw [List.length_map, hyn], hne⟩
        · exact h2 q hq
      · simp only [sresp, unpackResp, map_decode_encode, pb, hy, Res.bind, SageProps.commit_eq, ← e]

/-! ### C74 -/

/-- The challenges that can be answered: the first is not a bottom one, the last is a left one. -/
def Answerable (ts : List Int) : Prop := ts.head? ≠ some 0 ∧ ts.getLast? = some (-1)

/-- **C74.** For any two curves of the right order there is a string `S` such that for every string `S ++ tail` the following
holds: if the challenges derived from the two curves and `S ++ tail` begin with a nonzero one and end with -1 (two challenges out
of nine), then there is a file for these two curves which the Sage verifier accepts. Nothing is assumed about isogenies between
the two curves, so the statement "the verifier accepts, hence the prover knows an isogeny" fails for this verifier: try values of
`tail` until the challenges are such. -/
theorem C74_sage_forgery {lib : Lib l} (hlib : lib.OK) (H : Hash) (hH : ∀ n x, (H.out n x).length = n) {a₀ a₁ : l.F}
    (h0 : RightOrder l a₀) (h1 : RightOrder l a₁) : ∃ S : Bytes, ∀ (tail : Bytes) (ts : List Int), tail ≠ [] →
    ts.length = (params l).reps → (∀ t ∈ ts, Spec.Trit t) → Answerable ts →
    IsChallenge l H (1 :: (fieldBytes l (jOf a₀) ++ fieldBytes l (jOf a₁) ++ (S ++ tail))) ts →
    ∃ p : Proof, decode l p.E0 = a₀ ∧ decode l p.E1 = a₁ ∧ p.resp.map Resp.tag = ts ∧
      ∃ fuel, ∀ rest, run lib H fuel (proofText p ++ rest) = .ok (a₀, a₁) := by
  obtain ⟨-, -, pr, pw, ph⟩ := parameters_eq l
  have hA : Deg l 2 l.iso.e2 := Or.inl ⟨rfl, rfl⟩
  have hB : Deg l 3 l.iso.e3 := Or.inr ⟨rfl, rfl⟩
  obtain ⟨xs, b₀, hxn, -, hx⟩ := exists_chain hlib h0 hB (parameters l).h
  obtain ⟨ys, b₁, hyn, -, hy⟩ := exists_chain hlib h1 hB (parameters l).h
  obtain ⟨zs, b₂, hzn, -, hz⟩ := exists_chain hlib h0 hA (parameters l).w
  have nonempty : ∀ {x : Bytes}, H.out 32 x ≠ [] := by
    intro x h
    have := hH 32 x
    rw [h] at this
    simp at this
  refine ⟨H.out 32 (commitBytes l [0] b₀) ++ (List.replicate (params l).reps (unit (H.out 32 (commitBytes l [0] b₀))
    (H.out 32 (commitBytes l [0] b₁)) (H.out 32 (commitBytes l [0] a₀) ++ H.out 32 (commitBytes l [0] b₂))
    (params l).reps)).flatten, ?_⟩
  intro tail ts htail hlen htr hans hch
  obtain ⟨hs, hf, hcat⟩ := divide (H.out 32 (commitBytes l [0] b₀)) (H.out 32 (commitBytes l [0] b₁)) (params l).reps
    (B2 := H.out 32 (commitBytes l [0] a₀)) (B3 := H.out 32 (commitBytes l [0] b₂)) nonempty nonempty htail (params l).reps ts []
    hlen.le hlen.le htr hans.1 hans.2
  obtain ⟨rs, hrs, hread, hun⟩ := exists_resps (by simp) hx hy hz (curve_ok hlib h0) hxn hyn hzn hf
  have hrl : rs.length = (params l).reps := by rw [← hlen, ← hrs, List.length_map]
  have hp : SProof.Readable l ⟨encode l a₀, encode l a₁, rs⟩ := ⟨pne_encode a₀, pne_encode a₁, by rw [pr, ← hrl], hread⟩
  have hsp : sproof l ⟨encode l a₀, encode l a₁, rs⟩ = ⟨a₀, a₁, ts, rs.map (sresp l)⟩ := by
    simp only [sproof, decode_encode, hrs]
  obtain ⟨fuel, hv⟩ := verify_accepts (prf := ⟨a₀, a₁, ts, rs.map (sresp l)⟩) hlib (by simpa using hrl) h0 h1 hlen hun (by
    unfold challengeBytes
    rw [hcat]
    simpa [List.append_assoc] using hch)
  refine ⟨⟨encode l a₀, encode l a₁, rs⟩, decode_encode l a₀, decode_encode l a₁, hrs, fuel, fun rest => ?_⟩
  unfold run
  rw [read_text hp]
  simp only [Res.bind]
  rw [hsp, hv]

/-- The hypotheses are met, for every level, and so is that of C73: with a hash function for which the challenges are 1, 0, …, 0,
-1 for every input, the file is accepted, whatever the two curves are. -/
example {a₀ a₁ : l.F} (h0 : RightOrder l a₀) (h1 : RightOrder l a₁) : ∃ (H : Hash) (S tail : Bytes) (ts : List Int) (p : Proof)
    (fuel : ℕ), (someLib l).OK ∧ ExactOrder (someLib l) ∧ (∀ n x, (H.out n x).length = n) ∧ tail ≠ [] ∧
    ts.length = (params l).reps ∧ (∀ t ∈ ts, Spec.Trit t) ∧ Answerable ts ∧
    IsChallenge l H (1 :: (fieldBytes l (jOf a₀) ++ fieldBytes l (jOf a₁) ++ (S ++ tail))) ts ∧
    run (someLib l) H fuel (proofText p) = .ok (a₀, a₁) := by
  have hr : 2 ≤ (params l).reps := by cases l <;> decide
  let ts : List Int := (1 :: List.replicate ((params l).reps - 2) 0) ++ [-1]
  have hl : ts.length = (params l).reps := by simp [ts]; omega
  have ht : ∀ t ∈ ts, Spec.Trit t := by
    intro t ht
    simp only [ts, List.cons_append, List.mem_cons, List.mem_append, List.mem_replicate, List.not_mem_nil, or_false] at ht
    unfold Spec.Trit
    rcases ht with rfl | ⟨_, rfl⟩ | rfl <;> simp
  have ha : Answerable ts := ⟨by simp [ts], by simp only [ts]; rw [List.getLast?_concat]⟩
  obtain ⟨H, fuel, ho, -, hA⟩ := exists_answers l (someMem l) (someMem_challs l) (fun n _ => List.replicate n 0) hl ht
  have hH : ∀ n x, (H.out n x).length = n := fun n x => by rw [ho]; simp
  have hC : ∀ input, IsChallenge l H input ts := by
    intro input
    obtain ⟨k, hk⟩ := hA input
    exact ⟨k, Challenge.C09_challenge_streaming _ _ _ _ _ _ (someMem_challs l) hk⟩
  obtain ⟨S, hS⟩ := C74_sage_forgery someLib_ok H hH h0 h1
  obtain ⟨p, -, -, -, fuel, hp⟩ := hS [0] ts (by simp) hl ht ha (hC _)
  exact ⟨H, S, [0], ts, p, fuel, someLib_ok, fun a _ h => someLib_exact a h, hH, by simp, hl, ht, ha, hC _, by simpa using hp []⟩

end Secuer.ForgeProps
