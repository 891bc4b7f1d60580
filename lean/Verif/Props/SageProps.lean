import Verif.Sage.Model
import Verif.Props.CliProps
import Verif.Props.KeccakProps

/-!
# C56: the hashing of the Sage verifier and of the C verifier
-/

namespace Secuer.SageProps

open Secuer.Protocol Secuer.Curve Secuer.Mont Secuer.Field Secuer.Text Secuer.Scalar Secuer.ChainProps Secuer.CurveProps
open Secuer.ProtocolProps Secuer.CliProps
open Secuer.Challenge.Spec (tritStream firstBlocks byteTrits Good)

variable (l : Level)

/-- The curves at the ends of the isogenies in a response, `E₂` first -/
def Reached (a₀ a₁ : l.F) : Resp → l.F × l.F → Prop
  | .left .., (a₂, _) => RightOrder l a₂ ∧ CyclicIsogeny l (3 ^ (l.iso.e3 * (params l).height)) a₀ a₂
  | .bottom _ _ x _, (a₂, a₃) => decode l x = a₂ ∧ RightOrder l a₂ ∧ RightOrder l a₃ ∧
      CyclicIsogeny l (2 ^ (l.iso.e2 * (params l).width)) a₂ a₃
  | .right .., (_, a₃) => RightOrder l a₃ ∧ CyclicIsogeny l (3 ^ (l.iso.e3 * (params l).height)) a₁ a₃

/-! ### Lemmas -/

theorem pack_eq (v : l.F) : Sage.pack l v = fieldBytes l v := by
  have : (Nat.size l.p + 7) / 8 = (params l).fpBytes := by cases l <;> decide +kernel
  rw [Sage.pack, this, fieldBytes]

theorem input_eq (a₀ a₁ : l.F) (hs : List (Bytes × Bytes)) : Sage.challengeInput l a₀ a₁ hs = challengeBytes l a₀ a₁ hs := by
  have key : ∀ (hs : List (Bytes × Bytes)) (b : Bytes),
      hs.foldl (fun buf c => buf ++ (c.1 ++ c.2)) b = b ++ (hs.map fun c => c.1 ++ c.2).flatten := by
    intro hs
    induction hs with
    | nil => intro b; simp
    | cons c hs ih => intro b; rw [List.foldl_cons, ih]; simp
  rw [Sage.challengeInput, key, pack_eq, pack_eq, challengeBytes]
  simp

theorem step_eq (v : UInt8) (ts : List Int) : Sage.step v ts = ts ++ tritStream [v] := by
  unfold Sage.step
  by_cases h : v.toNat ≥ 243
  · rw [if_pos h, Challenge.tritStream_cons_bad (by unfold Good; omega)]
    simp [tritStream]
  · rw [if_neg h, Challenge.tritStream_cons_good (by unfold Good; omega)]
    simp only [List.range, List.range.loop, List.foldl_cons, List.foldl_nil, byteTrits, List.map_cons, List.map_nil]
    have e : ∀ x : ℕ, (if x % 3 = 2 then -1 else ((x % 3 : ℕ) : Int)) = Int.bmod (x : Int) 3 := by
      intro x
      rw [Int.bmod_def]
      have : x % 3 < 3 := Nat.mod_lt _ (by norm_num)
      split <;> split <;> omega
    simp only [e, Nat.div_div_eq_div_mul]
    simp [tritStream]

/-- The byte-at-a-time sampler of `verify.sage` -/
theorem sampler_eq (n : ℕ) : ∀ (bs : List UInt8) (ts : List Int),
    Sage.sampler n bs ts = if n ≤ (ts ++ tritStream bs).length then some ((ts ++ tritStream bs).take n) else none
  | [], ts => by
    unfold Sage.sampler
    have : tritStream [] = [] := rfl
    rw [this, List.append_nil]
    by_cases h : ts.length < n
    · rw [if_pos h, if_neg (by omega)]
    · rw [if_neg h, if_pos (by omega)]
  | v :: bs, ts => by
    unfold Sage.sampler
    have e : tritStream (v :: bs) = tritStream [v] ++ tritStream bs := Challenge.tritStream_append [v] bs
    rw [e, ← List.append_assoc, ← step_eq]
    by_cases h : ts.length < n
    · rw [if_pos h]
      exact sampler_eq n bs _
    · rw [if_neg h, step_eq, List.append_assoc, if_pos (by rw [List.length_append]; omega),
        List.take_append_of_le_length (by omega)]

theorem commit_eq (H : Hash) (r : Bytes) (a : l.F) : Sage.hashHiding l H r (jOf a) = H.out 32 (commitBytes l r a) := by
  rw [Sage.hashHiding, pack_eq, commitBytes]
  rfl

/-! ### The two smaller parameter sets -/

/-- **C56.** For 434 and 503: if the C verifier accepts a proof read from a file, then the hashes that the Sage verifier
computes for the same curves give the same challenge input, and its sampler, fed with the same SHAKE256 stream, stops with the
tags of the proof. -/
theorem C56_agree (hl : l = .l434 ∨ l = .l503) (H : Hash) {mem : Mem l} (hm : mem.challs.length = (params l).reps) {fuel : ℕ}
    {prf : CProof} (hw : prf.WF (params l)) {rs : List Resp} (hr : prf.resp.map CResp.active = rs.map some)
    {t t' : Tape l.F} (h : verify l H mem fuel prf t = .ok (true, t')) :
    ∃ cs : List (l.F × l.F), List.Forall₂ (Reached l (decode l prf.E0) (decode l prf.E1)) rs cs ∧
      ∃ k, ∀ m, k ≤ m →
        Sage.sampler rs.length
          (firstBlocks (H.block (Sage.challengeInput l (decode l prf.E0) (decode l prf.E1)
            (List.zipWith (fun r c => Sage.unpack l H c.1 c.2 r) rs cs))) m) [] = some (rs.map Resp.tag) := by
  have h32 : (params l).hash = 32 := by rcases hl with rfl | rfl <;> rfl
  obtain ⟨r0, r1, os, hn, hos, k, hk⟩ := c15_sound l H mem hm fuel hw t t' h
  have key : ∃ cs : List (l.F × l.F), List.Forall₂ (Reached l (decode l prf.E0) (decode l prf.E1)) rs cs ∧
      List.zipWith (fun r c => Sage.unpack l H c.1 c.2 r) rs cs = os.map (fun o => (o.2.h2, o.2.h3)) ∧
      os.map Prod.fst = rs.map Resp.tag := by
    clear hk hn h hw
    generalize prf.resp = qs at hr hos
    induction hos generalizing rs with
    | nil =>
      cases rs with
      | nil => exact ⟨[], .nil, rfl, rfl⟩
      | cons => simp at hr
    | @cons q o qs os a b ih =>
      cases rs with
      | nil => simp at hr
      | cons r rs =>
        simp only [List.map_cons, List.cons.injEq] at hr
        obtain ⟨cs, h1, h2, h3⟩ := ih hr.2
        have hq := hr.1
        have one : ∃ c, Reached l (decode l prf.E0) (decode l prf.E1) r c ∧ Sage.unpack l H c.1 c.2 r = (o.2.h2, o.2.h3) ∧
            o.1 = r.tag := by
          cases r with
          | left r2 h3 ch =>
            obtain ⟨e0, e1, e2, e3⟩ := active_left hq
            cases a with
            | left a₂ ht ho hi =>
              refine ⟨(a₂, 0), ⟨ho, hi⟩, ?_, rfl⟩
              rw [Sage.unpack, commit_eq, h32, e1, e2]
            | bottom _ _ ht => omega
            | right _ ht => omega
          | bottom r2 r3 x ch =>
            obtain ⟨e0, e1, e2, e3, e4⟩ := active_bottom hq
            cases a with
            | left _ ht => omega
            | bottom a₂ a₃ ht hd ho ho' hi =>
              refine ⟨(a₂, a₃), ⟨by rw [← hd, e3], ho, ho', hi⟩, ?_, rfl⟩
              rw [Sage.unpack, commit_eq, commit_eq, h32, e1, e2]
            | right _ ht => omega
          | right h2 r3 ch =>
            obtain ⟨e0, e1, e2, e3⟩ := active_right hq
            cases a with
            | left _ ht => omega
            | bottom _ _ ht => omega
            | right a₃ ht ho hi =>
              refine ⟨(0, a₃), ⟨ho, hi⟩, ?_, rfl⟩
              rw [Sage.unpack, commit_eq, h32, e1, e2]
        obtain ⟨c, c1, c2, c3⟩ := one
        refine ⟨c :: cs, .cons c1 h1, ?_, ?_⟩
        · rw [List.zipWith_cons_cons, c2, h2, List.map_cons]
        · rw [List.map_cons, List.map_cons, c3, h3]
  obtain ⟨cs, h1, h2, h3⟩ := key
  refine ⟨cs, h1, k, fun m hmk => ?_⟩
  have hk := hk m hmk
  have hrs : rs.length = (params l).reps := by
    have := congrArg List.length h3
    simpa [hn] using this.symm
  rw [h2, input_eq, sampler_eq, List.nil_append, hrs]
  have hlen := congrArg List.length hk
  rw [List.length_map, hn, List.length_take] at hlen
  rw [if_pos (by omega), ← hk, h3]

/-! ### The two larger parameter sets -/

/-- **C56.** For 610 and 751: whatever curves are reached, the Sage verifier hashes a shorter string than the C verifier, so the
two challenges are derived from different inputs. -/
theorem C56_differ (hl : l = .l610 ∨ l = .l751) (H : Hash) (hH : ∀ n x, (H.out n x).length = n) {mem : Mem l}
    (hm : mem.challs.length = (params l).reps) {fuel : ℕ} {prf : CProof} (hw : prf.WF (params l)) {rs : List Resp}
    (hr : prf.resp.map CResp.active = rs.map some) {t t' : Tape l.F} (h : verify l H mem fuel prf t = .ok (true, t'))
    (b₀ b₁ : l.F) (cs : List (l.F × l.F)) (hcs : cs.length = rs.length) :
    ∃ os : List (Int × Comm), List.Forall₂ (fun r o => Opens l H (decode l prf.E0) (decode l prf.E1) r o) prf.resp os ∧
      IsChallenge l H (challengeBytes l (decode l prf.E0) (decode l prf.E1) (os.map fun o => (o.2.h2, o.2.h3)))
        (os.map Prod.fst) ∧
      (Sage.challengeInput l b₀ b₁ (List.zipWith (fun r c => Sage.unpack l H c.1 c.2 r) rs cs)).length <
        (challengeBytes l (decode l prf.E0) (decode l prf.E1) (os.map fun o => (o.2.h2, o.2.h3))).length := by
  have h32 : 32 < (params l).hash := by rcases hl with rfl | rfl <;> decide
  obtain ⟨r0, r1, os, hn, hos, hc⟩ := c15_sound l H mem hm fuel hw t t' h
  refine ⟨os, hos, hc, ?_⟩
  have hlens := opens_lengths l H hH hw.2.2.2 hos
  have hreps : 0 < (params l).reps := by cases l <;> decide
  rw [input_eq]
  unfold challengeBytes
  simp only [List.length_cons, List.length_append, fieldBytes_length]
  have key : ∀ (rs : List Resp) (cs : List (l.F × l.F)) (qs : List CResp) (os : List (Bytes × Bytes)),
      cs.length = rs.length → os.length = rs.length → qs.map CResp.active = rs.map some → (∀ q ∈ qs, q.WF (params l)) →
      (∀ c ∈ os, c.1.length = (params l).hash ∧ c.2.length = (params l).hash) →
      (((List.zipWith (fun r c => Sage.unpack l H c.1 c.2 r) rs cs).map fun c => c.1 ++ c.2).flatten).length + rs.length ≤
        ((os.map fun c => c.1 ++ c.2).flatten).length := by
    intro rs
    induction rs with
    | nil => intro cs qs os h1 h2 _ _ _; simp
    | cons r rs ih =>
      intro cs qs os h1 h2 h3 hwf h4
      cases cs with
      | nil => simp at h1
      | cons c cs =>
        cases os with
        | nil => simp at h2
        | cons o os =>
          cases qs with
          | nil => simp at h3
          | cons q qs =>
            simp only [List.map_cons, List.cons.injEq] at h3
            have := ih cs qs os (by simpa using h1) (by simpa using h2) h3.2 (fun q hq => hwf q (by simp [hq]))
              fun c hc => h4 c (by simp [hc])
            obtain ⟨o1, o2⟩ := h4 o (by simp)
            have hone : ((Sage.unpack l H c.1 c.2 r).1 ++ (Sage.unpack l H c.1 c.2 r).2).length + 1 ≤ (o.1 ++ o.2).length := by
              have hq := hwf q (by simp)
              rw [List.length_append, List.length_append, o1, o2]
              cases r with
              | left r2 h3' ch =>
                obtain ⟨-, -, e2, -⟩ := active_left h3.1
                rw [Sage.unpack, commit_eq, hH, ← e2, hq.1.2.1]
                omega
              | bottom r2 r3 x ch =>
                rw [Sage.unpack, commit_eq, commit_eq, hH, hH]
                omega
              | right h2' r3 ch =>
                obtain ⟨-, e1, -, -⟩ := active_right h3.1
                rw [Sage.unpack, commit_eq, hH, ← e1, hq.2.2.1.1]
                omega
            simp only [List.zipWith_cons_cons, List.map_cons, List.flatten_cons, List.length_append, List.length_cons] at this hone ⊢
            omega
  have hrs : rs.length = (params l).reps := by
    have := congrArg List.length hr
    rw [List.length_map, List.length_map, hw.2.2.1] at this
    exact this.symm
  have := key rs cs prf.resp (os.map fun o => (o.2.h2, o.2.h3)) hcs (by rw [List.length_map, hn, hrs]) hr hw.2.2.2 hlens
  omega

/-! ### Examples -/

theorem exists_active {qs : List CResp} (h : ∀ c ∈ qs.map CResp.tag, Challenge.Spec.Trit c) :
    ∃ rs : List Resp, qs.map CResp.active = rs.map some := by
  induction qs with
  | nil => exact ⟨[], rfl⟩
  | cons q qs ih =>
    obtain ⟨rs, hrs⟩ := ih fun c hc => h c (by simp only [List.map_cons, List.mem_cons]; exact .inr hc)
    have : ∃ r, q.active = some r := by
      unfold CResp.active
      rcases h q.tag (by simp) with h | h | h <;> rw [h] <;> exact ⟨_, rfl⟩
    obtain ⟨r, hr⟩ := this
    exact ⟨r :: rs, by rw [List.map_cons, List.map_cons, hr, hrs]⟩

/-- The hypotheses of `C56_agree` (434, 503) and `C56_differ` (610, 751): an accepted proof with tags -1, 0, 1, … -/
example : ∃ (H : Hash) (fuel : ℕ) (prf : CProof) (rs : List Resp) (t t' : Tape l.F), (∀ n x, (H.out n x).length = n) ∧
    prf.WF (params l) ∧ prf.resp.map CResp.active = rs.map some ∧ prf.resp.map CResp.tag = someTrits l ∧
    verify l H (someMem l) fuel prf t = .ok (true, t') := by
  obtain ⟨H, fuel, prf, t, t', hH, -, hw, -, -, htag, h⟩ := accepting l (someMem l) (someMem_challs l) (rightOrder_zero l)
    (rightOrder_zero l) (someTrits_length l) (someTrits_trit l)
  obtain ⟨rs, hrs⟩ := exists_active (qs := prf.resp) (by rw [htag]; exact someTrits_trit l)
  exact ⟨H, fuel, prf, rs, t, t', hH, hw, hrs, htag, h⟩

end Secuer.SageProps
