import Verif.Text.Lemmas
import Mathlib.Data.List.Forall2

/-! Lemmas about dumping to a stream whose individual calls may fail. -/

namespace Secuer.Text

open Secuer Spec

/-- Perform a list of output calls, stopping at the first checked call that fails. -/
def runWrites (f : Sink) : List (Bool × Bytes) → Bool × Sink
  | [] => (true, f)
  | (checked, s) :: cs =>
    let r := f.put s
    if checked && !r.1 then (false, r.2) else runWrites r.2 cs

theorem runWrites_append (f : Sink) (as bs : List (Bool × Bytes)) :
    runWrites f (as ++ bs) = andThen (runWrites f as) fun f => runWrites f bs := by
  induction as generalizing f with
  | nil => simp [runWrites, andThen]
  | cons a as ih =>
    obtain ⟨c, s⟩ := a
    simp only [List.cons_append, runWrites]
    split
    · simp [andThen]
    · exact ih _

theorem runWrites_single (f : Sink) (s : Bytes) : runWrites f [(true, s)] = f.put s := by
  simp only [runWrites]
  rcases h : f.put s with ⟨b, g⟩
  cases b <;> simp

theorem andThen_congr {r : Bool × Sink} {k k' : Sink → Bool × Sink} (h : ∀ f, k f = k' f) :
    andThen r k = andThen r k' := by
  simp [andThen, h]

theorem andThen_assoc (r : Bool × Sink) (k l : Sink → Bool × Sink) :
    andThen (andThen r k) l = andThen r fun f => andThen (k f) l := by
  unfold andThen
  split <;> simp

theorem dumpHex_eq (bs : Bytes) (f : Sink) : dumpHex f bs = runWrites f (hexWrites bs) := by
  induction bs generalizing f with
  | nil => rfl
  | cons b bs ih =>
    rw [dumpHex, show hexWrites (b :: bs) = [(true, byteText b)] ++ hexWrites bs from rfl,
      runWrites_append, runWrites_single, hex2_eq]
    exact andThen_congr fun f => ih f

theorem dumpBytes_eq (bs : Bytes) (f : Sink) : dumpBytes f bs = runWrites f (bytesWrites bs) := by
  rw [dumpBytes, dumpHex_eq, bytesWrites, runWrites_append]
  refine andThen_congr fun f => ?_
  rw [runWrites_single]; rfl

theorem dumpPackedFp_eq (v : Bytes) (f : Sink) :
    dumpPackedFp f v = runWrites f (coordWrites v) := by
  rw [dumpPackedFp, coordWrites,
    show (true, ascii "0x") :: hexWrites v.reverse = [(true, ascii "0x")] ++ hexWrites v.reverse from rfl,
    runWrites_append, runWrites_single]
  exact andThen_congr fun f => dumpHex_eq _ f

theorem dumpFp2_eq (v : PFp2) (f : Sink) : dumpFp2 f v = runWrites f (fp2Writes v) := by
  rw [dumpFp2, fp2Writes, runWrites_append, runWrites_append, runWrites_append, andThen_assoc,
    andThen_assoc, dumpPackedFp_eq]
  refine andThen_congr fun f => ?_
  rw [runWrites_single]
  refine andThen_congr fun f => ?_
  rw [dumpPackedFp_eq]
  refine andThen_congr fun f => ?_
  rw [runWrites_single]; rfl

theorem dumpChain_eq (vs : List PFp2) (f : Sink) :
    dumpChain f vs = runWrites f (vs.flatMap fp2Writes) := by
  induction vs generalizing f with
  | nil => rfl
  | cons v vs ih =>
    rw [dumpChain, List.flatMap_cons, runWrites_append, dumpFp2_eq]
    exact andThen_congr fun f => ih f

theorem runWrites_unchecked (f : Sink) (s : Bytes) (cs : List (Bool × Bytes)) :
    runWrites f ([(false, s)] ++ cs) = runWrites (f.put s).2 cs := by
  simp [runWrites]

theorem dumpResp_eq (r : Resp) (f : Sink) : dumpResp f r = runWrites f (respWrites r) := by
  cases r with
  | left r2 h3 chain =>
    rw [dumpResp, respWrites, List.append_assoc, List.append_assoc, runWrites_unchecked,
      runWrites_append, dumpBytes_eq]
    refine andThen_congr fun f => ?_
    rw [runWrites_append, dumpBytes_eq]
    exact andThen_congr fun f => dumpChain_eq _ f
  | bottom r2 r3 E2 chain =>
    rw [dumpResp, respWrites, List.append_assoc, List.append_assoc, List.append_assoc,
      runWrites_unchecked, runWrites_append, dumpBytes_eq]
    refine andThen_congr fun f => ?_
    rw [runWrites_append, dumpBytes_eq]
    refine andThen_congr fun f => ?_
    rw [runWrites_append, dumpFp2_eq]
    exact andThen_congr fun f => dumpChain_eq _ f
  | right h2 r3 chain =>
    rw [dumpResp, respWrites, List.append_assoc, List.append_assoc, runWrites_unchecked,
      runWrites_append, dumpBytes_eq]
    refine andThen_congr fun f => ?_
    rw [runWrites_append, dumpBytes_eq]
    exact andThen_congr fun f => dumpChain_eq _ f

theorem dumpResps_eq (rs : List Resp) (f : Sink) :
    dumpResps f rs = runWrites f (rs.flatMap respWrites) := by
  induction rs generalizing f with
  | nil => rfl
  | cons v vs ih =>
    rw [dumpResps, List.flatMap_cons, runWrites_append, dumpResp_eq]
    exact andThen_congr fun f => ih f

theorem dump_eq (p : Proof) (f : Sink) : dump f p = runWrites f (proofWrites p) := by
  rw [dump, proofWrites, List.append_assoc, runWrites_append, dumpFp2_eq]
  refine andThen_congr fun f => ?_
  rw [runWrites_append, dumpFp2_eq]
  exact andThen_congr fun f => dumpResps_eq _ f

/-- `runWrites` succeeds iff no checked call fails. -/
theorem runWrites_true (cs : List (Bool × Bytes)) (f : Sink) :
    (runWrites f cs).1 = true ↔
      ∀ i c, cs[i]? = some c → c.1 = true → f.fault (f.calls + i) = none := by
  induction cs generalizing f with
  | nil => simp [runWrites]
  | cons a as ih =>
    obtain ⟨c, s⟩ := a
    have hput : (f.put s).1 = (f.fault f.calls).isNone ∧ (f.put s).2.fault = f.fault ∧
        (f.put s).2.calls = f.calls + 1 := by
      unfold Sink.put; cases f.fault f.calls <;> simp
    obtain ⟨h1, h2, h3⟩ := hput
    simp only [runWrites]
    by_cases hc : c = true ∧ (f.put s).1 = false
    · simp only [hc.1, hc.2]
      simp only [Bool.not_false, Bool.and_true, if_true, Bool.false_eq_true, false_iff]
      intro hcon
      have := hcon 0 (c, s) (by simp [hc.1]) hc.1
      rw [Nat.add_zero] at this
      rw [h1, this] at hc
      simp at hc
    · have : (c && !(f.put s).1) = false := by
        cases c <;> cases hb : (f.put s).1 <;> simp_all
      simp only [this]
      simp only [Bool.false_eq_true, if_false]
      rw [ih, h2, h3]
      constructor
      · intro h i d hi hd
        cases i with
        | zero =>
          simp only [List.getElem?_cons_zero, Option.some.injEq] at hi
          subst hi
          simp only at hd
          rw [hd] at hc
          simp only [true_and, Bool.not_eq_false] at hc
          rw [h1] at hc
          simpa using hc
        | succ i =>
          rw [List.getElem?_cons_succ] at hi
          have := h i d hi hd
          rw [← this]; congr 1; omega
      · intro h i d hi hd
        have := h (i + 1) d (by rw [List.getElem?_cons_succ]; exact hi) hd
        rw [← this]; congr 1; omega

/-- Text emitted by a run whose checked calls all succeed: every chunk in full, except that
unchecked chunks may be cut. -/
theorem runWrites_out (cs : List (Bool × Bytes)) (f : Sink) (h : (runWrites f cs).1 = true) :
    ∃ ts : List Bytes, (runWrites f cs).2.out = f.out ++ ts.flatten ∧
      List.Forall₂ (fun c t => t <+: c.2 ∧ (c.1 = true → t = c.2)) cs ts := by
  induction cs generalizing f with
  | nil => exact ⟨[], by simp [runWrites], .nil⟩
  | cons a as ih =>
    obtain ⟨c, s⟩ := a
    simp only [runWrites] at h ⊢
    split at h
    · cases h
    · rename_i hc
      rw [if_neg hc]
      obtain ⟨ts, h1, h2⟩ := ih _ h
      refine ⟨(match f.fault f.calls with | none => s | some k => s.take k) :: ts, ?_, .cons ?_ h2⟩
      · rw [h1]
        unfold Sink.put
        cases f.fault f.calls <;> simp [List.append_assoc]
      · unfold Sink.put at hc
        cases hf : f.fault f.calls with
        | none => simp
        | some k =>
          simp only [hf] at hc ⊢
          refine ⟨List.take_prefix _ _, fun hcc => ?_⟩
          simp [hcc] at hc

theorem hexWrites_flat (bs : Bytes) : (hexWrites bs).flatMap (·.2) = bytesText bs := by
  simp [hexWrites, bytesText, List.flatMap_map]

theorem coordWrites_flat (v : Bytes) : (coordWrites v).flatMap (·.2) = coordText v := by
  simp [coordWrites, coordText, hexWrites_flat]

theorem fp2Writes_flat (v : PFp2) : (fp2Writes v).flatMap (·.2) = fp2Line v := by
  simp [fp2Writes, fp2Line, fp2Body, coordWrites_flat]

theorem bytesWrites_flat (v : Bytes) : (bytesWrites v).flatMap (·.2) = bytesLine v := by
  simp [bytesWrites, bytesLine, hexWrites_flat]

theorem chainWrites_flat (vs : List PFp2) :
    (vs.flatMap fp2Writes).flatMap (·.2) = chainLines vs := by
  induction vs with
  | nil => rfl
  | cons v vs ih =>
    rw [List.flatMap_cons, List.flatMap_append, ih, fp2Writes_flat]; simp [chainLines]

theorem respWrites_flat (r : Resp) : (respWrites r).flatMap (·.2) = respText r := by
  cases r <;>
    simp only [respWrites, respText, List.flatMap_append, bytesWrites_flat, chainWrites_flat,
      fp2Writes_flat, List.flatMap_cons, List.flatMap_nil, List.append_nil]

theorem proofWrites_flat (p : Proof) : (proofWrites p).flatMap (·.2) = proofText p := by
  have : ∀ rs : List Resp, (rs.flatMap respWrites).flatMap (·.2) = rs.flatMap respText := by
    intro rs
    induction rs with
    | nil => rfl
    | cons v vs ih => rw [List.flatMap_cons, List.flatMap_append, ih, respWrites_flat]; simp
  simp only [proofWrites, proofText, List.flatMap_append, fp2Writes_flat, this]

end Secuer.Text
