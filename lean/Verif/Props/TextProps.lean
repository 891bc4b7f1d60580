import Verif.Text.Faults
import Verif.Text.Grammar

/-!
# Properties C01-C07: the text format

Theorems about the model in `Verif.Text.Model` (`poik.c:1508-1673`) stated against the
specification of the format in `Verif.Text.Spec`.
-/

namespace Secuer.Text

open Secuer Spec

/-! ## Concrete witnesses used by the examples -/

/-- A packed element with non-trivial bytes. -/
def exFp2 (P : Params) : PFp2 :=
  ⟨(List.range P.fpBytes).map UInt8.ofNat, (List.range P.fpBytes).map fun i => UInt8.ofNat (255 - i)⟩

/-- A proof that uses all three kinds of responses. -/
def exProof (P : Params) : Proof :=
  ⟨exFp2 P, exFp2 P, (List.range P.reps).map fun i =>
    if i % 3 = 0 then .left (List.replicate P.hide 7) (List.replicate P.hash 255)
      (List.replicate P.height (exFp2 P))
    else if i % 3 = 1 then .bottom (List.replicate P.hide 1) (List.replicate P.hide 2) (exFp2 P)
      (List.replicate P.width (exFp2 P))
    else .right (List.replicate P.hash 16) (List.replicate P.hide 0)
      (List.replicate P.height (exFp2 P))⟩

theorem exFp2_wf (P : Params) : (exFp2 P).WF P := by simp [exFp2, PFp2.WF]

theorem exProof_wf (P : Params) : (exProof P).WF P := by
  refine ⟨exFp2_wf P, exFp2_wf P, by simp [exProof], ?_⟩
  intro r hr
  simp only [exProof, List.mem_map] at hr
  obtain ⟨i, _, rfl⟩ := hr
  split
  · refine ⟨by simp, by simp, by simp, ?_⟩
    intro v hv; rw [List.eq_of_mem_replicate hv]; exact exFp2_wf P
  · split
    · refine ⟨by simp, by simp, exFp2_wf P, by simp, ?_⟩
      intro v hv; rw [List.eq_of_mem_replicate hv]; exact exFp2_wf P
    · refine ⟨by simp, by simp, by simp, ?_⟩
      intro v hv; rw [List.eq_of_mem_replicate hv]; exact exFp2_wf P

/-- An empty output file on which no write fails. -/
def emptySink : Sink := ⟨[], 0, fun _ => none⟩

/-! ## C01 -/

/-- **C01.** Dumping a proof to a working stream succeeds, appends exactly the specified text, and
parsing any file that starts with that text gives back the very same proof, whatever follows. -/
theorem C01_dump_parse_roundtrip {P : Params} (hP : P.Supported) (p : Proof) (hp : p.WF P)
    (f : Sink) (hf : ∀ n, f.fault n = none) (rest : Bytes) :
    ∃ f', dump f p = (true, f') ∧ f'.out = f.out ++ proofText p ∧
      parse P (proofText p ++ rest) = .ok p (10 :: rest) := by
  obtain ⟨h1, h2, _⟩ := wrote_dump p (f := f) hf
  refine ⟨(dump f p).2, Prod.ext h1 rfl, h2, ?_⟩
  have := parse_text hP.pos hp (w := []) (by simp) rest
  simpa using this

example : params434.Supported ∧ (exProof params434).WF params434 ∧
    (exProof params434).resp.length = 219 :=
  ⟨.inl rfl, exProof_wf _, (exProof_wf params434).2.2.1⟩

/-- **C01**, in terms of in-memory structures: if every tag is legal, `Dump` is defined, and
`Parse` recovers every byte that the tags select. -/
theorem C01_dumpC_parse_roundtrip {P : Params} (hP : P.Supported) (p : CProof) (hp : p.WF P)
    (htags : ∀ r ∈ p.resp, r.tag = -1 ∨ r.tag = 0 ∨ r.tag = 1)
    (f : Sink) (hf : ∀ n, f.fault n = none) (rest : Bytes) :
    ∃ f' t q, dumpC f p = some (true, f') ∧ f'.out = f.out ++ t ∧
      parse P (t ++ rest) = .ok q (10 :: rest) ∧
      q.E0 = p.E0 ∧ q.E1 = p.E1 ∧ p.resp.map CResp.active = q.resp.map some ∧
      q.resp.map Resp.tag = p.resp.map CResp.tag := by
  have key : ∀ rs : List CResp, (∀ r ∈ rs, r.WF P) →
      (∀ r ∈ rs, r.tag = -1 ∨ r.tag = 0 ∨ r.tag = 1) →
      ∃ qs : List Resp, rs.mapM CResp.active = some qs ∧ rs.map CResp.active = qs.map some ∧
        (∀ q ∈ qs, q.WF P) ∧ qs.length = rs.length ∧ qs.map Resp.tag = rs.map CResp.tag := by
    intro rs
    induction rs with
    | nil => intro _ _; exact ⟨[], rfl, rfl, by simp, rfl, rfl⟩
    | cons r rs ih =>
      intro hw ht
      obtain ⟨qs, h1, h2, h3, h4, h5⟩ := ih (fun x hx => hw x (by simp [hx])) (fun x hx => ht x (by simp [hx]))
      have hr : ∃ q, r.active = some q ∧ q.WF P ∧ q.tag = r.tag := by
        obtain ⟨w1, w2, w3, _⟩ := hw r (by simp)
        rcases ht r (by simp) with h | h | h
        · exact ⟨_, by simp [CResp.active, h], w1, by simp [Resp.tag, h]⟩
        · exact ⟨_, by simp [CResp.active, h], w2, by simp [Resp.tag, h]⟩
        · exact ⟨_, by simp [CResp.active, h], w3, by simp [Resp.tag, h]⟩
      obtain ⟨q, hq, hqw, hqt⟩ := hr
      refine ⟨q :: qs, ?_, ?_, ?_, ?_, ?_⟩
      · simp [List.mapM_cons, hq, h1]
      · simp [hq, h2]
      · intro x hx
        rcases List.mem_cons.1 hx with rfl | hx
        · exact hqw
        · exact h3 x hx
      · simp [h4]
      · simp [h5, hqt]
  obtain ⟨w0, w1, w2, w3⟩ := hp
  obtain ⟨qs, k1, k2, k3, k4, k5⟩ := key p.resp w3 htags
  have hq : Proof.WF P ⟨p.E0, p.E1, qs⟩ := ⟨w0, w1, by rw [k4, w2], k3⟩
  obtain ⟨f', d1, d2, d3⟩ := C01_dump_parse_roundtrip hP _ hq f hf rest
  exact ⟨f', _, _, by simp [dumpC, k1, d1], d2, d3, rfl, rfl, k2, k5⟩

/-- A memory image with mixed tags whose union has three different readings. -/
def exC (P : Params) : CProof :=
  ⟨exFp2 P, exFp2 P, (List.range P.reps).map fun i =>
    ⟨(i % 3 : Nat) - 1, List.replicate P.hide 7, List.replicate P.hash 255,
     List.replicate P.height (exFp2 P), List.replicate P.hide 1, List.replicate P.hide 2, exFp2 P,
     List.replicate P.width (exFp2 P), List.replicate P.hash 16, List.replicate P.hide 0,
     List.replicate P.height (exFp2 P)⟩⟩

theorem exC_wf (P : Params) : (exC P).WF P := by
  refine ⟨exFp2_wf P, exFp2_wf P, by simp [exC], ?_⟩
  intro r hr
  simp only [exC, List.mem_map] at hr
  obtain ⟨i, _, rfl⟩ := hr
  have hh : ∀ n, ∀ v ∈ List.replicate n (exFp2 P), v.WF P := by
    intro n v hv; rw [List.eq_of_mem_replicate hv]; exact exFp2_wf P
  refine ⟨⟨by simp, by simp, by simp, hh _⟩, ⟨by simp, by simp, exFp2_wf P, by simp, hh _⟩,
    ⟨by simp, by simp, by simp, hh _⟩, ?_, ?_⟩ <;> simp only <;> omega

example : (exC params610).WF params610 ∧
    ∀ r ∈ (exC params610).resp, r.tag = -1 ∨ r.tag = 0 ∨ r.tag = 1 := by
  refine ⟨exC_wf _, ?_⟩
  intro r hr
  simp only [exC, List.mem_map] at hr
  obtain ⟨i, _, rfl⟩ := hr
  simp only; omega

/-! ## C02 -/

/-- **C02.** One field element: printing then parsing is the identity; the parser stops right
after the last hexadecimal digit and tolerates any leading white space. -/
theorem C02_dump_parse_fp2 {P : Params} (v : PFp2) (hv : v.WF P)
    (f : Sink) (hf : ∀ n, f.fault n = none) (w rest : Bytes) (hw : ∀ c ∈ w, White c) :
    ∃ f' t, dumpFp2 f v = (true, f') ∧ f'.out = f.out ++ t ++ ascii "\n" ∧
      parseFp2 P (w ++ t ++ rest) = .ok v rest := by
  obtain ⟨h1, h2, _⟩ := wrote_fp2 v (f := f) hf
  refine ⟨(dumpFp2 f v).2, fp2Body v, Prod.ext h1 rfl, ?_, ?_⟩
  · rw [h2, fp2Line, List.append_assoc]
  · rw [List.append_assoc]
    refine parseFp2_body hv (fun c hc => ?_) rest
    have := hw c hc
    have e : ascii " \t\n\r" ++ [11, 12] = [32, 9, 10, 13, 11, 12] := by decide
    rw [White, e] at this
    simp only [List.mem_cons, List.not_mem_nil, or_false] at this
    rcases this with rfl | rfl | rfl | rfl | rfl | rfl <;> decide

example : (exFp2 params751).WF params751 ∧ (∀ c ∈ ascii " \t\n ", White c) :=
  ⟨exFp2_wf _, by simp only [White]; decide⟩

/-! ## C03 -/

/-- **C03.** The format is prefix free, hence unambiguous. -/
theorem C03_text_prefix_free {P : Params} (hP : P.Supported) (p q : Proof) (hp : p.WF P)
    (hq : q.WF P) (u : Bytes) (h : proofText p ++ u = proofText q) : p = q := by
  have h1 := parse_text hP.pos hp (w := []) (by simp) u
  have h2 := parse_text hP.pos hq (w := []) (by simp) []
  simp only [List.nil_append, List.append_nil] at h1 h2
  rw [h, h2] at h1
  injection h1 with h1 _
  exact h1.symm

/-- **C03**, about `Dump` itself: different proofs give different files. -/
theorem C03_dump_injective {P : Params} (hP : P.Supported) (p q : Proof) (hp : p.WF P)
    (hq : q.WF P) (f : Sink) (hf : ∀ n, f.fault n = none)
    (h : (dump f p).2.out = (dump f q).2.out) : p = q := by
  obtain ⟨_, h1, _⟩ := wrote_dump p (f := f) hf
  obtain ⟨_, h2, _⟩ := wrote_dump q (f := f) hf
  rw [h1, h2] at h
  exact C03_text_prefix_free hP p q hp hq [] (by simpa using List.append_cancel_left h)

example : ∃ p q : Proof, p.WF params434 ∧ q.WF params434 ∧ p ≠ q := by
  refine ⟨exProof params434, { exProof params434 with E1 := ⟨(exFp2 params434).imag, (exFp2 params434).real⟩ },
    exProof_wf _, ?_, ?_⟩
  · obtain ⟨h0, h1, h2, h3⟩ := exProof_wf params434
    exact ⟨h0, ⟨h1.2, h1.1⟩, h2, h3⟩
  · intro h
    have := congrArg (fun p : Proof => p.E1.real.head?) h
    revert this; decide

/-! ## C04 -/

/-- **C04.** Whatever `Parse` accepts has the right number of responses, legal tags, all fields
present; it can be dumped, and dumping normalises the file without changing its meaning. -/
theorem C04_parse_wellformed {P : Params} (hP : P.Supported) (s rest : Bytes) (p : Proof)
    (h : parse P s = .ok p rest) :
    p.WF P ∧ (∀ r ∈ p.resp, r.tag = -1 ∨ r.tag = 0 ∨ r.tag = 1) ∧
    ∃ f', dump emptySink p = (true, f') ∧ parse P f'.out = .ok p [10] := by
  have hp := yields_parse P s p rest h
  refine ⟨hp, ?_, ?_⟩
  · intro r _; cases r <;> simp [Resp.tag]
  · obtain ⟨f', h1, h2, h3⟩ := C01_dump_parse_roundtrip hP p hp emptySink (fun _ => rfl) []
    refine ⟨f', h1, ?_⟩
    rw [h2]
    simpa [emptySink] using h3

example : ∃ s rest p, parse params503 s = .ok p rest :=
  ⟨[] ++ (proofText (exProof params503) ++ [1, 2, 3]), _, _,
    parse_text (Params.Supported.pos (.inr (.inl rfl))) (exProof_wf _) (by simp) _⟩

/-- **C04 (exact language).** `Parse` succeeds exactly on the files that start with a rendering of
a well-formed proof, with the value that the text denotes; nothing else (other tags, other digit
counts, missing separators) is accepted. -/
theorem C04_parse_language {P : Params} (hP : P.Supported) (s rest : Bytes) (p : Proof) :
    parse P s = .ok p rest ↔ p.WF P ∧ ∃ t, s = t ++ rest ∧ IsProof p t := by
  rw [reads_parse hP.pos s p rest]
  constructor
  · rintro ⟨t, h1, h2, h3⟩; exact ⟨h2, t, h1, h3⟩
  · rintro ⟨h2, t, h1, h3⟩; exact ⟨t, h1, h2, h3⟩

/-- The language is not empty. -/
example : ∃ p t, p.WF params503 ∧ IsProof p t := by
  have h := parse_text (P := params503) (Params.Supported.pos (.inr (.inl rfl))) (exProof_wf _)
    (w := []) (by simp) []
  obtain ⟨h1, t, _, h2⟩ := (C04_parse_language (.inr (.inl rfl)) _ _ _).1 h
  exact ⟨_, t, h1, h2⟩

/-! ## C05 -/

/-- **C05.** Appending data to an accepted file changes nothing (there is no end-of-file check). -/
theorem C05_parse_ignores_trailing {P : Params} (hP : P.Supported) (s rest u : Bytes) (p : Proof)
    (h : parse P s = .ok p rest) : parse P (s ++ u) = .ok p (rest ++ u) :=
  (mono_parse hP.pos).1 s p rest h u

example : ∃ s rest p, parse params434 s = .ok p rest :=
  ⟨[] ++ (proofText (exProof params434) ++ []), _, _,
    parse_text (Params.Supported.pos (.inl rfl)) (exProof_wf _) (by simp) _⟩

/-! ## C06 -/

/-- **C06.** Crash while writing: every strict prefix of the dumped file other than the one that
lacks only the final newline is rejected (and never runs into undefined behaviour). -/
theorem C06_truncated_rejected {P : Params} (hP : P.Supported) (p : Proof) (hp : p.WF P)
    (t u : Bytes) (h : t ++ u = proofText p) (hu : u ≠ []) (hnl : u ≠ ascii "\n") :
    parse P t = .fail := by
  have full := parse_text hP.pos hp (w := []) (by simp) []
  simp only [List.nil_append, List.append_nil] at full
  match hpt : parse P t with
  | .fail => rfl
  | .ub =>
    have := (mono_parse hP.pos).2 t hpt u
    rw [h, full] at this; cases this
  | .ok q r =>
    have := (mono_parse hP.pos).1 t q r hpt u
    rw [h, full] at this
    injection this with _ h2
    exfalso
    cases r with
    | nil => exact hnl (by simpa [ascii] using h2.symm)
    | cons c r =>
      simp only [List.cons_append, List.cons.injEq] at h2
      have : r ++ u = [] := h2.2.symm
      exact hu (List.append_eq_nil_iff.1 this).2

/-- The exceptional prefix really is accepted: all data is already in the file. -/
theorem C06_missing_newline_accepted {P : Params} (hP : P.Supported) (p : Proof) (hp : p.WF P)
    (t : Bytes) (h : t ++ ascii "\n" = proofText p) : parse P t = .ok p [] := by
  rw [proofText_body hP.pos hp] at h
  have : t = proofBody p := List.append_cancel_right (show t ++ [10] = _ from h)
  rw [this]
  simpa using parse_body hP.pos hp (w := []) (by simp) []

/-- The hypotheses of both C06 theorems can be met: a cut in the middle, and at the end. -/
example : (∃ t u : Bytes, t ++ u = proofText (exProof params434) ∧ u ≠ [] ∧ u ≠ ascii "\n") ∧
    (∃ t : Bytes, t ++ ascii "\n" = proofText (exProof params434)) := by
  refine ⟨⟨[], proofText (exProof params434), rfl, ?_, ?_⟩, ⟨proofBody (exProof params434), ?_⟩⟩
  · simp [proofText, fp2Line, ascii]
  · intro h
    have := congrArg List.head? h
    have e : (proofText (exProof params434)).head? = some 48 := by
      simp [proofText, fp2Line, fp2Body, coordText, show ascii "0x" = [48, 120] by decide]
    rw [e] at this
    exact absurd this (by decide)
  · exact (proofText_body (P := params434) (Params.Supported.pos (.inl rfl)) (exProof_wf _)).symm

/-! ## C07 -/

/-- **C07.** `Dump` returns `true` iff every output call other than those writing
tag lines succeeds; and then the text is complete except that tag lines may be cut short.  That it
does not follow that the whole text was written is `C07_dump_misses_tag_errors`. -/
theorem C07_dump_reports_errors (p : Proof) (f : Sink) :
    ((dump f p).1 = true ↔
      ∀ i c, (proofWrites p)[i]? = some c → c.1 = true → f.fault (f.calls + i) = none) ∧
    ((dump f p).1 = true → ∃ ts : List Bytes, (dump f p).2.out = f.out ++ ts.flatten ∧
      List.Forall₂ (fun c t => t <+: c.2 ∧ (c.1 = true → t = c.2)) (proofWrites p) ts) ∧
    (proofWrites p).flatMap (·.2) = proofText p := by
  rw [dump_eq]
  exact ⟨runWrites_true _ _, runWrites_out _ _, proofWrites_flat p⟩

/-- **C07 (finding).** The full claim is false: for every proof there is a pattern of failing
writes for which `Dump` returns `true` although the emitted text is not the proof text: the first
tag line is lost (`poik.c:1552` ignores the result of `fprintf`). -/
theorem C07_dump_misses_tag_errors {P : Params} (hP : P.Supported) (p : Proof) (hp : p.WF P) :
    ∃ f : Sink, f.out = [] ∧ (dump f p).1 = true ∧ (dump f p).2.out ≠ proofText p := by
  have hlen : p.resp ≠ [] := by
    intro e; have := hp.2.2.1; rw [e] at this; have := hP.pos.reps; simp_all
  obtain ⟨r, rs, hr⟩ := List.exists_cons_of_ne_nil hlen
  obtain ⟨tag, tl, htag⟩ : ∃ tag tl, respWrites r = (false, tag) :: tl ∧ tag ≠ [] := by
    cases r
    · exact ⟨ascii "-1\n", _, rfl, by decide⟩
    · exact ⟨ascii "0\n", _, rfl, by decide⟩
    · exact ⟨ascii "1\n", _, rfl, by decide⟩
  let pre := fp2Writes p.E0 ++ fp2Writes p.E1
  have hw : proofWrites p = pre ++ (false, tag) :: (tl ++ rs.flatMap respWrites) := by
    simp [proofWrites, hr, htag.1, pre]
  let f : Sink := ⟨[], 0, fun n => if n = pre.length then some 0 else none⟩
  have ok : (dump f p).1 = true := by
    rw [(C07_dump_reports_errors p f).1]
    intro i c hi hc
    simp only [f, Nat.zero_add]
    rw [if_neg]
    intro e
    rw [hw, e] at hi
    simp at hi
    rw [← hi] at hc
    exact absurd hc (by simp)
  refine ⟨f, rfl, ok, ?_⟩
  intro hout
  -- the emitted text is shorter than the proof text
  rw [dump_eq, hw, runWrites_append] at ok hout
  have hpre : (runWrites f pre).1 = true := by
    unfold andThen at ok
    split at ok
    · assumption
    · cases ok
  have lenle : ∀ (cs : List (Bool × Bytes)) (g : Sink),
      (runWrites g cs).2.out.length ≤ g.out.length + (cs.flatMap (·.2)).length ∧
      (runWrites g cs).2.fault = g.fault ∧
      ((runWrites g cs).1 = true → (runWrites g cs).2.calls = g.calls + cs.length) := by
    intro cs
    induction cs with
    | nil => intro g; simp [runWrites]
    | cons a as ih =>
      intro g
      obtain ⟨c, s⟩ := a
      have hput : (g.put s).2.out.length ≤ g.out.length + s.length ∧ (g.put s).2.fault = g.fault ∧
          (g.put s).2.calls = g.calls + 1 := by
        unfold Sink.put
        cases g.fault g.calls with
        | none => simp
        | some k => simp <;> omega
      simp only [runWrites]
      split
      · refine ⟨?_, hput.2.1, by simp⟩
        simp only [List.flatMap_cons, List.length_append]; omega
      · obtain ⟨i1, i2, i3⟩ := ih (g.put s).2
        refine ⟨?_, by rw [i2, hput.2.1], fun h => ?_⟩
        · simp only [List.flatMap_cons, List.length_append]; omega
        · rw [i3 h, hput.2.2]; simp; omega
  obtain ⟨l1, l2, l3⟩ := lenle pre f
  simp only [andThen, hpre, if_true] at hout
  rw [show (false, tag) :: (tl ++ rs.flatMap respWrites) =
    [(false, tag)] ++ (tl ++ rs.flatMap respWrites) from rfl, runWrites_unchecked] at hout
  have hcalls : (runWrites f pre).2.calls = pre.length := by rw [l3 hpre]; simp [f]
  have hput : ((runWrites f pre).2.put tag).2.out = (runWrites f pre).2.out := by
    unfold Sink.put
    rw [hcalls, l2]
    simp [f]
  obtain ⟨m1, _, _⟩ := lenle (tl ++ rs.flatMap respWrites) ((runWrites f pre).2.put tag).2
  rw [hout, hput, ← proofWrites_flat, hw] at m1
  have ht : 0 < tag.length := List.length_pos_iff.2 htag.2
  simp only [List.flatMap_append, List.flatMap_cons, List.length_append, f, List.length_nil] at m1 l1
  omega

example : params503.Supported ∧ (exProof params503).WF params503 :=
  ⟨.inr (.inl rfl), exProof_wf _⟩

/-! ## Undefined behaviour reachable from a file (finding, part of C04) -/

/-- A proof file can drive `Parse` into undefined behaviour: an out-of-range tag (`%d` overflow)
after two well-formed curves, or a byte in 0x80..0xFE where a hexadecimal digit is expected
(`isxdigit` on a negative `char`). -/
theorem C04_parse_ub_reachable {P : Params} (hP : P.Supported) :
    (∃ s, parse P (fp2Line (exFp2 P) ++ fp2Line (exFp2 P) ++ s) = .ub) ∧
    parse P (ascii "0x" ++ [200, 200]) = .ub := by
  constructor
  · refine ⟨ascii "99999999999 ", ?_⟩
    rw [List.append_assoc]
    have h1 := parseFp2_line (exFp2_wf P) (w := []) (by simp) (fp2Line (exFp2 P) ++ ascii "99999999999 ")
    have h2 := parseFp2_line (exFp2_wf P) nl_white (ascii "99999999999 ")
    simp only [List.nil_append] at h1
    rw [parse, h1]
    simp only [PRes.bind_ok]
    rw [show ∀ t : Bytes, (10 : UInt8) :: t = [10] ++ t from fun _ => rfl, h2]
    simp only [PRes.bind_ok]
    obtain ⟨n, hn⟩ : ∃ n, P.reps = n + 1 := ⟨P.reps - 1, by have := hP.pos.reps; omega⟩
    have h3 : scanInt (10 :: ascii "99999999999 ") = .ub := by decide
    rw [hn, parseResps, parseResp, h3]
    rfl
  · obtain ⟨n, hn⟩ : ∃ n, P.fpBytes = n + 1 := ⟨P.fpBytes - 1, by have := hP.pos.fpBytes; omega⟩
    have e : ascii "0x" ++ [200, 200] = [48, 120, 200, 200] := by decide
    rw [e, parse, parseFp2, parsePackedFp, hn]
    simp [skipWs, isSpace, parseHex, parseHexByte, ctypeUB]

end Secuer.Text
