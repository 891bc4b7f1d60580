import Verif.Cli.Model
import Verif.Props.TotalProps

/-!
# Properties C54, C55 and C65: the command-line tools

Conventions as in `Verif.Props.ProtocolProps`.
-/

namespace Secuer.CliProps

open Secuer.Cli Secuer.Protocol Secuer.Curve Secuer.Mont Secuer.Field Secuer.Text Secuer.Text.Spec Secuer.ChainProps
open Secuer.CurveProps Secuer.ProtocolProps Secuer.Scalar

variable (l : Level)

/-! ### Specification -/

/-- `q` is the proof `p` in memory. -/
def Holds (p : Proof) (q : CProof) : Prop :=
  q.E0 = p.E0 ∧ q.E1 = p.E1 ∧ q.resp.map CResp.active = p.resp.map some

/-- `p` is valid (C15), no matter what the unused parts of memory contain. -/
def ValidProof (H : Hash) (p : Proof) : Prop := ∀ q, Holds p q → Valid l H q

/-- The input starts with a text denoting the well-formed proof `p`. -/
def Denotes (s : Bytes) (p : Proof) : Prop := p.WF (params l) ∧ ∃ t rest, s = t ++ rest ∧ IsProof p t

/-- Every output call needed to print `p.E0` and `p.E1` succeeds. -/
def CurvesWritten (f : Sink) (p : Proof) : Prop :=
  ∀ i, i < (fp2Writes p.E0 ++ fp2Writes p.E1).length → f.fault (f.calls + i) = none

/-- A process starts with an empty output; the memory it gets is that of a proof structure. -/
structure Fresh (w : World) : Prop where
  out : w.stdout.out = []
  old : w.old.length = (params l).reps
  wf : ∀ r ∈ w.old, r.WF (params l)

/-! ### Lemmas -/

theorem inMemory_active (old : CResp) (r : Resp) : (inMemory old r).active = some r := by
  cases r <;> rfl

theorem parsed_holds {old : List CResp} {p : Proof} (h : old.length = p.resp.length) : Holds p (parsed old p) := by
  refine ⟨rfl, rfl, ?_⟩
  unfold parsed
  generalize p.resp = rs at h
  dsimp only
  induction old generalizing rs with
  | nil => cases rs with
    | nil => rfl
    | cons _ _ => cases h
  | cons o os ih => cases rs with
    | nil => cases h
    | cons r rs =>
      rw [List.zipWith_cons_cons, List.map_cons, List.map_cons, ih rs (by simpa using h), inMemory_active]

theorem parsed_wf {P : Params} {old : List CResp} {p : Proof} (hl : old.length = P.reps) (ho : ∀ r ∈ old, r.WF P)
    (hp : p.WF P) : (parsed old p).WF P := by
  obtain ⟨h0, h1, h2, h3⟩ := hp
  refine ⟨h0, h1, ?_, ?_⟩
  · unfold parsed; dsimp only; rw [List.length_zipWith, hl, h2, min_self]
  · intro r hr
    unfold parsed at hr
    dsimp only at hr
    obtain ⟨i, hi, rfl⟩ := List.mem_iff_getElem.1 hr
    rw [List.getElem_zipWith]
    rw [List.length_zipWith] at hi
    have a := ho (old[i]'(by omega)) (List.getElem_mem _)
    have b := h3 (p.resp[i]'(by omega)) (List.getElem_mem _)
    revert a b
    generalize old[i]'(by omega) = o
    generalize p.resp[i]'(by omega) = s
    intro ⟨a1, a2, a3, a4, a5⟩ b
    cases s with
    | left _ _ _ => exact ⟨b, a2, a3, by simp [inMemory], by simp [inMemory]⟩
    | bottom _ _ _ _ => exact ⟨a1, b, a3, by simp [inMemory], by simp [inMemory]⟩
    | right _ _ _ => exact ⟨a1, a2, b, by simp [inMemory], by simp [inMemory]⟩

/-- `Unpack_Response` looks only at what the tag selects. -/
theorem unpackResponse_active (H : Hash) (mem : Mem l) (x₀ x₁ : PFp2) {r s : CResp} {a : Resp} (hr : r.active = some a)
    (hs : s.active = some a) : unpackResponse l H mem x₀ x₁ r = unpackResponse l H mem x₀ x₁ s := by
  cases a with
  | left _ _ _ =>
    obtain ⟨a1, a2, a3, a4⟩ := active_left hr
    obtain ⟨b1, b2, b3, b4⟩ := active_left hs
    unfold unpackResponse
    simp only [a1, b1, a2, b2, a3, b3, a4, b4, show int8 (-1) = -1 from rfl, if_true]
  | bottom _ _ _ _ =>
    obtain ⟨a1, a2, a3, a4, a5⟩ := active_bottom hr
    obtain ⟨b1, b2, b3, b4, b5⟩ := active_bottom hs
    unfold unpackResponse
    simp only [a1, b1, a2, b2, a3, b3, a4, b4, a5, b5, show int8 0 = 0 from rfl, if_true, show (0 : Int) ≠ -1 by decide, if_false]
  | right _ _ _ =>
    obtain ⟨a1, a2, a3, a4⟩ := active_right hr
    obtain ⟨b1, b2, b3, b4⟩ := active_right hs
    unfold unpackResponse
    simp only [a1, b1, a2, b2, a3, b3, a4, b4, show int8 1 = 1 from rfl, if_true, show (1 : Int) ≠ -1 by decide,
      show (1 : Int) ≠ 0 by decide, if_false]

theorem valid_holds (H : Hash) {p : Proof} {q : CProof} (hq : Holds p q) (hv : Valid l H q) : ValidProof l H p := by
  intro q' hq'
  obtain ⟨h0, h1, os, hos, hc⟩ := hv
  obtain ⟨e0, e1, e2⟩ := hq
  obtain ⟨e0', e1', e2'⟩ := hq'
  have e0 : q'.E0 = q.E0 := e0'.trans e0.symm
  have e1 : q'.E1 = q.E1 := e1'.trans e1.symm
  unfold Valid
  rw [e0, e1]
  refine ⟨h0, h1, os, ?_, hc⟩
  clear hc
  revert e2 e2' hos
  generalize q.resp = rs
  generalize q'.resp = rs'
  generalize p.resp = ps
  intro hos e2 e2'
  induction hos generalizing rs' ps with
  | nil =>
    cases ps with
    | nil => cases rs' with
      | nil => exact .nil
      | cons _ _ => cases e2'
    | cons _ _ => cases e2
  | cons a _ ih =>
    cases ps with
    | nil => cases e2
    | cons p ps =>
      cases rs' with
      | nil => cases e2'
      | cons r' rs' =>
        rw [List.map_cons, List.map_cons, List.cons.injEq] at e2 e2'
        refine .cons ?_ (ih _ _ e2.2 e2'.2)
        obtain ⟨mem, h⟩ := a
        exact ⟨mem, by rw [unpackResponse_active l H mem _ _ e2'.1 e2.1]; exact h⟩

theorem validProof_iff (H : Hash) {p : Proof} {q : CProof} (hq : Holds p q) : ValidProof l H p ↔ Valid l H q :=
  ⟨fun h => h q hq, valid_holds l H hq⟩

/-- The two calls of `Dump_Fp2` in `verify.c`. -/
theorem dumpTwo (f : Sink) (a b : PFp2) : (andThen (dumpFp2 f a) fun f => dumpFp2 f b) = runWrites f (fp2Writes a ++ fp2Writes b) := by
  rw [runWrites_append, dumpFp2_eq]
  exact andThen_congr fun f => dumpFp2_eq b f

theorem fp2Writes_checked (v : PFp2) : ∀ c ∈ fp2Writes v, c.1 = true := by
  intro c hc
  simp only [fp2Writes, coordWrites, hexWrites, List.mem_append, List.mem_cons, List.mem_map, List.not_mem_nil, or_false] at hc
  rcases hc with ((( rfl | ⟨_, _, rfl⟩) | rfl) | rfl | ⟨_, _, rfl⟩) | rfl <;> rfl

theorem twoWrites (f : Sink) (p : Proof) :
    (runWrites f (fp2Writes p.E0 ++ fp2Writes p.E1)).1 = true ↔ CurvesWritten f p := by
  rw [runWrites_true]
  constructor
  · intro h i hi
    refine h i _ (List.getElem?_eq_getElem hi) ?_
    have := List.getElem_mem hi
    rw [List.mem_append] at this
    rcases this with h | h <;> exact fp2Writes_checked _ _ h
  · intro h i c hi _
    exact h i (List.getElem?_eq_some_iff.1 hi).1

theorem twoWrites_out {f : Sink} {p : Proof} (h : (runWrites f (fp2Writes p.E0 ++ fp2Writes p.E1)).1 = true) :
    (runWrites f (fp2Writes p.E0 ++ fp2Writes p.E1)).2.out = f.out ++ (fp2Line p.E0 ++ fp2Line p.E1) := by
  obtain ⟨ts, h1, h2⟩ := runWrites_out _ _ h
  rw [h1]
  clear h1
  congr 1
  have : ts = (fp2Writes p.E0 ++ fp2Writes p.E1).map Prod.snd := by
    have hc : ∀ c ∈ fp2Writes p.E0 ++ fp2Writes p.E1, c.1 = true := by
      intro c hc
      rw [List.mem_append] at hc
      rcases hc with h | h <;> exact fp2Writes_checked _ _ h
    revert h2 hc
    generalize fp2Writes p.E0 ++ fp2Writes p.E1 = cs
    intro h2 hc
    induction h2 with
    | nil => rfl
    | cons a _ ih =>
      rw [List.map_cons, ← ih fun c h => hc c (by simp [h]), a.2 (hc _ (by simp))]
  rw [this, ← fp2Writes_flat, ← fp2Writes_flat, ← List.flatMap_append, List.flatMap_def]

/-! ### C54: verify -/

/-- **C54.** The exit status of the verify tool says exactly what happened, and curves are printed only for valid proofs. -/
theorem c54_verify (H : Hash) (mem : Mem l) (hm : mem.challs.length = (params l).reps) (fuel : ℕ) (w : World)
    (hw : Fresh l w) (t t' : Tape l.F) (r : Report) (h : verifyMain l H mem fuel w t = .ok (r, t')) :
    (r.status = 1 ↔ w.memory = false) ∧
    (r.status = 255 ↔ w.memory = true ∧ ¬ ∃ p, Denotes l w.stdin p) ∧
    (r.status = 2 ↔ w.memory = true ∧ ∃ p, Denotes l w.stdin p ∧ ¬ ValidProof l H p) ∧
    (r.status = 3 ↔ w.memory = true ∧ ∃ p, Denotes l w.stdin p ∧ ValidProof l H p ∧ ¬ CurvesWritten w.stdout p) ∧
    (r.status = 0 ↔ w.memory = true ∧ ∃ p, Denotes l w.stdin p ∧ ValidProof l H p ∧ CurvesWritten w.stdout p) ∧
    (r.status = 0 ∨ r.status = 1 ∨ r.status = 2 ∨ r.status = 3 ∨ r.status = 255) ∧
    (r.status = 1 ∨ r.status = 2 ∨ r.status = 255 → r.out = []) ∧
    (r.status = 0 → r.err = [] ∧ ∀ p, Denotes l w.stdin p → w.atExit = 0 → r.out = fp2Line p.E0 ++ fp2Line p.E1) := by
  have uniq : ∀ {p q : Proof}, Denotes l w.stdin p → Denotes l w.stdin q → p = q := by
    rintro p q ⟨hp, s, r, hs, hps⟩ ⟨hq, s', r', hs', hqs⟩
    have e1 := (C04_parse_language (params_supported l) w.stdin r p).2 ⟨hp, s, hs, hps⟩
    have e2 := (C04_parse_language (params_supported l) w.stdin r' q).2 ⟨hq, s', hs', hqs⟩
    rw [e1] at e2
    injection e2
  unfold verifyMain at h
  cases hmem : w.memory with
  | false =>
    rw [if_pos hmem] at h
    cases h
    simp [leave, hw.out]
  | true =>
    rw [if_neg (by rw [hmem]; decide)] at h
    match hp : parse (params l) w.stdin with
    | .ub => rw [hp] at h; cases h
    | .fail =>
      rw [hp] at h
      cases h
      have hn : ¬ ∃ p, Denotes l w.stdin p := by
        rintro ⟨p, hp', s, rest, hs, hi⟩
        have := (C04_parse_language (params_supported l) w.stdin rest p).2 ⟨hp', s, hs, hi⟩
        rw [hp] at this
        cases this
      have hn' : ∀ p, ¬ Denotes l w.stdin p := fun p hp => hn ⟨p, hp⟩
      simp [leave, hw.out, hn']
    | .ok p rest =>
      rw [hp] at h
      dsimp only at h
      obtain ⟨hwf, s, hs, hi⟩ := (C04_parse_language (params_supported l) w.stdin rest p).1 hp
      have hd : Denotes l w.stdin p := ⟨hwf, s, rest, hs, hi⟩
      have ex : ∀ Q : Proof → Prop, (∃ q, Denotes l w.stdin q ∧ Q q) ↔ Q p :=
        fun Q => ⟨fun ⟨q, hq, h⟩ => uniq hq hd ▸ h, fun h => ⟨p, hd, h⟩⟩
      have ex' : (∃ q, Denotes l w.stdin q) ↔ True := ⟨fun _ => trivial, fun _ => ⟨p, hd⟩⟩
      have all : ∀ Q : Proof → Prop, (∀ q, Denotes l w.stdin q → Q q) ↔ Q p :=
        fun Q => ⟨fun h => h p hd, fun h q hq => uniq hd hq ▸ h⟩
      have hh : Holds p (parsed w.old p) := parsed_holds (by rw [hw.old, hwf.2.2.1])
      obtain ⟨b, t1, hv, h⟩ := bind_ok h
      have hb := c15_verdict l H mem hm fuel _ t t1 b hv
      rw [← validProof_iff l H hh] at hb
      rw [ex fun p => ¬ ValidProof l H p, ex fun p => ValidProof l H p ∧ ¬ CurvesWritten w.stdout p,
        ex fun p => ValidProof l H p ∧ CurvesWritten w.stdout p, ex', all fun p => w.atExit = 0 → _]
      cases b with
      | false =>
        rw [if_pos rfl] at h
        cases h
        have hb : ¬ ValidProof l H p := fun h => by cases hb.2 h
        simp [leave, hw.out, hb]
      | true =>
        rw [if_neg (by decide)] at h
        have hb : ValidProof l H p := hb.1 rfl
        rw [show (parsed w.old p).E0 = p.E0 from rfl, show (parsed w.old p).E1 = p.E1 from rfl, dumpTwo] at h
        have hc := twoWrites w.stdout p
        cases hr : (runWrites w.stdout (fp2Writes p.E0 ++ fp2Writes p.E1)).1 with
        | false =>
          rw [if_pos hr] at h
          cases h
          have hc : ¬ CurvesWritten w.stdout p := fun h => by rw [hc.2 h] at hr; cases hr
          simp [leave, hb, hc]
        | true =>
          rw [if_neg (by rw [hr]; decide)] at h
          cases h
          have hc : CurvesWritten w.stdout p := hc.1 hr
          have ho := twoWrites_out hr
          rw [hw.out, List.nil_append] at ho
          simp only [leave, ho, hb, hc]
          refine ⟨by simp, by simp, by simp, by simp, by simp, by simp, by simp, fun _ => ⟨rfl, ?_⟩⟩
          intro h
          rw [h, Nat.sub_zero, List.take_length]

/-- **C54.** The verify tool has undefined behaviour only where `Parse` has (a character outside of ASCII where a
hexadecimal digit is expected). -/
theorem c54_no_ub (H : Hash) (mem : Mem l) (hm : mem.challs.length = (params l).reps) (fuel : ℕ) (w : World)
    (hw : Fresh l w) (t : Tape l.F) (h : verifyMain l H mem fuel w t = .ub) : parse (params l) w.stdin = .ub := by
  unfold verifyMain at h
  cases hmem : w.memory with
  | false => rw [if_pos hmem] at h; cases h
  | true =>
    rw [if_neg (by rw [hmem]; decide)] at h
    match hp : parse (params l) w.stdin with
    | .ub => rfl
    | .fail => rw [hp] at h; cases h
    | .ok p rest =>
      rw [hp] at h
      dsimp only at h
      have hwf := ((C04_parse_language (params_supported l) w.stdin rest p).1 hp).1
      refine absurd h ?_
      refine NoUB.bind (fun u => c15_no_ub l H mem hm fuel (parsed_wf hw.old hw.wf hwf) u) (fun _ => True)
        (fun _ _ _ _ => trivial) (fun b _ => ?_) t
      cases b with
      | false => rw [if_pos rfl]; exact NoUB.pure' _
      | true =>
        rw [if_neg (by decide)]
        split
        · exact NoUB.pure' _
        · exact NoUB.pure' _

/-- A fresh process whose input is not a proof, and what the tool does with it. -/
def exWorld : World := ⟨ascii "0x1", emptySink, true, 0, (exC (params l)).resp⟩

theorem exWorld_fresh : Fresh l (exWorld l) := ⟨rfl, (exC_wf (params l)).2.2.1, (exC_wf (params l)).2.2.2⟩

example (H : Hash) (mem : Mem .l434) (t : Tape Level.l434.F) : Fresh .l434 (exWorld .l434) ∧
    verifyMain .l434 H mem 0 (exWorld .l434) t = .ok (⟨255, [], bytesOf "please provide proof on stdin\n"⟩, t) := by
  refine ⟨exWorld_fresh _, ?_⟩
  have : parse (params .l434) (exWorld .l434).stdin = .fail := by decide +kernel
  unfold verifyMain
  rw [if_neg (by decide), this]
  rfl

/-! ### C55: prove -/

/-- The curve the prove tool starts from: with `--initial` as first argument the one with coefficient 0, otherwise the one
on standard input. -/
def StartsFrom (args : List String) (stdin : Bytes) (x : PFp2) : Prop :=
  if args.head? = some "--initial" then x.WF (params l) ∧ leNat x.real = 0 ∧ leNat x.imag = 0
  else x.WF (params l) ∧ ∃ t rest, stdin = t ++ rest ∧ IsFp2 x t

/-- The part of a run of the prove tool that follows the choice of `x`. -/
theorem proveFrom_spec (H : Hash) (hH : ∀ n x, (H.out n x).length = n) (mem mem' : Mem l)
    (hm : mem'.challs.length = (params l).reps) (fuel : ℕ) (w : World) (hw : Fresh l w) (x : PFp2) (t t' : Tape l.F)
    (r : Report) (h : proveFrom l H mem mem' fuel w x t = .ok (r, t')) :
    (r.status = 0 ∨ r.status = 1 ∨ r.status = 2 ∨ r.status = 3) ∧
    (r.status = 1 ↔ ¬ RightOrder l (decode l x)) ∧
    (r.status = 2 ↔ RightOrder l (decode l x) ∧ w.memory = false) ∧
    (r.status = 1 ∨ r.status = 2 → r.out = []) ∧
    (r.status = 0 ∨ r.status = 3 → ∃ sec t₁ p t₂, generate l mem x t = .ok (some sec, t₁) ∧
      prove l H mem' fuel sec t₁ = .ok (p, t₂) ∧ p.WF (params l) ∧
      ((∀ n, w.stdout.fault n = none) → r.status = 0 ∧ (w.atExit = 0 → r.out = proofText p))) := by
  unfold proveFrom at h
  obtain ⟨o, t₁, hg, h⟩ := bind_ok h
  have hgen := (generate_ret l mem x).2 _ _ _ hg
  cases o with
  | none =>
    cases h
    have hn : ¬ RightOrder l (decode l x) := by
      intro ho
      unfold generate at hg
      obtain ⟨b, t₂, hb, hg⟩ := bind_ok hg
      cases b with
      | false => exact absurd hb (c28_right_order l mem.pts ho t t₂)
      | true =>
        rw [if_neg (by decide)] at hg
        obtain ⟨c, t₃, -, hg⟩ := bind_ok hg
        cases hg
    simp [leave, hw.out, hn]
  | some sec =>
    have ho : RightOrder l (decode l x) := (c63_generate l hg).1
    dsimp only at h
    cases hmem : w.memory with
    | false =>
      rw [if_pos hmem] at h
      cases h
      simp [leave, hw.out, ho]
    | true =>
      rw [if_neg (by rw [hmem]; decide)] at h
      obtain ⟨p, t₂, hp, h⟩ := bind_ok h
      have hwf := c24_well_formed l H hH hm hg hp
      have hclean : (∀ n, w.stdout.fault n = none) → (dump w.stdout p).1 = true ∧ (dump w.stdout p).2.out = proofText p := by
        intro hf
        obtain ⟨f', e1, e2, -⟩ := C01_dump_parse_roundtrip (params_supported l) p hwf w.stdout hf []
        rw [e1]
        exact ⟨rfl, by rw [e2, hw.out, List.nil_append]⟩
      cases hd : (dump w.stdout p).1 with
      | false =>
        rw [if_pos hd] at h
        cases h
        refine ⟨by simp [leave], by simp [leave, ho], by simp [leave], by simp [leave], fun _ => ?_⟩
        refine ⟨sec, t₁, p, t', hg, hp, hwf, fun hf => ?_⟩
        rw [(hclean hf).1] at hd
        cases hd
      | true =>
        rw [if_neg (by rw [hd]; decide)] at h
        cases h
        refine ⟨by simp [leave], by simp [leave, ho], by simp [leave], by simp [leave], fun _ => ?_⟩
        refine ⟨sec, t₁, p, t', hg, hp, hwf, fun hf => ⟨by simp [leave], fun h0 => ?_⟩⟩
        simp only [leave, h0, Nat.sub_zero, List.take_length]
        exact (hclean hf).2

theorem leNat_zeros (n : ℕ) : leNat (List.replicate n 0) = 0 := by
  induction n with
  | zero => rfl
  | succ n ih => rw [List.replicate_succ]; unfold leNat; rw [ih]; rfl

theorem starts_unique {args : List String} {s : Bytes} {x y : PFp2} (hx : StartsFrom l args s x)
    (hy : StartsFrom l args s y) : decode l x = decode l y ∧ (args.head? ≠ some "--initial" → x = y) := by
  unfold StartsFrom at hx hy
  by_cases h : args.head? = some "--initial"
  · rw [if_pos h] at hx hy
    refine ⟨?_, fun h' => absurd h h'⟩
    unfold decode
    rw [hx.2.1, hx.2.2, hy.2.1, hy.2.2]
  · rw [if_neg h] at hx hy
    obtain ⟨hx, t, r, ht, hi⟩ := hx
    obtain ⟨hy, t', r', ht', hi'⟩ := hy
    have e1 := (reads_fp2 (params l) s x r).2 ⟨t, ht, hx, hi⟩
    have e2 := (reads_fp2 (params l) s y r').2 ⟨t', ht', hy, hi'⟩
    rw [e1] at e2
    have : x = y := by injection e2
    exact ⟨by rw [this], fun _ => this⟩

/-- **C55.** The exit status of the prove tool says what happened; if writing works, what a successful run leaves on
standard output is the text of the proof that `Prove` computed from the secret that `Generate` drew for the given curve,
and `Parse` reads back that proof. -/
theorem c55_prove (H : Hash) (hH : ∀ n x, (H.out n x).length = n) (mem mem' : Mem l)
    (hm : mem'.challs.length = (params l).reps) (fuel : ℕ) (args : List String) (w : World) (hw : Fresh l w)
    (t t' : Tape l.F) (r : Report) (h : proveMain l H mem mem' fuel args w t = .ok (r, t')) :
    (r.status = 0 ∨ r.status = 1 ∨ r.status = 2 ∨ r.status = 3 ∨ r.status = 255) ∧
    (r.status = 255 ↔ ¬ ∃ x, StartsFrom l args w.stdin x) ∧
    (r.status = 1 ↔ ∃ x, StartsFrom l args w.stdin x ∧ ¬ RightOrder l (decode l x)) ∧
    (r.status = 2 ↔ ∃ x, StartsFrom l args w.stdin x ∧ RightOrder l (decode l x) ∧ w.memory = false) ∧
    (r.status = 1 ∨ r.status = 2 ∨ r.status = 255 → r.out = []) ∧
    (r.status = 0 ∨ r.status = 3 → ∃ x sec t₁ p t₂, StartsFrom l args w.stdin x ∧
      generate l mem x t = .ok (some sec, t₁) ∧ prove l H mem' fuel sec t₁ = .ok (p, t₂) ∧ p.WF (params l) ∧
      ((∀ n, w.stdout.fault n = none) → r.status = 0 ∧ (w.atExit = 0 → r.out = proofText p ∧
        ∀ u, parse (params l) (r.out ++ u) = .ok p (10 :: u)))) := by
  have hcase : (∃ x, StartsFrom l args w.stdin x ∧ proveFrom l H mem mem' fuel w x t = .ok (r, t')) ∨
      ((∀ x, ¬ StartsFrom l args w.stdin x) ∧ r = leave w w.stdout (-1) "please provide curve on stdin") := by
    unfold proveMain at h
    cases hin : wantsInput args with
    | true =>
      rw [if_pos hin] at h
      have hh : args.head? ≠ some "--initial" := by
        intro e
        cases args with
        | nil => cases e
        | cons a as =>
          rw [List.head?_cons, Option.some.injEq] at e
          simp [wantsInput, e] at hin
      match hp : parseFp2 (params l) w.stdin with
      | .ub => rw [hp] at h; cases h
      | .fail =>
        rw [hp] at h
        cases h
        have hn : ∀ x, ¬ StartsFrom l args w.stdin x := by
          intro x hx
          unfold StartsFrom at hx
          rw [if_neg hh] at hx
          obtain ⟨hx, s, rest, hs, hi⟩ := hx
          have := (reads_fp2 (params l) w.stdin x rest).2 ⟨s, hs, hx, hi⟩
          rw [hp] at this
          cases this
        exact .inr ⟨hn, rfl⟩
      | .ok x rest =>
        rw [hp] at h
        obtain ⟨s, hs, hx, hi⟩ := (reads_fp2 (params l) w.stdin x rest).1 hp
        refine .inl ⟨x, ?_, h⟩
        unfold StartsFrom
        rw [if_neg hh]
        exact ⟨hx, s, rest, hs, hi⟩
    | false =>
      rw [if_neg (by rw [hin]; decide)] at h
      refine .inl ⟨_, ?_, h⟩
      have hh : args.head? = some "--initial" := by
        cases args with
        | nil => cases hin
        | cons a as => simpa [wantsInput] using hin
      unfold StartsFrom
      rw [if_pos hh]
      refine ⟨⟨?_, ?_⟩, ?_, ?_⟩
      · exact List.length_replicate
      · exact List.length_replicate
      · exact leNat_zeros _
      · exact leNat_zeros _
  rcases hcase with ⟨x, hx, h⟩ | ⟨hn, rfl⟩
  · obtain ⟨h1, h2, h3, h4, h5⟩ := proveFrom_spec l H hH mem mem' hm fuel w hw x t t' r h
    have ex : ∀ Q : l.F → Prop, (∃ y, StartsFrom l args w.stdin y ∧ Q (decode l y)) ↔ Q (decode l x) :=
      fun Q => ⟨fun ⟨y, hy, h⟩ => (starts_unique l hy hx).1 ▸ h, fun h => ⟨x, hx, h⟩⟩
    refine ⟨?_, ⟨fun h => ?_, fun h => absurd ⟨x, hx⟩ h⟩, by rw [ex fun a => ¬ RightOrder l a]; exact h2,
      by rw [ex fun a => RightOrder l a ∧ w.memory = false]; exact h3, ?_, ?_⟩
    · rcases h1 with h | h | h | h <;> simp [h]
    · rw [h] at h1
      rcases h1 with h | h | h | h <;> cases h
    · rintro (h | h | h)
      · exact h4 (.inl h)
      · exact h4 (.inr h)
      · rw [h] at h1
        rcases h1 with h | h | h | h <;> cases h
    · intro h
      obtain ⟨sec, t₁, p, t₂, g1, g2, g3, g4⟩ := h5 h
      refine ⟨x, sec, t₁, p, t₂, hx, g1, g2, g3, fun hf => ⟨(g4 hf).1, fun h0 => ⟨(g4 hf).2 h0, fun u => ?_⟩⟩⟩
      rw [(g4 hf).2 h0]
      have := parse_text (params_supported l).pos g3 (w := []) (by simp) u
      simpa using this
  · simp [leave, hw.out, hn]

/-- **C55.** With `--initial` the start curve has j-invariant 1728 and is never refused. -/
theorem c55_initial (args : List String) (stdin : Bytes) (h : args.head? = some "--initial") :
    (∃ x, StartsFrom l args stdin x) ∧ ∀ x, StartsFrom l args stdin x → decode l x = 0 ∧ jOf (decode l x) = 1728 ∧
      RightOrder l (decode l x) := by
  have key : ∀ x, StartsFrom l args stdin x → decode l x = 0 := by
    intro x hx
    unfold StartsFrom at hx
    rw [if_pos h] at hx
    unfold decode
    rw [hx.2.1, hx.2.2, Nat.cast_zero]
    rfl
  refine ⟨⟨zeroFp2 l, ?_⟩, fun x hx => ?_⟩
  · unfold StartsFrom
    rw [if_pos h]
    refine ⟨⟨?_, ?_⟩, ?_, ?_⟩
    · exact List.length_replicate
    · exact List.length_replicate
    · exact leNat_zeros _
    · exact leNat_zeros _
  · rw [key x hx]
    refine ⟨rfl, ?_, rightOrder_zero l⟩
    have h4 : (4 : l.F) ≠ 0 := by
      have : (4 : l.F) = 2 ^ 2 := by norm_num
      rw [this]; exact pow_ne_zero _ l.two
    unfold jOf
    rw [div_eq_iff (by rw [zero_pow two_ne_zero, zero_sub, neg_ne_zero]; exact h4)]
    norm_num

/-! ### The tools together -/

/-- The end curves in an honest proof are the canonical models of the end curves of the secret walk. -/
theorem prove_ends (H : Hash) {mem mem' : Mem l} {fuel : ℕ} {x : PFp2} {t t₁ u u' : Tape l.F} {sec : Secret} {prf : Proof}
    (hg : generate l mem x t = .ok (some sec, t₁)) (hp : prove l H mem' fuel sec u = .ok (prf, u')) :
    ∃ x₁, sec.E.getLast? = some x₁ ∧ Super l.φ l.σ l.p (decode l x) ∧ Super l.φ l.σ l.p (decode l x₁) ∧
      prf.E0 = encode l (canonicalModel l.env ⟨decode l x, 1⟩).B ∧
      prf.E1 = encode l (canonicalModel l.env ⟨decode l x₁, 1⟩).B := by
  obtain ⟨ha, a₁, hs⟩ := (generate_ret l mem x).2 _ _ _ hg sec rfl
  obtain ⟨x₀, hx0, hd⟩ := hs.head
  obtain ⟨x₁, hx1, rfl⟩ := hs.last
  obtain ⟨G, hw⟩ := hs.walk
  have h1 := hw.super l.setting ha
  rw [prove_eq l H mem' fuel hx0 hx1] at hp
  obtain ⟨vs, u₁, -, h2⟩ := bind_ok hp
  unfold respond at h2
  obtain ⟨ts, u₂, -, h2⟩ := bind_ok h2
  obtain ⟨e0, u₃, g0, h2⟩ := bind_ok h2
  obtain ⟨e1, u₄, g1, h2⟩ := bind_ok h2
  obtain ⟨rs, u₅, h3, h2⟩ := bind_ok h2
  rw [packCurve_on l (on_one _) (by rw [hd]; exact ha)] at g0
  rw [packCurve_on l (on_one _) h1] at g1
  have e : (⟨encode l e0, encode l e1, rs⟩ : Proof) = prf := by
    injection h2 with h2
    exact congrArg Prod.fst h2
  cases g0
  cases g1
  refine ⟨x₁, hx1, ha, h1, ?_, ?_⟩
  · rw [← e, hd]
  · rw [← e]

/-- A canonical model is its own canonical model. -/
theorem canonical_idem {a : l.F} (ha : Super l.φ l.σ l.p a) :
    (canonicalModel l.env ⟨(canonicalModel l.env ⟨a, 1⟩).B, 1⟩).B = (canonicalModel l.env ⟨a, 1⟩).B := by
  have hS := l.setting
  obtain ⟨-, hm⟩ := (on_one a).model hS ha
  have hb := ha.model hS.frob hS.two hm hS.neg
  refine (canonicalModel_congr hS.sqrt hS.two (env_inj l) ?_ ?_ ?_ ?_ ?_).symm
  · simpa using ha.1
  · simpa using ha.full4 hS.frob hS.two
  · simpa using hb.1
  · simpa using hb.full4 hS.frob hS.two
  · simpa using hm.sameJ

/-- **C55.** An honest proof given to the verify tool on a working system: exit status 0, and its two curves on standard
output - unless the path led through a curve with additional automorphisms. -/
theorem c55_pipeline (H : Hash) (hH : ∀ n x, (H.out n x).length = n) {mem mem' mem'' : Mem l}
    (hm : mem'.challs.length = (params l).reps) (hm' : mem''.challs.length = (params l).reps) {fuel fuel' : ℕ} {x : PFp2}
    {t t₁ u u' v v' : Tape l.F} {sec : Secret} {p : Proof} (hg : generate l mem x t = .ok (some sec, t₁))
    (hp : prove l H mem' fuel sec u = .ok (p, u')) (w : World) (hw : Fresh l w) (hi : ∃ rest, w.stdin = proofText p ++ rest)
    (hmem : w.memory = true) (hf : ∀ n, w.stdout.fault n = none) (hx : w.atExit = 0) {r : Report}
    (h : verifyMain l H mem'' fuel' w v = .ok (r, v')) :
    (r.status = 0 ∧ r.out = fp2Line p.E0 ++ fp2Line p.E1) ∨
      ∃ vs u₁, instances l H sec (params l).reps u = .ok (vs, u₁) ∧ ∃ v ∈ vs, Exceptional l v.1 := by
  have hwf := c24_well_formed l H hH hm hg hp
  rcases (c24_complete l H hm hg hp).2 with he | ha
  · exact .inr he
  left
  obtain ⟨rest, hi⟩ := hi
  have hparse : parse (params l) w.stdin = .ok p (10 :: rest) := by
    have := parse_text (params_supported l).pos hwf (w := []) (by simp) rest
    rw [hi]
    simpa using this
  obtain ⟨-, s, hs, hip⟩ := (C04_parse_language (params_supported l) _ _ _).1 hparse
  have hd : Denotes l w.stdin p := ⟨hwf, s, _, hs, hip⟩
  have hh : Holds p (parsed w.old p) := parsed_holds (by rw [hw.old, hwf.2.2.1])
  have hv : ValidProof l H p := by
    have h' := h
    unfold verifyMain at h'
    rw [if_neg (by rw [hmem]; decide), hparse] at h'
    obtain ⟨b, t1, hv, -⟩ := bind_ok h'
    have hb := (ha mem'' fuel' (parsed w.old p) hm' hh.1 hh.2.1 hh.2.2 v).2 b t1 hv
    exact (validProof_iff l H hh).2 ((c15_verdict l H mem'' hm' fuel' _ v t1 b hv).1 hb)
  obtain ⟨-, -, -, -, h0, -, -, ho⟩ := c54_verify l H mem'' hm' fuel' w hw v v' r h
  have h0 : r.status = 0 := h0.2 ⟨hmem, p, hd, hv, fun i _ => hf _⟩
  exact ⟨h0, (ho h0).2 p hd hx⟩

/-- `t` is the last line of `s`, as `tail -n1` gives it. -/
def LastLine (s t : Bytes) : Prop :=
  ∃ a b, s = a ++ t ∧ t = b ++ ascii "\n" ∧ 10 ∉ b ∧ (a = [] ∨ a.getLast? = some 10)

theorem byteText_no_newline (b : UInt8) : 10 ∉ byteText b := by
  revert b
  refine forall_byte ?_
  decide +kernel

theorem fp2Body_no_newline (v : PFp2) : 10 ∉ fp2Body v := by
  have h1 : ∀ v : Bytes, 10 ∉ coordText v := by
    intro v h
    rw [coordText, List.mem_append] at h
    rcases h with h | h
    · revert h; decide
    · rw [bytesText, List.mem_flatMap] at h
      obtain ⟨b, -, h⟩ := h
      exact byteText_no_newline b h
  intro h
  rw [fp2Body, List.mem_append, List.mem_append] at h
  rcases h with (h | h) | h
  · exact h1 _ h
  · revert h; decide
  · exact h1 _ h

theorem lastLine_unique {X Y : Bytes} (hX : X = [] ∨ X.getLast? = some 10) (hY : 10 ∉ Y) {t : Bytes}
    (h : LastLine (X ++ (Y ++ ascii "\n")) t) : t = Y ++ ascii "\n" := by
  obtain ⟨a, b, h, rfl, hb, ha⟩ := h
  rw [← List.append_assoc, ← List.append_assoc] at h
  have h := List.append_cancel_right h
  have last : ∀ {A B c : Bytes}, (A ++ c = [] ∨ (A ++ c).getLast? = some 10) → 10 ∉ c → c = [] := by
    intro A B c h hc
    rcases h with h | h
    · exact (List.append_eq_nil_iff.1 h).2
    · by_contra hne
      rw [List.getLast?_append_of_ne_nil _ hne] at h
      exact hc (List.mem_of_getLast? h)
  rcases List.append_eq_append_iff.1 h with ⟨c, h1, h2⟩ | ⟨c, h1, h2⟩
  · have : c = [] := last (A := X) (B := []) (c := c) (by rw [← h1]; exact ha) (fun hc => hY (by rw [h2]; simp [hc]))
    rw [this] at h2
    rw [h2, List.nil_append]
  · have : c = [] := last (A := a) (B := []) (c := c) (by rw [← h1]; exact hX) (fun hc => hb (by rw [h2]; simp [hc]))
    rw [this] at h2
    rw [h2, List.nil_append]

/-- **C55.** The sequence of calls in `README.md` chains the curves: if `p` is an honest proof, the verify tool printed
its curves to `out`, and the last line of `out` is the input of the next run of the prove tool, then the proof that this
run writes starts at the very curve - the same bytes - at which `p` ends. -/
theorem c55_chain (H : Hash) (hH : ∀ n x, (H.out n x).length = n) {mem mem' mem₂ mem₂' : Mem l}
    (hm : mem'.challs.length = (params l).reps) (hm' : mem₂'.challs.length = (params l).reps) {fuel fuel' : ℕ} {x : PFp2}
    {t t₁ u u' v v' : Tape l.F} {sec : Secret} {p : Proof} (hg : generate l mem x t = .ok (some sec, t₁))
    (hp : prove l H mem' fuel sec u = .ok (p, u')) {out : Bytes} (ho : out = fp2Line p.E0 ++ fp2Line p.E1)
    (w : World) (hw : Fresh l w) (hi : LastLine out w.stdin) (hf : ∀ n, w.stdout.fault n = none) (hx : w.atExit = 0)
    {args : List String} (hargs : args.head? ≠ some "--initial") {r : Report}
    (h : proveMain l H mem₂ mem₂' fuel' args w v = .ok (r, v')) :
    w.memory = false ∧ r.status = 2 ∨
      r.status = 0 ∧ ∃ p₂, parse (params l) r.out = .ok p₂ [10] ∧ p₂.E0 = p.E1 := by
  have hwf := c24_well_formed l H hH hm hg hp
  obtain ⟨x₁, -, -, s1, -, e1⟩ := prove_ends l H hg hp
  have hin : w.stdin = fp2Line p.E1 := by
    rw [ho] at hi
    refine lastLine_unique (.inr ?_) (fp2Body_no_newline _) hi
    rw [fp2Line, List.getLast?_append_of_ne_nil _ (by decide)]
    decide
  have hd1 : decode l p.E1 = (canonicalModel l.env ⟨decode l x₁, 1⟩).B := by rw [e1, decode_encode]
  have hS := l.setting
  have hsup : Super l.φ l.σ l.p (decode l p.E1) := by
    rw [hd1]
    exact s1.model hS.frob hS.two ((on_one _).model hS s1).2 hS.neg
  have hstart : StartsFrom l args w.stdin p.E1 := by
    unfold StartsFrom
    rw [if_neg hargs]
    have := parseFp2_line hwf.2.1 (w := []) (by simp) []
    obtain ⟨s, hs, hx, hi⟩ := (reads_fp2 (params l) _ _ _).1 this
    refine ⟨hx, s, [10], ?_, hi⟩
    rw [hin]
    simpa using hs
  obtain ⟨h1, h2, h3, h4, -, h6⟩ := c55_prove l H hH mem₂ mem₂' hm' fuel' args w hw v v' r h
  have good : r.status = 0 ∨ r.status = 3 → r.status = 0 ∧ ∃ p₂, parse (params l) r.out = .ok p₂ [10] ∧ p₂.E0 = p.E1 := by
    intro hr
    obtain ⟨y, sec₂, v₁, p₂, v₂, g1, g2, g3, -, g5⟩ := h6 hr
    have hy : y = p.E1 := (starts_unique l g1 hstart).2 hargs
    subst hy
    obtain ⟨hst, g5⟩ := g5 hf
    have := (g5 hx).2 []
    rw [List.append_nil] at this
    refine ⟨hst, p₂, this, ?_⟩
    obtain ⟨-, -, -, -, e2, -⟩ := prove_ends l H g2 g3
    rw [e2, hd1, canonical_idem l s1, e1]
  rcases h1 with h | h | h | h | h
  · exact .inr (good (.inl h))
  · obtain ⟨y, g1, g2⟩ := h3.1 h
    rw [(starts_unique l g1 hstart).1] at g2
    exact absurd ((rightOrder_iff l).2 hsup) g2
  · obtain ⟨-, -, -, g⟩ := h4.1 h
    exact .inl ⟨g, h⟩
  · exact .inr (good (.inr h))
  · exact absurd ⟨_, hstart⟩ (h2.1 h)

/-! ### C65: writing at exit -/

/-- **C65 (finding).** Neither tool flushes or closes standard output before it returns, so a failure to write what is
still buffered (a full disk, say) goes unnoticed: whenever a run ends with status 0, so does the run in the same
circumstances in which everything is lost when the process exits; nothing is then on standard output. -/
theorem c65_unnoticed (H : Hash) (mem mem' : Mem l) (fuel : ℕ) (args : List String) (w : World) (t t' : Tape l.F) (r : Report) :
    (verifyMain l H mem fuel w t = .ok (r, t') → r.status = 0 →
      ∃ n, verifyMain l H mem fuel { w with atExit := n } t = .ok ({ r with out := [] }, t')) ∧
    (proveMain l H mem mem' fuel args w t = .ok (r, t') → r.status = 0 →
      ∃ n, proveMain l H mem mem' fuel args { w with atExit := n } t = .ok ({ r with out := [] }, t')) := by
  have lv : ∀ (w : World) f v m, leave { w with atExit := f.out.length } f v m = { leave w f v m with out := [] } := by
    intro w f v m; simp [leave]
  constructor
  · intro h h0
    unfold verifyMain at h ⊢
    cases hmem : w.memory with
    | false =>
      rw [if_pos hmem] at h
      refine ⟨w.stdout.out.length, ?_⟩
      simp only [if_true]
      cases h
      exact congrArg (fun r => Out.ok (r, t)) (lv w _ _ _)
    | true =>
      rw [if_neg (by rw [hmem]; decide)] at h
      simp only [hmem, Bool.true_eq_false, if_false]
      match hp : parse (params l) w.stdin with
      | .ub => rw [hp] at h; cases h
      | .fail =>
        rw [hp] at h
        cases h
        exact ⟨w.stdout.out.length, congrArg (fun r => Out.ok (r, t)) (lv w _ _ _)⟩
      | .ok p rest =>
        rw [hp] at h
        obtain ⟨b, t1, hv, h⟩ := bind_ok h
        cases b with
        | false =>
          refine ⟨w.stdout.out.length, ?_⟩
          refine (bind_eq hv).trans ?_
          rw [if_pos rfl] at h ⊢
          cases h
          exact congrArg (fun r => Out.ok (r, t')) (lv w _ _ _)
        | true =>
          rw [if_neg (by decide)] at h
          refine ⟨(andThen (dumpFp2 w.stdout (parsed w.old p).E0) fun f => dumpFp2 f (parsed w.old p).E1).2.out.length, ?_⟩
          refine (bind_eq hv).trans ?_
          rw [if_neg (by decide)]
          revert h
          generalize (andThen (dumpFp2 w.stdout (parsed w.old p).E0) fun f => dumpFp2 f (parsed w.old p).E1) = d
          intro h
          cases hd : d.1 with
          | false =>
            rw [if_pos hd] at h
            rw [if_pos rfl]
            cases h
            exact congrArg (fun r => Out.ok (r, t')) (lv w _ _ _)
          | true =>
            rw [if_neg (by rw [hd]; decide)] at h
            rw [if_neg (by decide)]
            cases h
            exact congrArg (fun r => Out.ok (r, t')) (lv w _ _ _)
  · intro h h0
    have key : ∀ x, proveFrom l H mem mem' fuel w x t = .ok (r, t') →
        ∃ n, proveFrom l H mem mem' fuel { w with atExit := n } x t = .ok ({ r with out := [] }, t') := by
      intro x h
      unfold proveFrom at h ⊢
      obtain ⟨o, t1, hg, h⟩ := bind_ok h
      cases o with
      | none =>
        refine ⟨w.stdout.out.length, (bind_eq hg).trans ?_⟩
        cases h
        exact congrArg (fun r => Out.ok (r, t')) (lv w _ _ _)
      | some sec =>
        cases hmem : w.memory with
        | false =>
          refine ⟨w.stdout.out.length, (bind_eq hg).trans ?_⟩
          simp only [hmem, if_true] at h ⊢
          cases h
          exact congrArg (fun r => Out.ok (r, t')) (lv w _ _ _)
        | true =>
          simp only [hmem, Bool.true_eq_false, if_false] at h ⊢
          obtain ⟨p, t2, hp, h⟩ := bind_ok h
          refine ⟨(dump w.stdout p).2.out.length, (bind_eq hg).trans ?_⟩
          refine (bind_eq hp).trans ?_
          cases hd : (dump w.stdout p).1 with
          | false =>
            rw [if_pos hd] at h
            rw [if_pos rfl]
            cases h
            exact congrArg (fun r => Out.ok (r, t')) (lv w _ _ _)
          | true =>
            rw [if_neg (by rw [hd]; decide)] at h
            rw [if_neg (by decide)]
            cases h
            exact congrArg (fun r => Out.ok (r, t')) (lv w _ _ _)
    unfold proveMain at h ⊢
    cases hin : wantsInput args with
    | true =>
      simp only [hin, if_true] at h ⊢
      match hp : parseFp2 (params l) w.stdin with
      | .ub => rw [hp] at h; cases h
      | .fail =>
        rw [hp] at h
        cases h
        exact ⟨w.stdout.out.length, congrArg (fun r => Out.ok (r, t)) (lv w _ _ _)⟩
      | .ok x rest =>
        rw [hp] at h
        exact key x h
    | false =>
      simp only [hin, Bool.false_eq_true, if_false] at h ⊢
      exact key _ h

/-! ### Runs of the tools -/

/-- A fresh process with working output that reads `s`. -/
def okWorld (s : Bytes) : World := ⟨s, emptySink, true, 0, (exC (params l)).resp⟩

theorem okWorld_fresh (s : Bytes) : Fresh l (okWorld l s) := ⟨rfl, (exC_wf (params l)).2.2.1, (exC_wf (params l)).2.2.2⟩

/-- **C68** for the verify tool: whatever the input, if `Parse` has no undefined behaviour on it and `Verify` is not stuck on the
proof it reads, the tool can end. -/
theorem c68_verify_ends (H : Hash) (mem : Mem l) (hm : mem.challs.length = (params l).reps) (w : World) (hw : Fresh l w)
    (hp : parse (params l) w.stdin ≠ .ub)
    (hs : ∀ p rest, parse (params l) w.stdin = .ok p rest → ¬ Stuck l H (parsed w.old p)) :
    ∃ fuel t r t', verifyMain l H mem fuel w t = .ok (r, t') := by
  let e : Tape l.F := ⟨[], [], []⟩
  unfold verifyMain
  cases hmem : w.memory with
  | false => exact ⟨0, e, _, e, rfl⟩
  | true =>
    simp only [Bool.true_eq_false, if_false]
    match hp' : parse (params l) w.stdin with
    | .ub => exact absurd hp' hp
    | .fail => exact ⟨0, e, _, e, rfl⟩
    | .ok p rest =>
      have hwf := ((C04_parse_language (params_supported l) w.stdin rest p).1 hp').1
      obtain ⟨fuel, t, b, t', h⟩ := (c68_returns_iff l H mem hm (parsed_wf hw.old hw.wf hwf)).2 (hs p rest hp')
      refine ⟨fuel, t, ?_⟩
      dsimp only
      rw [bind_eqM h]
      cases b with
      | false => exact ⟨_, _, rfl⟩
      | true =>
        rw [if_neg (by decide)]
        split
        · exact ⟨_, _, rfl⟩
        · exact ⟨_, _, rfl⟩

/-- A run of the prove tool on a working system from a curve of the right order. -/
theorem prove_ok {H : Hash} (hH : ∀ n x, (H.out n x).length = n) {fuel : ℕ} (hA : Answers l H (someMem l) fuel (someTrits l))
    {args : List String} {s : Bytes} {x : PFp2} (hx : StartsFrom l args s x) (ho : RightOrder l (decode l x)) :
    ∃ (y : PFp2) (sec : Secret) (p : Proof) (r : Report) (t t₁ t₂ : Tape l.F), generate l (someMem l) y t = .ok (some sec, t₁) ∧
      prove l H (someMem l) fuel sec t₁ = .ok (p, t₂) ∧ p.resp.map Resp.tag = someTrits l ∧
      proveMain l H (someMem l) (someMem l) fuel args (okWorld l s) t = .ok (r, t₂) ∧ r.status = 0 ∧ r.out = proofText p := by
  have key : ∃ y, StartsFrom l args s y ∧ ∀ t, proveMain l H (someMem l) (someMem l) fuel args (okWorld l s) t =
      proveFrom l H (someMem l) (someMem l) fuel (okWorld l s) y t := by
    unfold proveMain
    cases hin : wantsInput args with
    | true =>
      have hh : args.head? ≠ some "--initial" := by
        intro e
        cases args with
        | nil => cases e
        | cons a as =>
          rw [List.head?_cons, Option.some.injEq] at e
          simp [wantsInput, e] at hin
      have hx' := hx
      unfold StartsFrom at hx'
      rw [if_neg hh] at hx'
      obtain ⟨hwf, t, rest, hs, hi⟩ := hx'
      refine ⟨x, hx, fun t => ?_⟩
      rw [if_pos rfl, show (okWorld l s).stdin = s from rfl, (reads_fp2 (params l) s x rest).2 ⟨_, hs, hwf, hi⟩]
    | false =>
      have hh : args.head? = some "--initial" := by
        cases args with
        | nil => cases hin
        | cons a as => simpa [wantsInput] using hin
      refine ⟨zeroFp2 l, ?_, fun t => by rw [if_neg (by decide)]⟩
      unfold StartsFrom
      rw [if_pos hh]
      exact ⟨⟨List.length_replicate, List.length_replicate⟩, leNat_zeros _, leNat_zeros _⟩
  obtain ⟨y, hy, key⟩ := key
  obtain ⟨sec, p, t, t₁, t₂, hg, hp, htag⟩ := honest_runs l (someMem l) (x := y) (by rw [(starts_unique l hy hx).1]; exact ho)
    (someTrits_length l) (someTrits_trit l) hA
  have hwf := c24_well_formed l H hH (someMem_challs l) hg hp
  obtain ⟨f', e1, e2, -⟩ := C01_dump_parse_roundtrip (params_supported l) p hwf emptySink (fun _ => rfl) []
  refine ⟨y, sec, p, ⟨0, proofText p, []⟩, t, t₁, t₂, hg, hp, htag, ?_, rfl, rfl⟩
  rw [key]
  unfold proveFrom
  rw [bind_eqM hg]
  dsimp only
  rw [if_neg (by simp [okWorld]), bind_eqM hp, show (okWorld l s).stdout = emptySink from rfl, e1, if_neg (by simp)]
  have : f'.out = proofText p := by rw [e2]; rfl
  simp only [leave, this, okWorld, Nat.sub_zero, List.take_length]
  rfl

/-- The hypotheses of `c55_prove`, `c55_pipeline`, `c55_chain`, `c65_unnoticed` and `c68_verify_ends`, by the three calls of
`README.md`: prove from the initial curve, verify what was written, prove from the curve printed last. -/
example : ∃ (H : Hash) (fuel fuel' : ℕ) (x : PFp2) (sec : Secret) (p : Proof) (r₁ r₂ r₃ : Report)
    (t t₁ t₂ u u' v v' : Tape l.F), (∀ n x, (H.out n x).length = n) ∧
    generate l (someMem l) x t = .ok (some sec, t₁) ∧ prove l H (someMem l) fuel sec t₁ = .ok (p, t₂) ∧
    proveMain l H (someMem l) (someMem l) fuel ["--initial"] (okWorld l []) t = .ok (r₁, t₂) ∧ r₁.status = 0 ∧
    verifyMain l H (someMem l) fuel' (okWorld l r₁.out) u = .ok (r₂, u') ∧
    LastLine (fp2Line p.E0 ++ fp2Line p.E1) (fp2Line p.E1) ∧
    proveMain l H (someMem l) (someMem l) fuel [] (okWorld l (fp2Line p.E1)) v = .ok (r₃, v') ∧ r₃.status = 0 ∧
    ∃ p₂, parse (params l) r₃.out = .ok p₂ [10] ∧ p₂.E0 = p.E1 := by
  obtain ⟨H, fuel, ho, -, hA⟩ := exists_answers l (someMem l) (someMem_challs l) (fun n _ => List.replicate n 0)
    (someTrits_length l) (someTrits_trit l)
  have hH : ∀ n x, (H.out n x).length = n := fun n x => by rw [ho]; simp
  obtain ⟨⟨x₀, hx0⟩, h0⟩ := c55_initial l ["--initial"] [] rfl
  obtain ⟨x, sec, p, r₁, t, t₁, t₂, hg, hp, -, h1, hs1, ho1⟩ := prove_ok l hH hA hx0 (h0 x₀ hx0).2.2
  have hwf := c24_well_formed l H hH (someMem_challs l) hg hp
  have hparse : parse (params l) (okWorld l r₁.out).stdin = .ok p [10] := by
    have := parse_text (params_supported l).pos hwf (w := []) (by simp) []
    rw [show (okWorld l r₁.out).stdin = r₁.out from rfl, ho1]
    simpa using this
  obtain ⟨fuel', u, r₂, u', h2⟩ := c68_verify_ends l H (someMem l) (someMem_challs l) (okWorld l r₁.out) (okWorld_fresh l _)
    (by rw [hparse]; simp) (fun _ _ _ => not_stuck l (someMem_challs l) hA _)
  obtain ⟨x₁, -, -, s1, -, e1⟩ := prove_ends l H hg hp
  have hd1 : decode l p.E1 = (canonicalModel l.env ⟨decode l x₁, 1⟩).B := by rw [e1, decode_encode]
  have hS := l.setting
  have hsup : Super l.φ l.σ l.p (decode l p.E1) := by
    rw [hd1]
    exact s1.model hS.frob hS.two ((on_one _).model hS s1).2 hS.neg
  have hstart : StartsFrom l [] (fp2Line p.E1) p.E1 := by
    unfold StartsFrom
    rw [if_neg (by simp)]
    have := parseFp2_line hwf.2.1 (w := []) (by simp) []
    obtain ⟨s, hs, hx, hi⟩ := (reads_fp2 (params l) _ _ _).1 this
    exact ⟨hx, s, [10], by simpa using hs, hi⟩
  have hlast : LastLine (fp2Line p.E0 ++ fp2Line p.E1) (fp2Line p.E1) := by
    refine ⟨_, fp2Body p.E1, rfl, rfl, fp2Body_no_newline _, .inr ?_⟩
    rw [fp2Line, List.getLast?_append_of_ne_nil _ (by decide)]
    decide
  obtain ⟨y, sec', p', r₃, v, v₁, v₂, hg', hp', -, h3, hs3, ho3⟩ := prove_ok l hH hA hstart ((rightOrder_iff l).2 hsup)
  have hch := c55_chain l H hH (someMem_challs l) (someMem_challs l) hg hp rfl (okWorld l (fp2Line p.E1)) (okWorld_fresh l _)
    hlast (fun _ => rfl) rfl (args := []) (by simp) h3
  refine ⟨H, fuel, fuel', x, sec, p, r₁, r₂, r₃, t, t₁, t₂, u, u', v, v₂, hH, hg, hp, h1, hs1, h2, hlast, h3, hs3, ?_⟩
  rcases hch with ⟨h, -⟩ | ⟨-, h⟩
  · cases h
  · exact h

end Secuer.CliProps
