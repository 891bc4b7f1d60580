import Verif.Props.HonestProps
import Verif.Props.ThreadProps
import Verif.Protocol.Local

/-!
# Property C67: the prover and the verifier as built by default, with worker threads

Conventions as in `Verif.Props.ProtocolProps`; the worker pool is `Verif.Threads.Model`.
-/

namespace Secuer.Threads

/-- Executions with fewer outcomes are executions. -/
theorem Exec.mono_compute {β : Type} {reps n k : ℕ} {R R' : ℕ → β → Prop} (h : ∀ i v, R i v → R' i v) {s : St β}
    (hex : Exec (ComputeStep reps R) n k s) : Exec (ComputeStep reps R') n k s := by
  induction hex with
  | init => exact .init
  | step t _ ht hs ih =>
    cases hs with
    | fetch hpc => exact .step t ih ht (.fetch _ hpc)
    | done i v hpc hR => exact .step t ih ht (.done _ i v hpc (h i v hR))

/-- A pool of workers can leave any given list of possible outcomes. -/
theorem exists_pool {β : Type} {reps n : ℕ} (hn : 1 ≤ n) (hw : reps + n < 2 ^ 64) {R : ℕ → β → Prop} {vs : List β}
    (hl : vs.length = reps) (hv : ∀ (i : ℕ) v, vs[i]? = some v → R i v) :
    ∃ k s, Exec (ComputeStep reps R) n k s ∧ Joined n s ∧ ∀ (i : ℕ) v, vs[i]? = some v → s.slot i = some v := by
  obtain ⟨k, s, -, hex, hj⟩ := C18_terminates_compute (R := fun i v => vs[i]? = some v) hw
    (fun i hi => ⟨_, List.getElem?_eq_getElem (by omega)⟩) .init
  refine ⟨k, s, hex.mono_compute hv, hj, fun i v h => ?_⟩
  obtain ⟨hi, -⟩ := List.getElem?_eq_some_iff.1 h
  obtain ⟨-, w, hw, hw'⟩ := (C17_each_index_once hn hw hex hj).1 i (by omega)
  rw [h] at hw'
  cases hw'
  exact hw

end Secuer.Threads

namespace Secuer.ProtocolProps

open Secuer.Protocol Secuer.Curve Secuer.Mont Secuer.Field Secuer.Text Secuer.Scalar Secuer.ChainProps Secuer.CurveProps
open Secuer.Challenge (Spec.Trit)
open Secuer.Threads (Exec Joined ComputeStep UnpackStep C16_verdict_schedule_independent C16_success_means_all_processed
  C17_each_index_once C18_terminates exists_pool)

variable (l : Level)

/-- `Prove` compiled with `THREADING` (`poik.c:1406-1461`, workers in `poik.c:1330-1357`) can return `prf`, having computed
the instances and commitments `vs`: `n` workers compute the instances; the calling thread computes the challenge and the two
end curves; `n` workers compute the responses. Each computation has its own random values, and they are interleaved in any
way. -/
def ThreadedProve (H : Hash) (n : ℕ) (mem : Mem l) (fuel : ℕ) (sec : Secret) (vs : List (Inst l × Comm)) (prf : Proof) :
    Prop :=
  ∃ x₀ x₁, sec.E.head? = some x₀ ∧ sec.E.getLast? = some x₁ ∧ vs.length = (params l).reps ∧
  (∃ k s, Exec (ComputeStep (params l).reps fun _ v => Possible l (instanceM l H sec) v) n k s ∧ Joined n s ∧
    ∀ (i : ℕ) v, vs[i]? = some v → s.slot i = some v) ∧
  ∃ ts e₀ e₁, Possible l (challengeM l H mem fuel (encJ l ⟨decode l x₀, 1⟩) (encJ l ⟨decode l x₁, 1⟩) (vs.map Prod.snd)) ts ∧
  packCurve l.env ⟨decode l x₀, 1⟩ = .ok e₀ ∧ packCurve l.env ⟨decode l x₁, 1⟩ = .ok e₁ ∧
  ∃ rs : List Resp, rs.length = (params l).reps ∧
  (∃ k s, Exec (ComputeStep (params l).reps fun i r => ∃ c v, ts[i]? = some c ∧ vs[i]? = some v ∧
      Possible l (packResponse l c v.1 v.2) r) n k s ∧ Joined n s ∧
    ∀ (i : ℕ) r, rs[i]? = some r → s.slot i = some r) ∧
  prf = ⟨encode l e₀, encode l e₁, rs⟩

/-- **C67.** For any number of workers, the prover with threads can return exactly what the single-threaded prover can
return. -/
theorem c67_prove (H : Hash) {n : ℕ} (hn : 1 ≤ n) (hn' : (params l).reps + n < 2 ^ 64) {mem : Mem l}
    (hm : mem.challs.length = (params l).reps) (fuel : ℕ) (sec : Secret) (vs : List (Inst l × Comm)) (prf : Proof) :
    ThreadedProve l H n mem fuel sec vs prf ↔
      ∃ t t₁ t', instances l H sec (params l).reps t = .ok (vs, t₁) ∧ prove l H mem fuel sec t = .ok (prf, t') := by
  constructor
  · rintro ⟨x₀, x₁, h0, h1, hl, ⟨k, s, hex, hj, hs⟩, ts, e₀, e₁, ⟨u, u', hts⟩, he0, he1, rs, hrl, ⟨k', s', hex', hj', hs'⟩, rfl⟩
    have hvs : ∀ v ∈ vs, ∃ t t', instanceM l H sec t = .ok (v, t') := by
      intro v hv
      obtain ⟨i, hi, rfl⟩ := List.getElem_of_mem hv
      obtain ⟨-, w, hw, hw'⟩ := (C17_each_index_once hn hn' hex hj).1 i (by omega)
      rw [hs i _ (List.getElem?_eq_getElem hi)] at hw
      cases hw
      exact hw'
    obtain ⟨htl, _, _⟩ := (challengeM_ret l H mem hm fuel _ _ _).2 _ _ _ hts
    obtain ⟨s₁, h₁⟩ := instances_join l H sec vs hvs
    obtain ⟨s₂, -, h₂⟩ := challengeM_local l H mem fuel _ _ _ _ _ _ hts
    obtain ⟨s₃, h₃⟩ := packAll_join l ts vs rs (by omega) (by omega) (by
      intro i c v r hc hv hr
      obtain ⟨hi, -⟩ := List.getElem?_eq_some_iff.1 hr
      obtain ⟨-, w, hw, c', v', hc', hv', hw'⟩ := (C17_each_index_once hn hn' hex' hj').1 i (by omega)
      rw [hs' i _ hr] at hw
      cases hw
      rw [hc] at hc'
      rw [hv] at hv'
      cases hc'
      cases hv'
      exact hw')
    rw [hl] at h₁
    let e : Tape l.F := ⟨[], [], []⟩
    refine ⟨s₁.app (s₂.app (s₃.app e)), _, e, h₁ _, ?_⟩
    rw [prove_eq l H mem fuel h0 h1, bind_eqM (h₁ _)]
    unfold respond
    rw [bind_eqM (h₂ _), he0, he1]
    simp only [lift_ok_bind]
    rw [bind_eqM (h₃ _)]
    rfl
  · rintro ⟨t, t₁, t', hi, hp⟩
    obtain ⟨hl, hvs⟩ := instances_split l H sec _ _ _ _ hi
    have hp' := hp
    unfold prove at hp'
    match h0 : sec.E.head?, h1 : sec.E.getLast?, hp' with
    | none, _, hp' => cases hp'
    | some _, none, hp' => cases hp'
    | some x₀, some x₁, _ =>
      rw [prove_eq l H mem fuel h0 h1, bind_eqM hi] at hp
      unfold respond at hp
      obtain ⟨ts, t₂, hts, hp⟩ := bind_okM hp
      obtain ⟨e₀, t₃, he0, hp⟩ := bind_okM hp
      obtain ⟨e₁, t₄, he1, hp⟩ := bind_okM hp
      obtain ⟨rs, t₅, hrs, hp⟩ := bind_okM hp
      cases hp
      obtain ⟨htl, _, _⟩ := (challengeM_ret l H mem hm fuel _ _ _).2 _ _ _ hts
      obtain ⟨hrl, hrs⟩ := packAll_split l ts vs rs _ _ (by omega) hrs
      have lift_ok : ∀ (o : Out l.F) a (t t' : Tape l.F), (M.lift o : M l.F l.F) t = .ok (a, t') → o = .ok a := by
        intro o a t t' h
        cases o <;> cases h
        rfl
      refine ⟨x₀, x₁, h0, h1, hl, exists_pool hn hn' hl fun i v hv => hvs v (List.mem_of_getElem? hv), ts, e₀, e₁, ⟨_, _, hts⟩,
        lift_ok _ _ _ _ he0, lift_ok _ _ _ _ he1, rs, by omega, exists_pool hn hn' (by omega) ?_, rfl⟩
      intro i r hr
      obtain ⟨hi, -⟩ := List.getElem?_eq_some_iff.1 hr
      have hc : ts[i]? = some ts[i] := List.getElem?_eq_getElem (by omega)
      have hv : vs[i]? = some vs[i] := List.getElem?_eq_getElem (by omega)
      exact ⟨_, _, hc, hv, hrs i _ _ r hc hv hr⟩

/-- **C67**: no worker of the prover meets undefined behaviour, on a secret that `Generate` returned: not while computing an
instance, and not while computing the response to a challenge `-1, 0, 1` for an instance. -/
theorem c67_no_ub (H : Hash) {mem : Mem l} {x : PFp2} {t t₁ : Tape l.F} {sec : Secret}
    (hg : generate l mem x t = .ok (some sec, t₁)) :
    (∀ u, instanceM l H sec u ≠ .ub) ∧ ∀ v, Possible l (instanceM l H sec) v → ∀ c : Int, c = -1 ∨ c = 0 ∨ c = 1 →
      ∀ u, packResponse l c v.1 v.2 u ≠ .ub := by
  obtain ⟨ha, a₁, hs⟩ := (generate_ret l mem x).2 _ _ _ hg sec rfl
  obtain ⟨i1, i2⟩ := instanceM_ret l H hs ha
  refine ⟨i1, ?_⟩
  rintro v ⟨u, u', hv⟩ c hc
  obtain ⟨G, hw⟩ := hs.walk
  exact (packResponse_ret l H ha (hw.super l.setting ha) (i2 _ _ _ hv) (on_one _) (on_one _) hc).1

/-- **C24, C67.** What the prover with threads returns for a secret of `Generate` is accepted - unless the path led through a
curve with additional automorphisms. -/
theorem c67_complete (H : Hash) {n : ℕ} (hn : 1 ≤ n) (hn' : (params l).reps + n < 2 ^ 64) {mem mem' : Mem l}
    (hm : mem'.challs.length = (params l).reps) {fuel : ℕ} {x : PFp2} {t t₁ : Tape l.F} {sec : Secret}
    {vs : List (Inst l × Comm)} {prf : Proof} (hg : generate l mem x t = .ok (some sec, t₁))
    (hp : ThreadedProve l H n mem' fuel sec vs prf) : (∃ v ∈ vs, Exceptional l v.1) ∨ AcceptedBy l H prf := by
  obtain ⟨u, u₁, u', hi, hp⟩ := (c67_prove l H hn hn' hm fuel sec vs prf).1 hp
  rcases (c24_complete l H hm hg hp).2 with ⟨vs', u₁', hi', h⟩ | h
  · rw [hi] at hi'
    cases hi'
    exact .inl h
  · exact .inr h

/-- **C15, C67.** The verifier with threads can accept, for any number of workers, exactly the valid proofs - those that the
single-threaded verifier can accept (`c15_accepts_iff`). -/
theorem c67_verify (H : Hash) {n : ℕ} (hn : 1 ≤ n) (hn' : (params l).reps + n < 2 ^ 64) {prf : CProof}
    (hw : prf.WF (params l)) : ThreadedVerify l H n prf true ↔ Valid l H prf := by
  constructor
  · exact fun h => (c15_threaded l H hn hn' hw true h).1 rfl
  rintro ⟨r0, r1, os, hos, hc⟩
  let mem : Mem l := ⟨fun _ => (⟨0, 0⟩, ⟨0, 0⟩), List.replicate (params l).reps 0⟩
  have hm : mem.challs.length = (params l).reps := by simp [mem]
  have hb : ∀ x : PFp2, RightOrder l (decode l x) → Possible l (checkedCurve l mem x) true := by
    intro x hx
    obtain ⟨s, _, rfl, hs⟩ := checkedCurve_can l mem x ((rightOrder_iff l).1 hx)
    exact ⟨_, _, hs s⟩
  obtain ⟨hlen, hslot⟩ := (valid_get hw).1 hos
  have hres : ∀ i, i < (params l).reps → ∃ r o, prf.resp[i]? = some r ∧ os[i]? = some o := by
    intro i hi
    exact ⟨_, _, List.getElem?_eq_getElem (by rw [hw.2.2.1]; exact hi), List.getElem?_eq_getElem (by omega)⟩
  obtain ⟨k, s, -, hex, hj⟩ := C18_terminates (β := Option (Int × Comm)) (ok := Option.isSome)
    (R := fun i v => ∃ r mem, prf.resp[i]? = some r ∧ Possible l (unpackResponse l H mem prf.E0 prf.E1 r) v) hn' (by
      intro i hi
      obtain ⟨r, o, hr, ho⟩ := hres i hi
      obtain ⟨mem, hp⟩ := hslot i r o hr ho
      exact ⟨_, r, mem, hr, hp⟩) .init
  have hok : s.okay = true := by
    refine (C16_verdict_schedule_independent (verdict := fun _ => true) hn hn' ?_ hex hj).2 fun _ _ => rfl
    rintro i v ⟨r, mem', hr, hp⟩
    have hi : i < os.length := by
      obtain ⟨hi, -⟩ := List.getElem?_eq_some_iff.1 hr
      rw [hlen, ← hw.2.2.1]; exact hi
    obtain ⟨mem'', ho⟩ := hslot i r _ hr (List.getElem?_eq_getElem hi)
    rw [possible_unique l H r0 r1 hp ho]
    rfl
  have hc' : IsChallenge l H (challengeInput (encJ l ⟨decode l prf.E0, 1⟩) (encJ l ⟨decode l prf.E1, 1⟩) (os.map Prod.snd))
      (os.map Prod.fst) := by
    rw [challenge_bytes]
    simpa [List.map_map, Function.comp_def] using hc
  obtain ⟨fuel, hch⟩ := isChallenge_finishes l mem hm hc' (by rw [List.length_map, hlen])
  refine ⟨true, mem, hb _ r0, .inr ⟨rfl, true, mem, hb _ r1, .inr ⟨rfl, k, s, hex, hj, .inr ⟨hok, os, hlen, ?_, mem, fuel,
    os.map Prod.fst, hm, ?_, by simp⟩⟩⟩⟩
  · intro i o ho
    obtain ⟨hi, -⟩ := List.getElem?_eq_some_iff.1 ho
    obtain ⟨-, v, hv, ⟨r', mem', hr', hp⟩, -⟩ := C16_success_means_all_processed hn hn' hex hj hok i (by rw [← hlen]; exact hi)
    obtain ⟨mem'', ho'⟩ := hslot i r' o hr' ho
    rw [hv, possible_unique l H r0 r1 hp ho']
  · rw [hch]
    let e : Tape l.F := ⟨[], [], []⟩
    exact ⟨e, e, rfl⟩

end Secuer.ProtocolProps
