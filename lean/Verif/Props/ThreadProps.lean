import Verif.Threads.Lemmas

/-!
# Properties of the worker pool (C16, C17, C18)

`R i v` says that computing index `i` may leave `v`; `verdict i` is the fixed verdict of
`Unpack_Response` on response `i`. The hypothesis `reps + n < 2 ^ 64` says that the sum of the
number of repetitions and of threads fits in a `size_t`; it holds for the code, where
`reps ≤ 438` and each thread needs a `pthread_t` on the stack.
-/

namespace Secuer.Threads

variable {β : Type}

/-! ### C16 -/

/-- **C16.** Once all workers have been joined, the flag `okay` is true exactly if every response
is acceptable — for any number of threads ≥ 1 and any interleaving. -/
theorem C16_verdict_schedule_independent {reps n k : ℕ} {R : ℕ → β → Prop} {ok : β → Bool}
    {verdict : ℕ → Bool} {s : St β} (hn : 1 ≤ n) (hw : reps + n < 2 ^ 64)
    (hv : ∀ i v, R i v → ok v = verdict i)
    (hex : Exec (UnpackStep reps R ok) n k s) (hj : Joined n s) :
    s.okay = true ↔ ∀ i < reps, verdict i = true := by
  have inv := inv_exec hw hex
  have hnc : ∀ t < n, s.pc t ≠ .clearOkay := fun t ht h => by rw [hj t ht] at h; cases h
  constructor
  · intro hok i hi
    have nf : ¬ Fail n s := by
      rintro (h | ⟨t, ht, h⟩)
      · rw [hok] at h; cases h
      · exact hnc t ht h
    have hidx := inv.stopped 0 (by omega) (hj 0 (by omega)) nf
    rcases inv.given nf i hi (by omega) with h | ⟨t, ht, h⟩
    · obtain ⟨_, _, v, _, hR, h2⟩ := inv.run i (by omega)
      rcases h2 with h2 | h2
      · rw [← hv i v hR]; exact h2
      · exact absurd h2 nf
    · rw [hj t ht] at h; cases h
  · intro hall
    by_contra hc
    obtain ⟨i, hi, v, _, hR, h⟩ := inv.failed (.inl (by simpa using hc))
    rw [hv i v hR, hall i hi] at h
    cases h

/-- **C16**, compared with the single-threaded build: same verdict as the sequential loop. -/
theorem C16_verdict_eq_sequential {reps n k : ℕ} {R : ℕ → β → Prop} {ok : β → Bool}
    {result : ℕ → β} {s : St β} (hn : 1 ≤ n) (hw : reps + n < 2 ^ 64)
    (hv : ∀ i v, R i v → v = result i)
    (hex : Exec (UnpackStep reps R ok) n k s) (hj : Joined n s) :
    s.okay = seqVerify ok ((List.range reps).map result) := by
  have h := C16_verdict_schedule_independent (verdict := fun i => ok (result i)) hn hw
    (fun i v hR => by rw [hv i v hR]) hex hj
  have hseq : ∀ l : List β, seqVerify ok l = true ↔ ∀ v ∈ l, ok v = true := by
    intro l
    induction l with
    | nil => simp [seqVerify]
    | cons a l ih => cases ha : ok a <;> simp [seqVerify, ha, ih]
  rw [Bool.eq_iff_iff, h, hseq]
  simp

/-- **C16**, even when the verdicts are not fixed: success is reported only if every index was
processed, each exactly once and each with a positive verdict. -/
theorem C16_success_means_all_processed {reps n k : ℕ} {R : ℕ → β → Prop} {ok : β → Bool}
    {s : St β} (hn : 1 ≤ n) (hw : reps + n < 2 ^ 64)
    (hex : Exec (UnpackStep reps R ok) n k s) (hj : Joined n s) (hok : s.okay = true) :
    ∀ i < reps, s.runs i = 1 ∧ ∃ v, s.slot i = some v ∧ R i v ∧ ok v = true := by
  intro i hi
  have inv := inv_exec hw hex
  have nf : ¬ Fail n s := by
    rintro (h | ⟨t, ht, h⟩)
    · rw [hok] at h; cases h
    · rw [hj t ht] at h; cases h
  have hidx := inv.stopped 0 (by omega) (hj 0 (by omega)) nf
  rcases inv.given nf i hi (by omega) with h | ⟨t, ht, h⟩
  · obtain ⟨_, _, v, hs, hR, h2⟩ := inv.run i (by omega)
    exact ⟨h, v, hs, hR, h2.resolve_right nf⟩
  · rw [hj t ht] at h; cases h

/-- The hypothesis `1 ≤ n` is needed: with no worker at all (e.g. if `sysconf` reported zero
processors) `okay` stays true whatever the responses are. -/
theorem C16_needs_a_thread (reps : ℕ) (R : ℕ → β → Prop) (ok : β → Bool) :
    ∃ s : St β, Exec (UnpackStep reps R ok) 0 0 s ∧ Joined 0 s ∧ s.okay = true :=
  ⟨_, .init, fun _ ht => absurd ht (by omega), rfl⟩

/-! ### C17 -/

/-- **C17.** After joining, every index below `reps` has been computed exactly once and its slot
holds the outcome; nothing has been written elsewhere. -/
theorem C17_each_index_once {reps n k : ℕ} {R : ℕ → β → Prop} {s : St β} (hn : 1 ≤ n)
    (hw : reps + n < 2 ^ 64) (hex : Exec (ComputeStep reps R) n k s) (hj : Joined n s) :
    (∀ i < reps, s.runs i = 1 ∧ ∃ v, s.slot i = some v ∧ R i v) ∧
    (∀ i, reps ≤ i → s.runs i = 0 ∧ s.slot i = none) := by
  have hex' := compute_unpack hex
  have inv := inv_exec hw hex'
  constructor
  · intro i hi
    have hok : s.okay = true :=
      (C16_verdict_schedule_independent (verdict := fun _ => true) hn hw (fun _ _ _ => rfl)
        hex' hj).2 fun _ _ => rfl
    obtain ⟨h1, v, h2, h3, _⟩ := C16_success_means_all_processed hn hw hex' hj hok i hi
    exact ⟨h1, v, h2, h3⟩
  · intro i hi
    have : s.runs i = 0 := by
      by_contra hc
      have := (inv.run i hc).1
      omega
    exact ⟨this, inv.norun i this⟩

/-- **C17** at every moment of every execution (also of the checking workers): no two threads work
on the same index, an index being worked on has not been written before and is below `reps`, and
no index is ever written twice. -/
theorem C17_no_sharing {reps n k : ℕ} {R : ℕ → β → Prop} {ok : β → Bool} {s : St β}
    (hw : reps + n < 2 ^ 64) (hex : Exec (UnpackStep reps R ok) n k s) :
    (∀ t < n, ∀ t' < n, ∀ i, s.pc t = .work i → s.pc t' = .work i → t = t') ∧
    (∀ t < n, ∀ i, s.pc t = .work i → i < reps ∧ s.slot i = none) ∧
    (∀ i, s.runs i ≤ 1) ∧ (∀ i, reps ≤ i → s.slot i = none) := by
  have inv := inv_exec hw hex
  refine ⟨inv.excl, fun t ht i h => ?_, inv.once, fun i hi => inv.norun i ?_⟩
  · obtain ⟨h1, h2, _⟩ := inv.work t ht i h
    exact ⟨h2, inv.norun i h1⟩
  · by_contra hc
    have := (inv.run i hc).1
    omega

/-! ### C18 -/

/-- **C18.** No execution takes more than `6 * reps + 3 * n` steps. -/
theorem C18_bounded_steps {reps n k : ℕ} {R : ℕ → β → Prop} {ok : β → Bool} {s : St β}
    (hw : reps + n < 2 ^ 64) (hex : Exec (UnpackStep reps R ok) n k s) :
    k ≤ 6 * reps + 3 * n := by
  have := measure_exec hw hex
  omega

/-- **C18.** As long as some worker has not returned, that very worker can take a step, provided
the computation of every index below `reps` has some outcome (no deadlock, no lock-out). -/
theorem C18_progress {reps n k : ℕ} {R : ℕ → β → Prop} {ok : β → Bool} {s : St β}
    (hw : reps + n < 2 ^ 64) (hR : ∀ i < reps, ∃ v, R i v) (hex : Exec (UnpackStep reps R ok) n k s)
    (t : ℕ) (ht : t < n) (hlive : s.pc t ≠ .stop) : ∃ s', UnpackStep reps R ok t s s' := by
  match h : s.pc t with
  | .fetch => exact ⟨_, .fetch s h⟩
  | .work i =>
    obtain ⟨v, hv⟩ := hR i ((C17_no_sharing hw hex).2.1 t ht i h).1
    cases ho : ok v
    · exact ⟨_, .bad s i v h hv ho⟩
    · exact ⟨_, .good s i v h hv ho⟩
  | .clearOkay => exact ⟨_, .clearOkay s h⟩
  | .resetIdx => exact ⟨_, .resetIdx s h⟩
  | .stop => exact absurd h hlive

/-- **C18**, the same for the other two workers. -/
theorem C18_progress_compute {reps n k : ℕ} {R : ℕ → β → Prop} {s : St β}
    (hw : reps + n < 2 ^ 64) (hR : ∀ i < reps, ∃ v, R i v) (hex : Exec (ComputeStep reps R) n k s)
    (t : ℕ) (ht : t < n) (hlive : s.pc t ≠ .stop) : ∃ s', ComputeStep reps R t s s' := by
  have hex' := compute_unpack hex
  have inv := inv_exec hw hex'
  match h : s.pc t with
  | .fetch => exact ⟨_, .fetch s h⟩
  | .work i =>
    obtain ⟨v, hv⟩ := hR i ((C17_no_sharing hw hex').2.1 t ht i h).1
    exact ⟨_, .done s i v h hv⟩
  | .clearOkay =>
    obtain ⟨_, _, _, _, _, h⟩ := inv.failed (.inr ⟨t, ht, h⟩)
    cases h
  | .resetIdx =>
    obtain ⟨_, _, _, _, _, h⟩ := inv.failed (.inl (inv.reset t ht h))
    cases h
  | .stop => exact absurd h hlive

/-- **C18.** Each worker fetches at most `reps + 1` times, and the shared index never exceeds
`reps + n`; in particular it never wraps round. -/
theorem C18_fetches_and_index {reps n k : ℕ} {R : ℕ → β → Prop} {ok : β → Bool} {s : St β}
    (hw : reps + n < 2 ^ 64) (hex : Exec (UnpackStep reps R ok) n k s) :
    s.idx ≤ reps + n ∧ ∀ t < n, s.fetches t ≤ reps + 1 := by
  have inv := inv_exec hw hex
  have h1 := inv.bound
  have h2 := card_stop_le n s.pc
  refine ⟨by omega, fun t ht => ?_⟩
  have := inv.fet t ht
  split at this <;> omega

/-- If executions are bounded and every thread that has not returned can take a step, then every execution can be continued
until all threads have returned. -/
theorem run_on {n m : ℕ} {step : ℕ → St β → St β → Prop} (hb : ∀ k s, Exec step n k s → k ≤ m)
    (hp : ∀ k s, Exec step n k s → ∀ t < n, s.pc t ≠ .stop → ∃ s', step t s s') {k : ℕ} {s : St β} (hex : Exec step n k s) :
    ∃ k' s', k ≤ k' ∧ Exec step n k' s' ∧ Joined n s' := by
  generalize hm : m - k = d
  induction d generalizing k s with
  | zero =>
    by_cases hj : Joined n s
    · exact ⟨k, s, le_refl _, hex, hj⟩
    · obtain ⟨t, ht, hlive⟩ : ∃ t < n, s.pc t ≠ .stop := by
        by_contra hc
        exact hj fun t ht => by by_contra h; exact hc ⟨t, ht, h⟩
      obtain ⟨s', hs⟩ := hp k s hex t ht hlive
      have := hb _ _ (hex.step t ht hs)
      omega
  | succ d ih =>
    by_cases hj : Joined n s
    · exact ⟨k, s, le_refl _, hex, hj⟩
    · obtain ⟨t, ht, hlive⟩ : ∃ t < n, s.pc t ≠ .stop := by
        by_contra hc
        exact hj fun t ht => by by_contra h; exact hc ⟨t, ht, h⟩
      obtain ⟨s', hs⟩ := hp k s hex t ht hlive
      obtain ⟨k', s'', h1, h2, h3⟩ := ih (hex.step t ht hs) (by omega)
      exact ⟨k', s'', by omega, h2, h3⟩

/-- **C18.** From the start every schedule can be continued to the point where all workers have
returned: any execution that has not got there can be extended, and only finitely often. -/
theorem C18_terminates {reps n k : ℕ} {R : ℕ → β → Prop} {ok : β → Bool} {s : St β}
    (hw : reps + n < 2 ^ 64) (hR : ∀ i < reps, ∃ v, R i v) (hex : Exec (UnpackStep reps R ok) n k s) :
    ∃ k' s', k ≤ k' ∧ Exec (UnpackStep reps R ok) n k' s' ∧ Joined n s' :=
  run_on (fun _ _ h => C18_bounded_steps hw h) (fun _ _ h => C18_progress hw hR h) hex

/-- **C18**, the same for the other two workers. -/
theorem C18_terminates_compute {reps n k : ℕ} {R : ℕ → β → Prop} {s : St β}
    (hw : reps + n < 2 ^ 64) (hR : ∀ i < reps, ∃ v, R i v) (hex : Exec (ComputeStep reps R) n k s) :
    ∃ k' s', k ≤ k' ∧ Exec (ComputeStep reps R) n k' s' ∧ Joined n s' :=
  run_on (fun _ _ h => C18_bounded_steps hw (compute_unpack h)) (fun _ _ h => C18_progress_compute hw hR h) hex

/-! Premises are satisfiable: with 3 threads and 5 indices, of which index 2 is bad, joined
executions exist (hence C16 and C17 are not vacuous), and they end with `okay = false`. -/
example : ∃ k s, Exec (UnpackStep (β := ℕ) 5 (fun i v => v = i) (fun v => v != 2)) 3 k s ∧
    Joined 3 s ∧ s.okay = false := by
  obtain ⟨k, s, _, h, hj⟩ := C18_terminates (reps := 5) (n := 3) (R := fun i v => v = i)
    (ok := fun v : ℕ => v != 2) (by decide) (fun i _ => ⟨i, rfl⟩) .init
  refine ⟨k, s, h, hj, ?_⟩
  have := C16_verdict_eq_sequential (result := id) (by decide) (by decide)
    (fun i v h => h) h hj
  rw [this]; decide

end Secuer.Threads
