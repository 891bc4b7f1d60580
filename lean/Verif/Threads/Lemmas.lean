import Verif.Threads.Model
import Mathlib.Algebra.BigOperators.Group.Finset.Basic
import Mathlib.Algebra.Order.BigOperators.Group.Finset
import Mathlib.Data.Finset.Card
import Mathlib.Tactic.ByContra

/-! Inductive invariants of the worker pool. -/

namespace Secuer.Threads

open Finset

variable {β : Type}

@[simp] theorem upd_same {α} (f : ℕ → α) (i : ℕ) (x : α) : upd f i x i = x := by simp [upd]
theorem upd_ne {α} (f : ℕ → α) {i j : ℕ} (x : α) (h : j ≠ i) : upd f i x j = f j := by simp [upd, h]

/-- A failure has been noticed by some thread. -/
def Fail (n : ℕ) (s : St β) : Prop := s.okay = false ∨ ∃ t < n, s.pc t = .clearOkay

structure Inv (reps n : ℕ) (R : ℕ → β → Prop) (ok : β → Bool) (s : St β) : Prop where
  excl : ∀ t < n, ∀ t' < n, ∀ i, s.pc t = .work i → s.pc t' = .work i → t = t'
  work : ∀ t < n, ∀ i, s.pc t = .work i → s.runs i = 0 ∧ i < reps ∧ i < s.idx
  once : ∀ i, s.runs i ≤ 1
  run : ∀ i, s.runs i ≠ 0 → i < reps ∧ i < s.idx ∧ ∃ v, s.slot i = some v ∧ R i v ∧
    (ok v = true ∨ Fail n s)
  norun : ∀ i, s.runs i = 0 → s.slot i = none
  reset : ∀ t < n, s.pc t = .resetIdx → s.okay = false
  given : ¬ Fail n s → ∀ i < reps, i < s.idx → s.runs i = 1 ∨ ∃ t < n, s.pc t = .work i
  failed : Fail n s → ∃ i < reps, ∃ v, s.slot i = some v ∧ R i v ∧ ok v = false
  stopped : ∀ t < n, s.pc t = .stop → ¬ Fail n s → reps ≤ s.idx
  bound : s.idx ≤ reps + #{t ∈ range n | s.pc t = .stop}
  fet : ∀ t < n, s.fetches t ≤ (if s.pc t = .stop then reps + 1 else min s.idx reps)

theorem card_upd_stop {n t : ℕ} (ht : t < n) (pc : ℕ → PC) (x : PC) (h : pc t ≠ .stop) :
    #{u ∈ range n | upd pc t x u = .stop} =
      #{u ∈ range n | pc u = .stop} + if x = .stop then 1 else 0 := by
  split
  · rename_i hx
    have : {u ∈ range n | upd pc t x u = .stop} = insert t {u ∈ range n | pc u = .stop} := by
      ext u
      simp only [mem_filter, mem_range, mem_insert]
      by_cases hu : u = t
      · subst hu; simp [hx, ht]
      · simp [upd_ne _ _ hu, hu]
    rw [this, card_insert_of_notMem (by simp [h])]
  · rename_i hx
    have : {u ∈ range n | upd pc t x u = .stop} = {u ∈ range n | pc u = .stop} := by
      ext u
      simp only [mem_filter, mem_range]
      by_cases hu : u = t
      · subst hu; simp [hx, h]
      · simp [upd_ne _ _ hu]
    rw [this, Nat.add_zero]

theorem card_stop_le (n : ℕ) (pc : ℕ → PC) : #{u ∈ range n | pc u = .stop} ≤ n := by
  calc _ ≤ #(range n) := card_filter_le _ _
    _ = n := card_range n

theorem card_stop_lt {n t : ℕ} (ht : t < n) (pc : ℕ → PC) (h : pc t ≠ .stop) :
    #{u ∈ range n | pc u = .stop} < n := by
  have := card_upd_stop ht pc .stop h
  have h2 := card_stop_le n (upd pc t .stop)
  rw [if_pos rfl] at this
  omega

theorem inv_init (reps n : ℕ) (R : ℕ → β → Prop) (ok : β → Bool) : Inv reps n R ok (init β) := by
  have nf : ¬ Fail n (init β) := by
    rintro (h | ⟨t, _, h⟩)
    · simp [init] at h
    · simp [init] at h
  constructor <;> simp_all [init]

theorem inv_fetch {reps n : ℕ} {R : ℕ → β → Prop} {ok : β → Bool} {s : St β} {t : ℕ} (ht : t < n)
    (hw : reps + n < sizeMod) (h : Inv reps n R ok s) (hpc : s.pc t = .fetch) :
    Inv reps n R ok (fetchStep reps s t) := by
  have hns : s.pc t ≠ .stop := by rw [hpc]; simp
  have hb := h.bound
  have hlt := card_stop_lt ht s.pc hns
  have hidx : (s.idx + 1) % sizeMod = s.idx + 1 := Nat.mod_eq_of_lt (by omega)
  have hx : ∀ x : PC, x ≠ .clearOkay → ∀ u, upd s.pc t x u = .clearOkay ↔ s.pc u = .clearOkay := by
    intro x hx u
    by_cases hu : u = t
    · subst hu; simp [hx, hpc]
    · simp [upd_ne _ _ hu]
  have hne : (if s.idx ≥ reps then PC.stop else .work s.idx) ≠ .clearOkay := by split <;> simp
  have hfail : Fail n (fetchStep reps s t) ↔ Fail n s := by
    simp only [Fail, fetchStep, hx _ hne]
  have hwk : ∀ u i, upd s.pc t (if s.idx ≥ reps then .stop else .work s.idx) u = .work i →
      s.pc u = .work i ∨ (u = t ∧ i = s.idx ∧ s.idx < reps) := by
    intro u i hu
    by_cases hut : u = t
    · subst hut
      rw [upd_same] at hu
      split at hu
      · cases hu
      · injection hu with hu; exact .inr ⟨rfl, hu.symm, by omega⟩
    · rw [upd_ne _ _ hut] at hu; exact .inl hu
  constructor
  · intro a ha b hb' i hai hbi
    rcases hwk a i hai with h1 | ⟨rfl, rfl, _⟩
    · rcases hwk b i hbi with h2 | ⟨rfl, rfl, _⟩
      · exact h.excl a ha b hb' i h1 h2
      · have := (h.work a ha _ h1).2.2; omega
    · rcases hwk b _ hbi with h2 | ⟨rfl, _, _⟩
      · have := (h.work b hb' _ h2).2.2; omega
      · rfl
  · intro a ha i hai
    simp only [fetchStep, hidx] at hai ⊢
    rcases hwk a i hai with h1 | ⟨rfl, rfl, hlt'⟩
    · have := h.work a ha i h1; omega
    · refine ⟨?_, hlt', by omega⟩
      by_contra hr
      have := (h.run s.idx hr).2.1
      omega
  · exact h.once
  · intro i hi
    obtain ⟨h1, h2, v, h3, h4, h5⟩ := h.run i hi
    refine ⟨h1, ?_, v, h3, h4, ?_⟩
    · simp only [fetchStep, hidx]; omega
    · rwa [hfail]
  · exact h.norun
  · intro a ha hai
    simp only [fetchStep] at hai ⊢
    by_cases hat : a = t
    · subst hat
      rw [upd_same] at hai
      split at hai <;> cases hai
    · rw [upd_ne _ _ hat] at hai; exact h.reset a ha hai
  · intro hf i hi hlt'
    rw [hfail] at hf
    simp only [fetchStep, hidx] at hlt' ⊢
    by_cases hi' : i = s.idx
    · subst hi'
      right
      exact ⟨t, ht, by rw [upd_same, if_neg (by omega)]⟩
    · rcases h.given hf i hi (by omega) with h1 | ⟨a, ha, h1⟩
      · exact .inl h1
      · refine .inr ⟨a, ha, ?_⟩
        have : a ≠ t := by rintro rfl; rw [hpc] at h1; cases h1
        rw [upd_ne _ _ this]; exact h1
  · intro hf
    rw [hfail] at hf
    exact h.failed hf
  · intro a ha hai hf
    rw [hfail] at hf
    simp only [fetchStep, hidx] at hai ⊢
    by_cases hat : a = t
    · subst hat
      rw [upd_same] at hai
      split at hai
      · omega
      · cases hai
    · rw [upd_ne _ _ hat] at hai
      have := h.stopped a ha hai hf; omega
  · simp only [fetchStep, hidx, card_upd_stop ht s.pc _ hns]
    split
    · simp; omega
    · simp; omega
  · intro a ha
    simp only [fetchStep, hidx]
    by_cases hat : a = t
    · subst hat
      simp only [upd_same]
      have := h.fet a ha
      rw [if_neg hns] at this
      by_cases hge : s.idx ≥ reps
      · simp only [hge, if_true]; omega
      · simp only [hge, if_false]; simp; omega
    · simp only [upd_ne _ _ hat]
      have := h.fet a ha
      split
      · rename_i hh; rw [if_pos hh] at this; exact this
      · rename_i hh; rw [if_neg hh] at this; omega

theorem inv_write {reps n : ℕ} {R : ℕ → β → Prop} {ok : β → Bool} {s : St β} {t i : ℕ} {v : β}
    (ht : t < n) (h : Inv reps n R ok s) (hpc : s.pc t = .work i) (hR : R i v) (x : PC)
    (hx : x = if ok v then .fetch else .clearOkay) :
    Inv reps n R ok { writeSlot s i v with pc := upd s.pc t x } := by
  have hns : s.pc t ≠ .stop := by rw [hpc]; simp
  have hxs : x ≠ .stop := by rw [hx]; split <;> simp
  obtain ⟨hr0, hir, hii⟩ := h.work t ht i hpc
  have hcl : ∀ u, upd s.pc t x u = .clearOkay ↔ (s.pc u = .clearOkay ∨ (u = t ∧ ok v = false)) := by
    intro u
    by_cases hu : u = t
    · subst hu
      rw [upd_same, hpc, hx]
      cases ok v <;> simp
    · simp [upd_ne _ _ hu, hu]
  have hfail : Fail n { writeSlot s i v with pc := upd s.pc t x } ↔ (Fail n s ∨ ok v = false) := by
    simp only [Fail, writeSlot, hcl]
    constructor
    · rintro (h1 | ⟨a, ha, h1 | ⟨_, h1⟩⟩)
      · exact .inl (.inl h1)
      · exact .inl (.inr ⟨a, ha, h1⟩)
      · exact .inr h1
    · rintro ((h1 | ⟨a, ha, h1⟩) | h1)
      · exact .inl h1
      · exact .inr ⟨a, ha, .inl h1⟩
      · exact .inr ⟨t, ht, .inr ⟨rfl, h1⟩⟩
  have hwk : ∀ u j, upd s.pc t x u = .work j → u ≠ t ∧ s.pc u = .work j := by
    intro u j hu
    by_cases hut : u = t
    · subst hut
      rw [upd_same, hx] at hu
      split at hu <;> cases hu
    · rw [upd_ne _ _ hut] at hu; exact ⟨hut, hu⟩
  constructor
  · intro a ha b hb j haj hbj
    exact h.excl a ha b hb j (hwk a j haj).2 (hwk b j hbj).2
  · intro a ha j haj
    obtain ⟨h1, h2⟩ := hwk a j haj
    have hj : j ≠ i := by
      rintro rfl; exact h1 (h.excl a ha t ht j h2 hpc)
    simp only [writeSlot, upd_ne _ _ hj]
    exact h.work a ha j h2
  · intro j
    simp only [writeSlot]
    by_cases hj : j = i
    · subst hj; simp [hr0]
    · rw [upd_ne _ _ hj]; exact h.once j
  · intro j hj
    by_cases hji : j = i
    · subst hji
      refine ⟨hir, hii, v, by simp [writeSlot], hR, ?_⟩
      rw [hfail]
      cases ok v <;> simp
    · simp only [writeSlot, upd_ne _ _ hji] at hj ⊢
      obtain ⟨h1, h2, w, h3, h4, h5⟩ := h.run j hj
      refine ⟨h1, h2, w, h3, h4, ?_⟩
      rcases h5 with h5 | h5
      · exact .inl h5
      · exact .inr (hfail.2 (.inl h5))
  · intro j hj
    by_cases hji : j = i
    · subst hji; simp [writeSlot] at hj
    · simp only [writeSlot, upd_ne _ _ hji] at hj ⊢
      exact h.norun j hj
  · intro a ha hai
    simp only [writeSlot] at hai ⊢
    by_cases hat : a = t
    · subst hat
      rw [upd_same, hx] at hai
      split at hai <;> cases hai
    · rw [upd_ne _ _ hat] at hai; exact h.reset a ha hai
  · intro hf j hj hlt
    rw [hfail] at hf
    simp only [writeSlot] at hlt ⊢
    by_cases hji : j = i
    · subst hji; left; simp [hr0]
    · rw [upd_ne _ _ hji]
      rcases h.given (fun hh => hf (.inl hh)) j hj hlt with h1 | ⟨a, ha, h1⟩
      · exact .inl h1
      · refine .inr ⟨a, ha, ?_⟩
        have : a ≠ t := by
          rintro rfl; rw [hpc] at h1; injection h1 with h1; exact hji h1.symm
        rw [upd_ne _ _ this]; exact h1
  · intro hf
    rw [hfail] at hf
    rcases hf with hf | hf
    · obtain ⟨j, hj, w, h1, h2, h3⟩ := h.failed hf
      have hji : j ≠ i := by
        rintro rfl
        rw [h.norun j hr0] at h1; cases h1
      exact ⟨j, hj, w, by simp only [writeSlot, upd_ne _ _ hji]; exact h1, h2, h3⟩
    · exact ⟨i, hir, v, by simp [writeSlot], hR, hf⟩
  · intro a ha hai hf
    rw [hfail] at hf
    simp only [writeSlot] at hai ⊢
    by_cases hat : a = t
    · subst hat; rw [upd_same] at hai; exact absurd hai hxs
    · rw [upd_ne _ _ hat] at hai
      exact h.stopped a ha hai fun hh => hf (.inl hh)
  · simp only [writeSlot, card_upd_stop ht s.pc _ hns, if_neg hxs]
    exact h.bound
  · intro a ha
    simp only [writeSlot]
    have := h.fet a ha
    by_cases hat : a = t
    · subst hat
      rw [if_neg hns] at this
      simp only [upd_same, if_neg hxs]; exact this
    · simp only [upd_ne _ _ hat]; exact this

theorem inv_clear {reps n : ℕ} {R : ℕ → β → Prop} {ok : β → Bool} {s : St β} {t : ℕ}
    (ht : t < n) (h : Inv reps n R ok s) (hpc : s.pc t = .clearOkay) :
    Inv reps n R ok { s with okay := false, pc := upd s.pc t .resetIdx } := by
  have hns : s.pc t ≠ .stop := by rw [hpc]; simp
  have hf0 : Fail n s := .inr ⟨t, ht, hpc⟩
  have hf1 : Fail n { s with okay := false, pc := upd s.pc t .resetIdx } := .inl rfl
  have hwk : ∀ u j, upd s.pc t .resetIdx u = .work j → s.pc u = .work j := by
    intro u j hu
    by_cases hut : u = t
    · subst hut; rw [upd_same] at hu; cases hu
    · rwa [upd_ne _ _ hut] at hu
  constructor
  · intro a ha b hb j haj hbj
    exact h.excl a ha b hb j (hwk a j haj) (hwk b j hbj)
  · intro a ha j haj; exact h.work a ha j (hwk a j haj)
  · exact h.once
  · intro i hi
    obtain ⟨h1, h2, v, h3, h4, _⟩ := h.run i hi
    exact ⟨h1, h2, v, h3, h4, .inr hf1⟩
  · exact h.norun
  · intro _ _ _; rfl
  · intro hf; exact absurd hf1 hf
  · intro _; exact h.failed hf0
  · intro _ _ _ hf; exact absurd hf1 hf
  · simp only [card_upd_stop ht s.pc _ hns]
    simpa using h.bound
  · intro a ha
    have := h.fet a ha
    by_cases hat : a = t
    · subst hat
      simp only [upd_same]
      rw [if_neg hns] at this
      simpa using this
    · simp only [upd_ne _ _ hat]; exact this

theorem inv_reset {reps n : ℕ} {R : ℕ → β → Prop} {ok : β → Bool} {s : St β} {t : ℕ}
    (ht : t < n) (h : Inv reps n R ok s) (hpc : s.pc t = .resetIdx) :
    Inv reps n R ok { s with idx := reps, pc := upd s.pc t .stop } := by
  have hns : s.pc t ≠ .stop := by rw [hpc]; simp
  have hok := h.reset t ht hpc
  have hf0 : Fail n s := .inl hok
  have hf1 : Fail n { s with idx := reps, pc := upd s.pc t .stop } := .inl hok
  have hwk : ∀ u j, upd s.pc t .stop u = .work j → s.pc u = .work j := by
    intro u j hu
    by_cases hut : u = t
    · subst hut; rw [upd_same] at hu; cases hu
    · rwa [upd_ne _ _ hut] at hu
  constructor
  · intro a ha b hb j haj hbj
    exact h.excl a ha b hb j (hwk a j haj) (hwk b j hbj)
  · intro a ha j haj
    have := h.work a ha j (hwk a j haj)
    exact ⟨this.1, this.2.1, this.2.1⟩
  · exact h.once
  · intro i hi
    obtain ⟨h1, h2, v, h3, h4, _⟩ := h.run i hi
    exact ⟨h1, h1, v, h3, h4, .inr hf1⟩
  · exact h.norun
  · intro _ _ _; exact hok
  · intro hf; exact absurd hf1 hf
  · intro _; exact h.failed hf0
  · intro _ _ _ hf; exact absurd hf1 hf
  · simp only [card_upd_stop ht s.pc _ hns]
    omega
  · intro a ha
    have := h.fet a ha
    by_cases hat : a = t
    · subst hat
      simp only [upd_same]
      rw [if_neg hns] at this
      simp; omega
    · simp only [upd_ne _ _ hat]
      split
      · rename_i hh; rwa [if_pos hh] at this
      · rename_i hh; rw [if_neg hh] at this; omega

theorem inv_exec {reps n k : ℕ} {R : ℕ → β → Prop} {ok : β → Bool} {s : St β}
    (hw : reps + n < sizeMod) (h : Exec (UnpackStep reps R ok) n k s) : Inv reps n R ok s := by
  induction h with
  | init => exact inv_init reps n R ok
  | step t _ ht hs ih =>
    cases hs with
    | fetch hpc => exact inv_fetch ht hw ih hpc
    | good i v hpc hR hok => exact inv_write ht ih hpc hR _ (by rw [hok]; rfl)
    | bad i v hpc hR hok => exact inv_write ht ih hpc hR _ (by rw [hok]; rfl)
    | clearOkay hpc => exact inv_clear ht ih hpc
    | resetIdx hpc => exact inv_reset ht ih hpc

/-- Workers that only compute behave like checking workers that never see a failure. -/
theorem compute_unpack {reps n k : ℕ} {R : ℕ → β → Prop} {s : St β}
    (h : Exec (ComputeStep reps R) n k s) : Exec (UnpackStep reps R fun _ => true) n k s := by
  induction h with
  | init => exact .init
  | step t _ ht hs ih =>
    cases hs with
    | fetch hpc => exact .step t ih ht (.fetch _ hpc)
    | done i v hpc hR => exact .step t ih ht (.good _ i v hpc hR rfl)

/-- Work left. -/
def weight : PC → ℕ
  | .stop => 0
  | .resetIdx => 1
  | .clearOkay => 2
  | .fetch => 3
  | .work _ => 4

theorem weight_stop : weight .stop = 0 := rfl
theorem weight_reset : weight .resetIdx = 1 := rfl
theorem weight_clear : weight .clearOkay = 2 := rfl
theorem weight_fetch : weight .fetch = 3 := rfl
theorem weight_work (i : ℕ) : weight (.work i) = 4 := rfl

def measure (reps n : ℕ) (s : St β) : ℕ := 6 * (reps - s.idx) + ∑ t ∈ range n, weight (s.pc t)

theorem sum_upd {n t : ℕ} (ht : t < n) (pc : ℕ → PC) (x : PC) :
    (∑ u ∈ range n, weight (upd pc t x u)) + weight (pc t) =
      (∑ u ∈ range n, weight (pc u)) + weight x := by
  have hm : t ∈ range n := by simpa using ht
  rw [← Finset.add_sum_erase _ _ hm, ← Finset.add_sum_erase _ (fun u => weight (pc u)) hm]
  have : ∑ u ∈ (range n).erase t, weight (upd pc t x u) = ∑ u ∈ (range n).erase t, weight (pc u) :=
    Finset.sum_congr rfl fun u hu => by rw [upd_ne _ _ (Finset.ne_of_mem_erase hu)]
  rw [this, upd_same]
  omega

theorem measure_exec {reps n k : ℕ} {R : ℕ → β → Prop} {ok : β → Bool} {s : St β}
    (hw : reps + n < sizeMod) (h : Exec (UnpackStep reps R ok) n k s) :
    k + measure reps n s ≤ 6 * reps + 3 * n := by
  induction h with
  | init => simp [measure, init, weight]; omega
  | @step k s s' t he ht hs ih =>
    have hinv := inv_exec hw he
    cases hs with
    | fetch hpc =>
      have hns : s.pc t ≠ .stop := by rw [hpc]; simp
      have hb := hinv.bound
      have hlt := card_stop_lt ht s.pc hns
      have hidx : (s.idx + 1) % sizeMod = s.idx + 1 := Nat.mod_eq_of_lt (by omega)
      have hsum := sum_upd ht s.pc (if s.idx ≥ reps then .stop else .work s.idx)
      rw [hpc] at hsum
      simp only [measure, fetchStep, hidx] at ih ⊢
      by_cases hge : s.idx ≥ reps
      · rw [if_pos hge] at hsum
        simp only [hge, if_true, weight_stop, weight_reset, weight_clear, weight_fetch, weight_work] at hsum ⊢
        omega
      · rw [if_neg hge] at hsum
        simp only [hge, if_false, weight_stop, weight_reset, weight_clear, weight_fetch, weight_work] at hsum ⊢
        omega
    | good i v hpc hR hok =>
      have hsum := sum_upd ht s.pc .fetch
      rw [hpc] at hsum
      simp only [measure, writeSlot, weight_stop, weight_reset, weight_clear, weight_fetch, weight_work] at ih hsum ⊢
      omega
    | bad i v hpc hR hok =>
      have hsum := sum_upd ht s.pc .clearOkay
      rw [hpc] at hsum
      simp only [measure, writeSlot, weight_stop, weight_reset, weight_clear, weight_fetch, weight_work] at ih hsum ⊢
      omega
    | clearOkay hpc =>
      have hsum := sum_upd ht s.pc .resetIdx
      rw [hpc] at hsum
      simp only [measure, weight_stop, weight_reset, weight_clear, weight_fetch, weight_work] at ih hsum ⊢
      omega
    | resetIdx hpc =>
      have hsum := sum_upd ht s.pc .stop
      rw [hpc] at hsum
      simp only [measure, weight_stop, weight_reset, weight_clear, weight_fetch, weight_work] at ih hsum ⊢
      omega

end Secuer.Threads
