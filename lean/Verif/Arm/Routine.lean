import Verif.Arm.Call
import Verif.X64.RoutineWide

/-!
# The kinds of ARM functions

The claims to check are those of the assembly for x86-64 (`Verif/X64/Routine.lean`, `Verif/X64/RoutineWide.lean`), and so is what
follows from them.
-/

namespace Secuer.Arm

open Secuer.Word
open Secuer.X64 (Tab Env Poly TabOK Sig InB wordsAt wordsAt_length insWords full bd full_bound bd_bound bd_length
  addClaim subkClaim fpaddClaim fpsubClaim mulClaim rdcClaim dblsubClaim Found)

variable {T : Tables} {p : ℕ} {tabs : Tab → List ℕ}

theorem hyp_nil {S : Sig} {s : St} : HypOK S s [] := fun _ h => by cases h

theorem mpAdd_of_check {n K : ℕ} {al : List (ℕ × ℕ)} {prog : List Instr} {hints : List (ℕ × List Hint)}
    (h : check tabs ⟨[n, n], n, K, al, []⟩ prog hints (full (2 * n)) [] (addClaim ⟨[n, n], n, K, al, []⟩ n) = true)
    (hK : K % 16 = 0) (hn : 2 * n < 1000) {E : Env} (hE : TabOK tabs E) {s : St} (hp : Pre E ⟨[n, n], n, K, al, []⟩ s) :
    ∃ s', Done E ⟨[n, n], n, K, al, []⟩ prog s s' ∧
      wordsAt s'.mem (ptr s 2) n = mpAddfastC (wordsAt s.mem (ptr s 0) n) (wordsAt s.mem (ptr s 1) n) := by
  obtain ⟨s', ρ, σ, hd, f, hc, -⟩ := check_sound h hE hp (X64.inB_two (view s)) hyp_nil hK (by simp) (by simpa [full] using hn)
    (by simp)
  exact ⟨s', hd, X64.mpAdd_of_found f hc⟩

theorem subk_of_check {n K : ℕ} {al : List (ℕ × ℕ)} {prog : List Instr} {hints : List (ℕ × List Hint)} {x : List Digit}
    (hx : x.length = n)
    (h : check tabs ⟨[n, n], n, K, al, []⟩ prog hints (full (2 * n)) [] (subkClaim ⟨[n, n], n, K, al, []⟩ n (val x)) = true)
    (hK : K % 16 = 0) (hn : 2 * n < 1000) {E : Env} (hE : TabOK tabs E) {s : St} (hp : Pre E ⟨[n, n], n, K, al, []⟩ s) :
    ∃ s', Done E ⟨[n, n], n, K, al, []⟩ prog s s' ∧
      wordsAt s'.mem (ptr s 2) n =
        (addLoop 0 (subLoop 0 (wordsAt s.mem (ptr s 0) n) (wordsAt s.mem (ptr s 1) n)).2 x).2 := by
  obtain ⟨s', ρ, σ, hd, f, hc, -⟩ := check_sound h hE hp (X64.inB_two (view s)) hyp_nil hK (by simp) (by simpa [full] using hn)
    (by simp)
  exact ⟨s', hd, X64.subk_of_found hx f hc⟩

theorem fpadd_of_check {K y1 y2 c : ℕ} {al : List (ℕ × ℕ)} {prog : List Instr} {hints : List (ℕ × List Hint)}
    (hx : T.x2.length = T.n)
    (h : check tabs ⟨[T.n, T.n], T.n, K, al, []⟩ prog hints (full (2 * T.n)) []
      (fpaddClaim ⟨[T.n, T.n], T.n, K, al, []⟩ T.n (val T.x2) y1 y2 c) = true)
    (hK : K % 16 = 0) (hn : 2 * T.n < 1000) {E : Env} (hE : TabOK tabs E) {s : St}
    (hp : Pre E ⟨[T.n, T.n], T.n, K, al, []⟩ s) :
    ∃ s', Done E ⟨[T.n, T.n], T.n, K, al, []⟩ prog s s' ∧
      wordsAt s'.mem (ptr s 2) T.n = fpaddC T (wordsAt s.mem (ptr s 0) T.n) (wordsAt s.mem (ptr s 1) T.n) := by
  obtain ⟨s', ρ, σ, hd, f, hc, -⟩ := check_sound h hE hp (X64.inB_two (view s)) hyp_nil hK (by simp) (by simpa [full] using hn)
    (by simp)
  exact ⟨s', hd, X64.fpadd_of_found hx f hc⟩

theorem fpsub_of_check {K y c : ℕ} {al : List (ℕ × ℕ)} {prog : List Instr} {hints : List (ℕ × List Hint)}
    (hx : T.x2.length = T.n)
    (h : check tabs ⟨[T.n, T.n], T.n, K, al, []⟩ prog hints (full (2 * T.n)) []
      (fpsubClaim ⟨[T.n, T.n], T.n, K, al, []⟩ T.n (val T.x2) y c) = true)
    (hK : K % 16 = 0) (hn : 2 * T.n < 1000) {E : Env} (hE : TabOK tabs E) {s : St}
    (hp : Pre E ⟨[T.n, T.n], T.n, K, al, []⟩ s) :
    ∃ s', Done E ⟨[T.n, T.n], T.n, K, al, []⟩ prog s s' ∧
      wordsAt s'.mem (ptr s 2) T.n = fpsubC T (wordsAt s.mem (ptr s 0) T.n) (wordsAt s.mem (ptr s 1) T.n) := by
  obtain ⟨s', ρ, σ, hd, f, hc, -⟩ := check_sound h hE hp (X64.inB_two (view s)) hyp_nil hK (by simp) (by simpa [full] using hn)
    (by simp)
  exact ⟨s', hd, X64.fpsub_of_found hx f hc⟩

theorem mul_of_check {n K t u : ℕ} {al : List (ℕ × ℕ)} {ws : List (ℕ × ℕ)} {prog : List Instr}
    {hints : List (ℕ × List Hint)} {hyps : List (Poly × ℕ)}
    (h : check tabs ⟨[n, n], 2 * n, K, al, []⟩ prog hints (bd n t ++ bd n u) hyps
      (mulClaim ⟨[n, n], 2 * n, K, al, []⟩ n ws) = true)
    (hK : K % 16 = 0) (hn : 2 * n < 1000) (hn0 : 0 < n) {E : Env} (hE : TabOK tabs E) {s : St}
    (hp : Pre E ⟨[n, n], 2 * n, K, al, []⟩ s) (hh : HypOK ⟨[n, n], 2 * n, K, al, []⟩ s hyps) (hl : hyps.length < 1000)
    (ha : val (wordsAt s.mem (ptr s 0) n) < (t + 1) * 2 ^ (64 * (n - 1)))
    (hb : val (wordsAt s.mem (ptr s 1) n) < (u + 1) * 2 ^ (64 * (n - 1))) :
    ∃ s', Done E ⟨[n, n], 2 * n, K, al, []⟩ prog s s' ∧
      mpMul n (wordsAt s.mem (ptr s 0) n) (wordsAt s.mem (ptr s 1) n) = some (wordsAt s'.mem (ptr s 2) (2 * n)) := by
  obtain ⟨s', ρ, σ, hd, f, hc, -⟩ := check_sound h hE hp (X64.inB_bd (s := view s) hn0 ha hb) hh hK (by simp)
    (by rw [List.length_append, bd_length hn0, bd_length hn0]; omega) hl
  exact ⟨s', hd, X64.mul_of_found hn hn0 f hc⟩

theorem rdc_of_check (g : Good T p) {K t : ℕ} {al : List (ℕ × ℕ)} {ms : List ℕ} {ws : List (ℕ × ℕ)} {prog : List Instr}
    {hints : List (ℕ × List Hint)}
    (h : check tabs ⟨[2 * T.n], T.n, K, al, [0]⟩ prog hints (bd (2 * T.n) t) []
      (rdcClaim ⟨[2 * T.n], T.n, K, al, [0]⟩ T.n p ms ws) = true)
    (hK : K % 16 = 0) (hn : 2 * T.n < 1000) {E : Env} (hE : TabOK tabs E) {s : St}
    (hp : Pre E ⟨[2 * T.n], T.n, K, al, [0]⟩ s)
    (ha : val (wordsAt s.mem (ptr s 0) (2 * T.n)) < (t + 1) * 2 ^ (64 * (2 * T.n - 1)))
    (hm : val (wordsAt s.mem (ptr s 0) (2 * T.n)) < 2 ^ (64 * T.n) * p) :
    ∃ s', Done E ⟨[2 * T.n], T.n, K, al, [0]⟩ prog s s' ∧
      rdcMont T (wordsAt s.mem (ptr s 0) (2 * T.n)) = some (wordsAt s'.mem (ptr s 1) T.n) := by
  have hn0 : 0 < 2 * T.n := by have := g.n_pos; omega
  have hin : InB ⟨[2 * T.n], T.n, K, al, [0]⟩ (view s) (bd (2 * T.n) t) := by
    unfold InB
    dsimp only
    rw [insWords, insWords, List.append_nil]
    exact bd_bound hn0 (wordsAt_length _ _ _) ha
  obtain ⟨s', ρ, σ, hd, f, hc, -⟩ := check_sound h hE hp hin hyp_nil hK (by simp) (by rw [bd_length hn0]; omega) (by simp)
  exact ⟨s', hd, X64.rdc_of_found g f hc hm⟩

theorem subadd_of_check (g : Good T p) {K y c : ℕ} {al : List (ℕ × ℕ)} {prog : List Instr} {hints : List (ℕ × List Hint)}
    (h : check tabs ⟨[2 * T.n, 2 * T.n], 2 * T.n, K, al, []⟩ prog hints (full (2 * (2 * T.n))) []
      (fpsubClaim ⟨[2 * T.n, 2 * T.n], 2 * T.n, K, al, []⟩ (2 * T.n) (p * 2 ^ (64 * T.n)) y c) = true)
    (hK : K % 16 = 0) (hn : 2 * (2 * T.n) < 1000) {E : Env} (hE : TabOK tabs E) {s : St}
    (hp : Pre E ⟨[2 * T.n, 2 * T.n], 2 * T.n, K, al, []⟩ s) :
    ∃ s', Done E ⟨[2 * T.n, 2 * T.n], 2 * T.n, K, al, []⟩ prog s s' ∧
      wordsAt s'.mem (ptr s 2) (2 * T.n) =
        mpSubaddfast T (wordsAt s.mem (ptr s 0) (2 * T.n)) (wordsAt s.mem (ptr s 1) (2 * T.n)) := by
  obtain ⟨s', ρ, σ, hd, f, hc, -⟩ := check_sound h hE hp (X64.inB_two (view s)) hyp_nil hK (by simp) (by simpa [full] using hn)
    (by simp)
  exact ⟨s', hd, X64.subadd_of_found g f hc⟩

theorem dblsub_of_check {n K : ℕ} {prog : List Instr} {hints : List (ℕ × List Hint)}
    (h : check tabs ⟨[n, n, n], 0, K, [], [2]⟩ prog hints (full (3 * n)) [] (dblsubClaim n) = true)
    (hK : K % 16 = 0) (hn : 3 * n < 1000) {E : Env} (hE : TabOK tabs E) {s : St}
    (hp : Pre E ⟨[n, n, n], 0, K, [], [2]⟩ s) :
    ∃ s', Done E ⟨[n, n, n], 0, K, [], [2]⟩ prog s s' ∧
      wordsAt s'.mem (ptr s 2) n =
        mpDblsubfast (wordsAt s.mem (ptr s 0) n) (wordsAt s.mem (ptr s 1) n) (wordsAt s.mem (ptr s 2) n) := by
  have hin : InB ⟨[n, n, n], 0, K, [], [2]⟩ (view s) (full (3 * n)) := by
    unfold InB
    dsimp only
    rw [insWords, insWords, insWords, insWords, List.append_nil, ← List.map_append, ← List.map_append]
    have := full_bound (wordsAt (view s).mem (X64.ptr (view s) 0) n ++
      (wordsAt (view s).mem (X64.ptr (view s) 1) n ++ wordsAt (view s).mem (X64.ptr (view s) 2) n))
    rwa [List.length_append, List.length_append, wordsAt_length, wordsAt_length, wordsAt_length,
      show n + (n + n) = 3 * n by ring] at this
  obtain ⟨s', ρ, σ, hd, f, hc, -⟩ := check_sound h hE hp hin hyp_nil hK (by simp) (by simpa [full] using hn) (by simp)
  exact ⟨s', hd, X64.dblsub_of_found f hc⟩

end Secuer.Arm
