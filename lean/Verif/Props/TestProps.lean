import Verif.CMem.Test
import Verif.Props.MemProveProps
import Verif.Props.UtilProps

/-!
# The test program (C102)

`test.c` on memory: it runs `Generate`, `Prove` and `Verify`, flips one bit of the proof, and expects `Verify` to refuse it.
-/

set_option maxRecDepth 100000

namespace Secuer.MemProps

open Secuer.Word Secuer.Field Secuer.CMem
open Secuer.Text (PFp2 CResp CProof)
open Secuer.WCurve (Draw TapeLen fieldTape)
open Secuer.Curve (Pt Crv Out Tape)
open Secuer.Protocol (params Comm Hash)
open Secuer.CurveProps (jOf)
open Secuer.ChainProps (RightOrder rightOrder_zero)
open Secuer.ProtocolProps (Valid Opens IsChallenge challengeBytes commitBytes)
open Secuer.KeccakProps (shakeHash C13_hash)

attribute [local instance] Arith.portable

variable {l : Level}

/-! ## The bit flip -/

theorem flip_out {m : Mem} {prf x n : ℕ} (h : x + n ≤ prf + 345 ∨ prf + 345 < x) : bytesAt (flipM prf m) x n = bytesAt m x n := by
  rw [← rdBytes_eq, ← rdBytes_eq]
  exact (setByte_bf (s := x + n) (x := prf + 345) _ m).bytes (by omega) (by simp; omega)

theorem xor_one_ne (b : UInt8) : b ^^^ 1 ≠ b := by
  intro h
  have : b ^^^ (b ^^^ 1) = b ^^^ b := by rw [h]
  rw [← UInt8.xor_assoc, UInt8.xor_self, UInt8.zero_xor] at this
  exact absurd this (by decide)

theorem flip_in {m : Mem} {prf x n : ℕ} (h1 : x ≤ prf + 345) (h2 : prf + 345 < x + n) : bytesAt (flipM prf m) x n ≠ bytesAt m x n := by
  intro h
  have h3 := bytesAt_sub h (k := prf + 345 - x) (j := 1) (by omega)
  rw [show x + (prf + 345 - x) = prf + 345 by omega, ← rdBytes_eq, ← rdBytes_eq] at h3
  have h4 : [byteAt (flipM prf m) (prf + 345)] = [byteAt m (prf + 345)] := h3
  rw [flipM, byteAt_setByte, if_pos rfl] at h4
  exact xor_one_ne _ (List.singleton_inj.1 h4)

theorem flip_congr {m m' : Mem} {prf n : ℕ} (h : bytesAt m' prf n = bytesAt m prf n) : bytesAt (flipM prf m') prf n = bytesAt (flipM prf m) prf n := by
  rw [← rdBytes_eq, ← rdBytes_eq]
  refine List.map_congr_left fun i hi => ?_
  have hb : ∀ k < n, byteAt m' (prf + k) = byteAt m (prf + k) := fun k hk => by
    have h3 := bytesAt_sub h (k := k) (j := 1) (by omega)
    rw [← rdBytes_eq, ← rdBytes_eq] at h3
    exact List.singleton_inj.1 h3
  have hi := List.mem_range.1 hi
  rw [flipM, flipM, byteAt_setByte, byteAt_setByte]
  by_cases e : prf + i = prf + 345
  · rw [if_pos e, if_pos e, ← e, hb i hi]
  · rw [if_neg e, if_neg e, hb i hi]

theorem flip_flip (m : Mem) (prf x n : ℕ) : bytesAt (flipM prf (flipM prf m)) x n = bytesAt m x n := by
  rw [← rdBytes_eq, ← rdBytes_eq]
  refine List.map_congr_left fun i _ => ?_
  rw [flipM, byteAt_setByte]
  by_cases h : x + i = prf + 345
  · rw [if_pos h, h, flipM, byteAt_setByte, if_pos rfl, UInt8.xor_assoc, UInt8.xor_self, UInt8.xor_zero]
  · rw [if_neg h, flipM, byteAt_setByte, if_neg h]

/-! ## The run -/

/-- The blocks from `malloc` are below the stack frame, and they overlap neither each other nor the string at `E0`. -/
structure HeapOk (l : Level) (E0 sp : ℕ) (h : Heap) : Prop where
  prf : ∀ x, h.prf = some x → x + proofBytes l ≤ 8 * sp ∧ (x + proofBytes l ≤ E0 ∨ E0 + 2 * fb l ≤ x)
  inst : ∀ a, h.inst = some a → 8 * a + arrayBytes l ≤ 8 * sp ∧ (8 * a + arrayBytes l ≤ E0 ∨ E0 + 2 * fb l ≤ 8 * a)
  sep : ∀ x a, h.prf = some x → h.inst = some a → x + proofBytes l ≤ 8 * a ∨ 8 * a + arrayBytes l ≤ x

/-- Nothing of the caller's has changed but the two blocks from `malloc`. -/
def Kept (l : Level) (sp : ℕ) (h : Heap) (m m' : Mem) : Prop :=
  ∀ y < 8 * sp, (∀ x, h.prf = some x → y < x ∨ x + proofBytes l ≤ y) → (∀ a, h.inst = some a → y < 8 * a ∨ 8 * a + arrayBytes l ≤ y) →
    bytesAt m' y 1 = bytesAt m y 1

theorem bytesAt_ones {m m' : Mem} {x n : ℕ} (h : ∀ y, x ≤ y → y < x + n → bytesAt m' y 1 = bytesAt m y 1) : bytesAt m' x n = bytesAt m x n := by
  refine List.map_congr_left fun i hi => ?_
  have := h (x + i) (by omega) (by have := List.mem_range.1 hi; omega)
  simpa [bytesAt] using this

theorem strVal_congr {m m' : Mem} {x : ℕ} (h : bytesAt m' x (2 * fb l) = bytesAt m x (2 * fb l)) : strVal l m' x = strVal l m x := by
  have h1 := bytesAt_sub h (k := 0) (j := fb l) (by omega)
  have h2 := bytesAt_sub h (k := fb l) (j := fb l) (by omega)
  rw [Nat.add_zero x] at h1
  rw [strVal, strVal, h1, h2]

theorem Kept.strVal {E0 sp : ℕ} {h : Heap} {m m' : Mem} (hk : Kept l sp h m m') (h0 : E0 + 2 * fb l ≤ 8 * sp) (hh : HeapOk l E0 sp h) :
    strVal l m' E0 = strVal l m E0 :=
  strVal_congr (bytesAt_ones fun y h1 h2 => hk y (by omega) (fun x hx => by have := (hh.prf x hx).2; omega)
    fun a ha => by have := (hh.inst a ha).2; omega)

theorem bindT_ok {γ β : Type} {r : Out (γ × Tape Draw)} {k : γ → Tape Draw → Out β} {Q : β → Prop} (h0 : r ≠ .ub)
    (h : ∀ g t, r = .ok (g, t) → k g t ≠ .ub ∧ ∀ b, k g t = .ok b → Q b) : bindT r k ≠ .ub ∧ ∀ b, bindT r k = .ok b → Q b := by
  rcases r with ⟨g, t⟩ | _ | _ | _
  · exact h g t rfl
  · exact ⟨by simp [bindT], fun b e => by simp [bindT] at e⟩
  · exact absurd rfl h0
  · exact ⟨by simp [bindT], fun b e => by simp [bindT] at e⟩

theorem verify_tape {s prf fuel : ℕ} (hp : prf + proofBytes l ≤ 8 * s) {t : Tape Draw} (ht : TapeLen l t) {m : Mem} {q : Bool × Mem} {t' : Tape Draw}
    (h : verifyM l shakeHash fuel prf s t m = .ok (q, t')) : TapeLen l t' := by
  have hf := verifyM_f (l := l) shakeHash (fun n x => (C13_hash n x).1) shake_block (fun _ => (⟨0, 0⟩, ⟨0, 0⟩)) fuel (prf := prf) (s := s)
    (by rw [proofSize_eq]; exact hp) ht m
  rw [h] at hf
  generalize Protocol.verify l shakeHash _ _ _ _ = c at hf
  rcases c with ⟨c, tc⟩ | _ | _ | _ <;> simp only [FRes] at hf
  exact hf.1

/-- What `test_poik` and `bench_poik` have in common, up to the call of `Prove` -/
theorem start_ok {E0 sp : ℕ} (h0 : E0 + 2 * fb l ≤ 8 * sp) {h : Heap} (hh : HeapOk l E0 sp h) (fuel : ℕ) {t : Tape Draw} (ht : TapeLen l t) {m : Mem}
    (hE : strVal l m E0 = 0) {k : ℕ → Mem → Tape Draw → Out ((Bool × Mem) × Tape Draw)} {Q : (Bool × Mem) × Tape Draw → Prop}
    (hn : h.prf = none → ∀ m' t', TapeLen l t' → Kept l sp h m m' → Q ((false, m'), t'))
    (hk : ∀ prf m' t', h.prf = some prf → TapeLen l t' → Kept l sp h m m' → k prf m' t' ≠ .ub ∧ ∀ r, k prf m' t' = .ok r → Q r) {o : Out ((Bool × Mem) × Tape Draw)}
    (ho : o = bindT (generateM l E0 (8 * sp) (sp + secretSize l) t m) fun q t =>
      if q.1 = false then .ok ((false, q.2), t) else
      match h.prf with
      | none => .ok ((false, q.2), t)
      | some prf => bindT (proveM l shakeHash fuel (8 * sp) prf h.inst (sp + secretSize l) t q.2) (k prf)) :
    o ≠ .ub ∧ ∀ r, o = .ok r → Q r := by
  subst ho
  have hz := secretSize_eq (l := l)
  have hg := C100_generate (l := l) (s := sp + secretSize l) (E0 := E0) (sec := 8 * sp) (by omega) (by omega) t ht m
  refine bindT_ok hg.1 fun q t₁ hq => ?_
  obtain ⟨b, m₁⟩ := q
  obtain ⟨hb, hf, -⟩ := hg.2 _ _ _ hq
  have hb : b = true := hb.2 (by rw [hE]; exact rightOrder_zero l)
  subst hb
  have hl := (C100_refines (l := l) (by omega) (by omega) ⟨fun _ => (⟨0, 0⟩, ⟨0, 0⟩), []⟩ t ht m m₁ t₁ hq).1
  have hG := C101_generated (l := l) (by omega) (by omega) t ht m m₁ t₁ hq m₁ (8 * sp) rfl
  have hK : Kept l sp h m m₁ := fun y hy _ _ => hf y (by omega) (.inr (.inl hy))
  simp only [Bool.true_eq_false, if_false]
  rcases he : h.prf with _ | prf
  · exact ⟨by simp, fun r hr => by cases hr; exact hn he _ _ hl hK⟩
  · rcases hi : h.inst with _ | a
    · simp only [C101_malloc]
      exact ⟨by simp [bindT], fun r hr => by simp [bindT] at hr⟩
    · have hx := hh.prf _ he
      have ha := hh.inst _ hi
      have hxa := hh.sep _ _ he hi
      have hp := C101_prove (l := l) (s := sp + secretSize l) (sec := 8 * sp) (prf := prf) (inst := a) (by omega) (by omega) (by omega) (by omega) hxa
        fuel t₁ hl m₁ hG
      refine bindT_ok hp.1 fun m₂ t₂ hq₂ => ?_
      have hl₂ := (C101_refines (l := l) (s := sp + secretSize l) (sec := 8 * sp) (prf := prf) (inst := a) (by omega) (by omega) (by omega) (by omega) hxa
        fuel t₁ hl m₁ m₂ t₂ hq₂).1
      refine hk prf m₂ t₂ he hl₂ fun y hy h1 h2 => ?_
      rw [(hp.2 _ _ hq₂).1 y (by omega) (h1 _ he) (h2 _ hi), hK y hy h1 h2]

/-- `test_poik` from the curve 0, as `main` calls it: no undefined behaviour, whatever the randomness, and nothing outside the two blocks from `malloc` is
changed.  If it returns, then it returns true exactly if the proof was valid before the bit was flipped (flip it back in the final memory) and is not after. -/
theorem C102_test {E0 sp : ℕ} (h0 : E0 + 2 * fb l ≤ 8 * sp) {h : Heap} (hh : HeapOk l E0 sp h) (fuel : ℕ) (t : Tape Draw) (ht : TapeLen l t) (m : Mem)
    (hE : strVal l m E0 = 0) : testM l shakeHash fuel E0 h sp t m ≠ .ub ∧ ∀ b m' t', testM l shakeHash fuel E0 h sp t m = .ok ((b, m'), t') →
      TapeLen l t' ∧ Kept l sp h m m' ∧
      (b = true ↔ ∃ x, h.prf = some x ∧ Valid l shakeHash (proofAt l (flipM x m') x) ∧ ¬ Valid l shakeHash (proofAt l m' x)) := by
  have hz := secretSize_eq (l := l)
  have key := start_ok (l := l) h0 hh fuel ht hE
    (Q := fun r => TapeLen l r.2 ∧ Kept l sp h m r.1.2 ∧
      (r.1.1 = true ↔ ∃ x, h.prf = some x ∧ Valid l shakeHash (proofAt l (flipM x r.1.2) x) ∧ ¬ Valid l shakeHash (proofAt l r.1.2 x)))
    (k := fun prf m t => bindT (verifyM l shakeHash fuel prf (sp + secretSize l) t m) fun q t =>
      bindT (verifyM l shakeHash fuel prf (sp + secretSize l) t (flipM prf q.2)) fun r t => .ok ((q.1 && !r.1, r.2), t))
    (o := testM l shakeHash fuel E0 h sp t m)
    (fun hn m' t' hl hk => ⟨hl, hk, by simp [hn]⟩)
    (fun x m₁ t₁ hx hl hk => by
      have hb := hh.prf _ hx
      have hv := C99_verify (l := l) (s := sp + secretSize l) (prf := x) (by omega) fuel t₁ hl m₁
      refine bindT_ok hv.1 fun q t₂ hq => ?_
      obtain ⟨b, m₂⟩ := q
      have hl₂ := verify_tape (l := l) (by omega) hl hq
      obtain ⟨e1, f1⟩ := hv.2 _ _ _ hq
      have hv₂ := C99_verify (l := l) (s := sp + secretSize l) (prf := x) (by omega) fuel t₂ hl₂ (flipM x m₂)
      refine bindT_ok hv₂.1 fun q t₃ hq₃ => ?_
      obtain ⟨c, m₃⟩ := q
      have hl₃ := verify_tape (l := l) (by omega) hl₂ hq₃
      obtain ⟨e2, f2⟩ := hv₂.2 _ _ _ hq₃
      refine ⟨by simp, fun r hr => ?_⟩
      cases hr
      have hP : 345 < proofBytes l := by cases l <;> decide +kernel
      have g2 : ∀ z n, z + n ≤ 8 * sp → bytesAt m₃ z n = bytesAt (flipM x m₂) z n := fun z n hn => bytesAt_ones fun y _ _ => f2 y (by omega)
      have g1 : ∀ z n, z + n ≤ 8 * sp → bytesAt m₂ z n = bytesAt m₁ z n := fun z n hn => bytesAt_ones fun y _ _ => f1 y (by omega)
      have k3 : proofAt l m₃ x = proofAt l (flipM x m₂) x := proofAt_congr (g2 _ _ hb.1)
      have k4 : proofAt l (flipM x m₃) x = proofAt l m₁ x := by
        refine proofAt_congr ?_
        rw [flip_congr (g2 _ _ hb.1), flip_flip, g1 _ _ hb.1]
      refine ⟨hl₃, fun y hy h1 h2 => ?_, ?_⟩
      · have := h1 _ hx
        rw [g2 _ _ (by omega), flip_out (by omega), g1 _ _ (by omega), hk y hy h1 h2]
      · simp only [hx, Option.some.injEq, exists_eq_left', k3, k4, ← e1, ← e2, Bool.and_eq_true, Bool.not_eq_true', Bool.not_eq_true])
    rfl
  exact ⟨key.1, fun b m' t' e => key.2 _ e⟩

/-- `bench_poik` from the curve 0: the same without the flipped bit -/
theorem C102_bench {E0 sp : ℕ} (h0 : E0 + 2 * fb l ≤ 8 * sp) {h : Heap} (hh : HeapOk l E0 sp h) (fuel : ℕ) (t : Tape Draw) (ht : TapeLen l t) (m : Mem)
    (hE : strVal l m E0 = 0) : benchM l shakeHash fuel E0 h sp t m ≠ .ub ∧ ∀ b m' t', benchM l shakeHash fuel E0 h sp t m = .ok ((b, m'), t') →
      TapeLen l t' ∧ Kept l sp h m m' ∧ (b = true ↔ ∃ x, h.prf = some x ∧ Valid l shakeHash (proofAt l m' x)) := by
  have hz := secretSize_eq (l := l)
  have key := start_ok (l := l) h0 hh fuel ht hE
    (Q := fun r => TapeLen l r.2 ∧ Kept l sp h m r.1.2 ∧ (r.1.1 = true ↔ ∃ x, h.prf = some x ∧ Valid l shakeHash (proofAt l r.1.2 x)))
    (k := fun prf m t => verifyM l shakeHash fuel prf (sp + secretSize l) t m)
    (o := benchM l shakeHash fuel E0 h sp t m)
    (fun hn m' t' hl hk => ⟨hl, hk, by simp [hn]⟩)
    (fun x m₁ t₁ hx hl hk => by
      have hb := hh.prf _ hx
      have hv := C99_verify (l := l) (s := sp + secretSize l) (prf := x) (by omega) fuel t₁ hl m₁
      refine ⟨hv.1, fun r hr => ?_⟩
      obtain ⟨⟨b, m₂⟩, t₂⟩ := r
      obtain ⟨e1, f1⟩ := hv.2 _ _ _ hr
      have g1 : ∀ z n, z + n ≤ 8 * sp → bytesAt m₂ z n = bytesAt m₁ z n := fun z n hn => bytesAt_ones fun y _ _ => f1 y (by omega)
      refine ⟨verify_tape (l := l) (by omega) hl hr, fun y hy h1 h2 => ?_, ?_⟩
      · have := h1 _ hx
        rw [g1 _ _ (by omega), hk y hy h1 h2]
      · simp only [hx, Option.some.injEq, exists_eq_left', proofAt_congr (g1 _ _ hb.1), e1])
    rfl
  exact ⟨key.1, fun b m' t' e => key.2 _ e⟩

theorem bench_loop {E0 sp : ℕ} (h0 : E0 + 2 * fb l ≤ 8 * sp) (fuel : ℕ) : ∀ (hs : List Heap) (t : Tape Draw) (m : Mem), (∀ h ∈ hs, HeapOk l E0 sp h) →
    TapeLen l t → strVal l m E0 = 0 → benchLoopM l shakeHash fuel E0 sp hs t m ≠ .ub
  | [], t, m, _, _, _ => by simp [benchLoopM]
  | h :: hs, t, m, hh, ht, hE => by
    have hb := C102_bench h0 (hh h (by simp)) fuel t ht m hE
    rw [benchLoopM]
    refine (bindT_ok (Q := fun _ => True) hb.1 fun q t' hq => ⟨?_, fun _ _ => trivial⟩).1
    obtain ⟨hl, hk, -⟩ := hb.2 _ _ _ hq
    exact bench_loop h0 fuel hs t' q.2 (fun g hg => hh g (by simp [hg])) hl (by rw [hk.strVal h0 (hh h (by simp)), hE])

/-- The whole program: no undefined behaviour for any number of benchmark rounds and any results of `malloc`.  If it ends, the exit status is 0 or 1, and
it is 0 only if `test_poik` returned true. -/
theorem C102_main {E0 sp : ℕ} (h0 : E0 + 2 * fb l ≤ 8 * sp) {h : Heap} (hh : HeapOk l E0 sp h) {hs : List Heap} (hhs : ∀ h ∈ hs, HeapOk l E0 sp h)
    (fuel : ℕ) (t : Tape Draw) (ht : TapeLen l t) (m : Mem) (hE : strVal l m E0 = 0) :
    mainM l shakeHash fuel E0 h hs sp t m ≠ .ub ∧ ∀ c m' t', mainM l shakeHash fuel E0 h hs sp t m = .ok ((c, m'), t') →
      ∃ b m₁ t₁, testM l shakeHash fuel E0 h sp t m = .ok ((b, m₁), t₁) ∧ c = if b = true then 0 else 1 := by
  have hT := C102_test h0 hh fuel t ht m hE
  have key := bindT_ok (r := testM l shakeHash fuel E0 h sp t m) (k := fun q t => if q.1 = false then .ok ((1, q.2), t) else
      bindT (benchLoopM l shakeHash fuel E0 sp hs t q.2) fun m t => .ok ((0, m), t))
    (Q := fun r : (ℕ × Mem) × Tape Draw => ∃ b m₁ t₁, testM l shakeHash fuel E0 h sp t m = .ok ((b, m₁), t₁) ∧ r.1.1 = if b = true then 0 else 1) hT.1
    fun q t₁ hq => by
      obtain ⟨b, m₁⟩ := q
      obtain ⟨hl, hk, -⟩ := hT.2 _ _ _ hq
      cases b with
      | false => exact ⟨by simp, fun r hr => ⟨false, m₁, t₁, hq, by simp at hr; subst hr; simp⟩⟩
      | true =>
        simp only [Bool.true_eq_false, if_false]
        refine bindT_ok (bench_loop h0 fuel hs t₁ m₁ hhs hl (by rw [hk.strVal h0 hh, hE])) fun m₂ t₂ _ => ⟨by simp, fun r hr => ⟨true, m₁, t₁, hq, ?_⟩⟩
        cases hr; simp
  exact ⟨key.1, fun c m' t' e => key.2 _ e⟩

/-! ## The progress bar -/

open Secuer.Util (Spec.bar eraseLine memset store cString) in
theorem bar_run {d : ℕ} (hd : d ≤ 63) :
    ((memset (List.replicate 65 0) 46 64).bind fun buf => (memset buf 61 d).bind fun buf => (store buf d 62).bind fun buf =>
      (cString buf).bind fun s => .ok (eraseLine ++ s, d)) = .ok (eraseLine ++ (List.replicate d 61 ++ [62] ++ List.replicate (63 - d) 46), d) := by
  have e1 : memset (List.replicate 65 0) 46 64 = .ok (List.replicate 64 46 ++ [0]) := by
    rw [memset, if_pos (by simp)]; rfl
  rw [e1]
  have e2 : memset (List.replicate 64 46 ++ [0]) 61 d = .ok (List.replicate d 61 ++ (46 :: List.replicate (63 - d) 46 ++ [0])) := by
    rw [memset, if_pos (by simp; omega)]
    congr 2
    rw [List.drop_append_of_le_length (by simp; omega), List.drop_replicate, ← List.replicate_succ]
    congr 2
    omega
  have e3 : store (List.replicate d 61 ++ (46 :: List.replicate (63 - d) 46 ++ [0])) d 62 =
      .ok ((List.replicate d 61 ++ [62] ++ List.replicate (63 - d) 46) ++ 0 :: []) := by
    rw [store, if_pos (by simp), List.set_append_right _ _ (by simp)]
    simp
  simp only [Util.Res.bind, e2, e3]
  rw [Util.cString_nul]
  intro c hc
  simp only [List.mem_append, List.mem_replicate, List.mem_singleton] at hc
  rcases hc with (⟨_, rfl⟩ | rfl) | ⟨_, rfl⟩ <;> decide

theorem bench_done {loops idx : ℕ} (h1 : 64 * idx < 2 ^ 31) : ((64 * (idx : Int)).tdiv (loops : Int) % 2 ^ 32).toNat = 64 * idx / loops := by
  have : (64 * (idx : Int)).tdiv (loops : Int) = ((64 * idx / loops : ℕ) : Int) := by
    rw [show (64 * (idx : Int)) = ((64 * idx : ℕ) : Int) by push_cast; rfl, Int.tdiv_eq_ediv_of_nonneg (by positivity)]
    norm_cast
  have hle := Nat.div_le_self (64 * idx) loops
  rw [this]
  generalize 64 * idx / loops = d at hle
  omega

/-- `render_progress` of `test.c` in the rounds of the benchmark: inside its buffer, and it prints nothing (if the bar has not moved) or a bar of 64
characters with one `>`, at position `64 * idx / loops`. -/
theorem C102_progress {loops idx : ℕ} (last : ℕ) (hi : idx < loops) (h64 : 64 * idx < 2 ^ 31) :
    64 * idx / loops < 64 ∧ benchProgress loops last idx = .ok (if 64 * idx / loops = last then ([], last) else
      ([13, 27, 91, 75] ++ (List.replicate (64 * idx / loops) 61 ++ [62] ++ List.replicate (63 - 64 * idx / loops) 46), 64 * idx / loops)) := by
  have hd : 64 * idx / loops < 64 := (Nat.div_lt_iff_lt_mul (by omega)).2 (by omega)
  refine ⟨hd, ?_⟩
  rw [benchProgress, if_neg (by omega), if_neg (by omega)]
  simp only [bench_done h64]
  generalize 64 * idx / loops = d at hd
  by_cases e : d = last
  · rw [if_pos e, if_pos e]
  · rw [if_neg e, if_neg e]
    exact bar_run (by omega)

/-- One more call, after the last round, would make `printf` read behind the buffer: the `>` overwrites the terminating NUL.  (The bar in `poik.c` counts
to 63, not 64, and has no such case: C25.)  `main` does not make that call. -/
theorem C102_progress_end {loops last : ℕ} (hl : 0 < loops) (h64 : 64 * loops < 2 ^ 31) (hn : last ≠ 64) : benchProgress loops last loops = .ub := by
  rw [benchProgress, if_neg (by omega), if_neg (by omega)]
  simp only [bench_done h64, Nat.mul_div_cancel _ hl]
  rw [if_neg (Ne.symm hn)]
  decide

/-- The other arguments: -1 erases the line; a product that does not fit into an `int`, or no rounds at all, is undefined; and the division truncates
towards zero. -/
theorem C102_progress_edge (loops last : ℕ) (idx : Int) (h1 : idx ≠ -1) : benchProgress loops last (-1) = .ok ([13, 27, 91, 75], last) ∧
    (64 * idx < -2147483648 ∨ 2147483647 < 64 * idx → benchProgress loops last idx = .ub) ∧ benchProgress 0 last idx = .ub ∧
    (idx < 0 → -2147483648 ≤ 64 * idx → -loops < 64 * idx → benchProgress loops 0 idx = .ok ([], 0)) := by
  refine ⟨rfl, fun h => ?_, ?_, fun h2 h3 h4 => ?_⟩
  · rw [benchProgress, if_neg h1, if_pos (by omega)]
  · rw [benchProgress, if_neg h1, if_pos (by omega)]
  · have : (64 * idx).tdiv (loops : Int) = 0 := by
      have h5 := Int.tdiv_eq_zero_of_lt (a := -(64 * idx)) (b := (loops : Int)) (by omega) (by omega)
      rw [Int.neg_tdiv] at h5
      omega
    rw [benchProgress, if_neg h1, if_neg (by omega)]
    simp [this]

/-! ## The hypotheses can be met -/

theorem strVal_zeroMem (x : ℕ) : strVal l zeroMem x = 0 := by
  have : ∀ x n, bytesAt zeroMem x n = List.replicate n 0 := fun x n => by
    rw [bytesAt, List.eq_replicate_iff]
    refine ⟨by simp, fun b hb => ?_⟩
    obtain ⟨i, -, rfl⟩ := List.mem_map.1 hb
    simp [zeroMem]
  rw [strVal, this, this]
  have h0 : ∀ n, Scalar.leNat (List.replicate n (0 : UInt8)) = 0 := fun n => by
    induction n with
    | zero => rfl
    | succ n ih => rw [List.replicate_succ]; simp [Scalar.leNat, ih]
  rw [h0]
  simp
  rfl

example (t : Tape Draw) (ht : TapeLen .l434 t) : mainM .l434 shakeHash 9 0 ⟨some 200, some 100000⟩ [⟨some 200, none⟩, ⟨none, none⟩] 1000000 t zeroMem ≠ .ub := by
  have hp : proofBytes .l434 ≤ 700000 := by decide +kernel
  have ha : arrayBytes .l434 ≤ 7000000 := by decide +kernel
  have hf : fb .l434 = 55 := by decide +kernel
  refine (C102_main (l := .l434) (by omega) ⟨?_, ?_, ?_⟩ (fun h hh => ?_) 9 t ht zeroMem (strVal_zeroMem 0)).1
  · rintro x ⟨⟩; omega
  · rintro x ⟨⟩; omega
  · rintro x a ⟨⟩ ⟨⟩; omega
  · simp only [List.mem_cons, List.not_mem_nil, or_false] at hh
    rcases hh with rfl | rfl
    · refine ⟨?_, ?_, ?_⟩
      · rintro x ⟨⟩; omega
      · rintro x ⟨⟩
      · rintro x a - ⟨⟩
    · refine ⟨?_, ?_, ?_⟩
      · rintro x ⟨⟩
      · rintro x ⟨⟩
      · rintro x a - ⟨⟩

example : benchProgress 100 (2 ^ 64 - 1) (50 : ℕ) ≠ .ub := by
  rw [(C102_progress (loops := 100) (idx := 50) _ (by decide) (by decide)).2]; simp

end Secuer.MemProps
