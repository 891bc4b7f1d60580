import Verif.CMem.Response

/-!
# `Challenge` and `Verify` on memory

The build without threads.  `fuel` bounds the number of blocks that `Challenge` squeezes, as in `Verif.Protocol.Model`.
-/

set_option maxRecDepth 100000

namespace Secuer.CMem

open Secuer.Word Secuer.Field
open Secuer.Text (PFp2 CResp CProof)
open Secuer.Protocol (Hash Comm params roCommit roChallenge flat challengeInput)
open Secuer.Curve (Pt Crv Iso Out Tape M)
open Secuer.WCurve (Draw V VC VL TapeLen fieldTape)
open Secuer.Challenge (tritOf digitLoop sampleLoop sampleTernary challengeLoop challenge store)

attribute [local instance] Arith.portable

variable {l : Level}

/-! ## The programs -/

/-- `int8_t r = v % 3; r > 3/2 ? r-3 : r` (`poik.c:235-236`), as a byte -/
def tritByte (v : UInt8) : UInt8 := if v % 3 > 1 then v % 3 - 3 else v % 3

/-- The inner loop of `sample_ternary` (`poik.c:234-238`), `j` iterations left at most -/
def digitLoopM (trits num : ℕ) : (j : ℕ) → (v : UInt8) → (done : ℕ) → Mem → ℕ × Mem
  | 0, _, done, m => (done, m)
  | j + 1, v, done, m =>
    if done < num then digitLoopM trits num j (v / 3) (done + 1) (setByte m (trits + done) (tritByte v)) else (done, m)

/-- `sample_ternary` (`poik.c:227-242`), with `n` bytes left at `bytes` -/
def sampleLoopM (trits num : ℕ) : (n bytes done : ℕ) → Mem → ℕ × Mem
  | 0, _, done, m => if done < num then (done, m) else (num, m)
  | n + 1, bytes, done, m =>
    if done < num then
      if byteAt m bytes ≥ 243 then sampleLoopM trits num n (bytes + 1) done m
      else
        let r := digitLoopM trits num 5 (byteAt m bytes) done m
        sampleLoopM trits num n (bytes + 1) r.1 r.2
    else (num, m)

/-- `SHAKE256_RATE` (`fips202.h`) -/
abbrev shakeRate : ℕ := 136

/-- The loop of `Challenge` (`poik.c:1164-1168`); local: `blk`.  The state of SHAKE256 is given by the string that was absorbed and the number
of blocks squeezed so far. -/
def challengeLoopM (H : Hash) (input : List UInt8) (reps challs sp : ℕ) : (fuel k done : ℕ) → Mem → Option Mem
  | 0, _, done, m => if done < reps then none else some m
  | fuel + 1, k, done, m =>
    if done < reps then
      let blk := 8 * sp
      let m := wrBytes blk (H.block input k) m
      let r := sampleLoopM (challs + done) (reps - done) shakeRate blk 0 m
      challengeLoopM H input reps challs sp fuel (k + 1) (done + r.1) r.2
    else some m

/-- `sizeof(struct commitment)` (`poik.c:41-48`) -/
def commSize (l : Level) : ℕ := sz l + sz l + (params l).reps * ((params l).hash + (params l).hash)

/-- `Challenge` (`poik.c:1154-1169`); local: `buf` -/
def challengeMM (l : Level) (H : Hash) (fuel comm challs sp : ℕ) (m : Mem) : Option Mem :=
  let buf := 8 * sp
  let m := wrBytes buf roChallenge m
  let m := memcpyM (commSize l) (buf + roChallenge.length) comm m
  challengeLoopM H (rdBytes m buf (roChallenge.length + commSize l)) (params l).reps challs sp fuel 0 0 m

/-- `!memcmp(a, b, n)` -/
def memeqM : (n a b : ℕ) → Mem → Bool
  | 0, _, _, _ => true
  | n + 1, a, b, m => byteAt m a == byteAt m b && memeqM n (a + 1) (b + 1) m

/-- The loop over the responses in `Verify` (`poik.c:1490-1492`), `n` of them left -/
def verifyLoopM (l : Level) (H : Hash) (prf sp : ℕ) : (n r tag hs : ℕ) → Tape Draw → Mem → Out ((Bool × Mem) × Tape Draw)
  | 0, _, _, _, t, m => .ok ((true, m), t)
  | n + 1, r, tag, hs, t, m =>
    bindT (unpackResponseM l H prf (prf + sz l) r tag hs sp t m) fun q t =>
      if q.1 = false then .ok ((false, q.2), t) else
      verifyLoopM l H prf sp n (r + respSize l) (tag + 1) (hs + ((params l).hash + (params l).hash)) t q.2

/-- `Verify` (`poik.c:1464-1500`) without threads, on the `struct proof` at byte address `prf`; locals: `E0`, `E1`, `comm`, `tags`, `challenge` -/
def verifyM (l : Level) (H : Hash) (fuel prf sp : ℕ) (t : Tape Draw) (m : Mem) : Out ((Bool × Mem) × Tape Draw) :=
  let v := loc (nw l) sp
  let reps := (params l).reps
  let comm := 8 * v 4
  let tags := comm + commSize l
  let challs := tags + reps
  let sp := v 4 + commSize l + 2 * reps
  bindT (unpackCurveM l prf (v 0) sp t m) fun q t =>
    if q.1 = false then .ok ((false, q.2), t) else
    bindT (unpackCurveM l (prf + sz l) (v 2) sp t q.2) fun q t =>
      if q.1 = false then .ok ((false, q.2), t) else
      let m := encJM l (v 0) comm sp q.2
      let m := encJM l (v 2) (comm + sz l) sp m
      bindT (verifyLoopM l H prf sp reps (prf + sz l + sz l) tags (comm + sz l + sz l) t m) fun q t =>
        if q.1 = false then .ok ((false, q.2), t) else
        match challengeMM l H fuel comm challs sp q.2 with
        | none => .starved
        | some m => .ok ((memeqM reps challs tags m, m), t)

/-- The `struct proof` at `prf` (`poik.h:71-95`) -/
def rdProof (l : Level) (m : Mem) (prf : ℕ) : CProof :=
  ⟨rdPF l m prf, rdPF l m (prf + sz l), (List.range (params l).reps).map fun i => rdResp l m (prf + sz l + sz l + i * respSize l)⟩

/-- `sizeof(struct proof)` -/
def proofSize (l : Level) : ℕ := sz l + sz l + (params l).reps * respSize l

/-! ## `Challenge` -/

theorem rdBytes_set {m : Mem} {x n i : ℕ} {b : UInt8} (hi : i < n) : rdBytes (setByte m (x + i) b) x n = (rdBytes m x n).set i b := by
  apply List.ext_getElem?
  intro j
  rw [List.getElem?_set, rdBytes_getElem?, rdBytes_getElem?, rdBytes_length, byteAt_setByte]
  by_cases hj : j < n
  · rw [if_pos hj, if_pos hj]
    by_cases h : i = j
    · subst h
      rw [if_pos rfl, if_pos rfl, if_pos hi]
    · rw [if_neg h, if_neg (by omega)]
  · rw [if_neg hj, if_neg hj, if_neg (by omega)]

attribute [local irreducible] byteAt setByte i8

theorem i8_tritByte (v : UInt8) : i8 (tritByte v) = tritOf v := by
  have h : (v % 3).toNat = 0 ∨ (v % 3).toNat = 1 ∨ (v % 3).toNat = 2 := by
    rw [UInt8.toNat_mod]
    have : v.toNat % (3 : UInt8).toNat < 3 := Nat.mod_lt _ (by decide)
    omega
  rw [tritByte, tritOf]
  generalize v % 3 = r at h
  rcases h with h | h | h
  · rw [show r = 0 from UInt8.toNat.inj h]; decide +kernel
  · rw [show r = 1 from UInt8.toNat.inj h]; decide +kernel
  · rw [show r = 2 from UInt8.toNat.inj h]; decide +kernel

/-- The array of `int8_t` -/
def trits (m : Mem) (x n : ℕ) : List Int := (rdBytes m x n).map i8

theorem trits_length (m : Mem) (x n : ℕ) : (trits m x n).length = n := by rw [trits, List.length_map, rdBytes_length]

theorem digitLoopM_sim {x reps base num : ℕ} (hb : base + num ≤ reps) (s : ℕ) : ∀ (j : ℕ) (v : UInt8) (done : ℕ) (m : Mem),
    digitLoop base num j v (trits m x reps) done =
        .ok (trits (digitLoopM (x + base) num j v done m).2 x reps, (digitLoopM (x + base) num j v done m).1) ∧
      BF s [(x, reps)] m (digitLoopM (x + base) num j v done m).2
  | 0, v, done, m => ⟨rfl, (BF.refl s m).mono (le_refl _) (by simp)⟩
  | j + 1, v, done, m => by
    rw [digitLoop, digitLoopM]
    by_cases h : done < num
    · rw [if_pos h, if_pos h, store, trits_length, if_pos (by omega)]
      have e : (trits m x reps).set (base + done) (tritOf v) = trits (setByte m (x + base + done) (tritByte v)) x reps := by
        rw [trits, trits, show x + base + done = x + (base + done) by omega, rdBytes_set (by omega), ← i8_tritByte, List.map_set]
      rw [e]
      obtain ⟨h1, h2⟩ := digitLoopM_sim hb s j (v / 3) (done + 1) (setByte m (x + base + done) (tritByte v))
      refine ⟨h1, ?_⟩
      refine ((setByte_bf (s := s) (x := x + base + done) (tritByte v) m).trans h2).mono (le_refl _) ?_
      simp; omega
    · rw [if_neg h, if_neg h]
      exact ⟨rfl, (BF.refl s m).mono (le_refl _) (by simp)⟩

theorem sampleLoopM_sim {x reps base num : ℕ} (hb : base + num ≤ reps) {s : ℕ} : ∀ (n blk done : ℕ) (m : Mem), blk + n ≤ 8 * s →
    x + reps ≤ blk →
    sampleLoop base num (rdBytes m blk n) (trits m x reps) done =
        .ok (trits (sampleLoopM (x + base) num n blk done m).2 x reps, (sampleLoopM (x + base) num n blk done m).1) ∧
      BF s [(x, reps)] m (sampleLoopM (x + base) num n blk done m).2
  | 0, blk, done, m, _, _ => by
    unfold sampleLoop
    rw [show rdBytes m blk 0 = [] from rfl, sampleLoopM]
    by_cases h : done < num
    · rw [if_pos h, if_pos h]
      exact ⟨rfl, (BF.refl s m).mono (le_refl _) (by simp)⟩
    · rw [if_neg h, if_neg h]
      exact ⟨rfl, (BF.refl s m).mono (le_refl _) (by simp)⟩
  | n + 1, blk, done, m, h1, h2 => by
    have e : rdBytes m blk (n + 1) = byteAt m blk :: rdBytes m (blk + 1) n := by
      rw [Nat.add_comm, rdBytes_append]
      rfl
    rw [e, sampleLoop, sampleLoopM]
    by_cases h : done < num
    · rw [if_pos h, if_pos h]
      dsimp only
      by_cases hv : byteAt m blk ≥ 243
      · rw [if_pos hv, if_pos hv]
        exact sampleLoopM_sim hb n (blk + 1) done m (by omega) (by omega)
      · rw [if_neg hv, if_neg hv]
        obtain ⟨h3, h4⟩ := digitLoopM_sim (x := x) hb s 5 (byteAt m blk) done m
        rw [h3]
        generalize digitLoopM (x + base) num 5 (byteAt m blk) done m = r at h4 ⊢
        obtain ⟨d, m'⟩ := r
        dsimp only at h4 ⊢
        obtain ⟨h5, h6⟩ := sampleLoopM_sim (x := x) (s := s) hb n (blk + 1) d m' (by omega) (by omega)
        rw [h4.bytes (by omega) (by simp; omega)] at h5
        exact ⟨h5, (h4.trans h6).mono (le_refl _) (by simp)⟩
    · rw [if_neg h, if_neg h]
      exact ⟨rfl, (BF.refl s m).mono (le_refl _) (by simp)⟩

/-- What `Challenge` does -/
def ChalRes (s x reps : ℕ) (m : Mem) : Challenge.Outcome → Option Mem → Prop
  | .finished ts _, some m' => ts = trits m' x reps ∧ BF s [(x, reps)] m m'
  | .running, none => True
  | _, _ => False

theorem challengeLoopM_sim (H : Hash) (input : List UInt8) (hB : ∀ k, (H.block input k).length = shakeRate) {s x reps : ℕ} (hx : x + reps ≤ 8 * s) :
    ∀ (fuel k done : ℕ) (m : Mem), ChalRes s x reps m (challengeLoop reps (H.block input) fuel k (trits m x reps) done)
      (challengeLoopM H input reps x s fuel k done m)
  | 0, k, done, m => by
    rw [challengeLoop, challengeLoopM]
    by_cases h : done < reps
    · rw [if_pos h, if_pos h]
      trivial
    · rw [if_neg h, if_neg h]
      exact ⟨rfl, (BF.refl s m).mono (le_refl _) (by simp)⟩
  | fuel + 1, k, done, m => by
    rw [challengeLoop, challengeLoopM]
    by_cases h : done < reps
    · rw [if_pos h, if_pos h]
      dsimp only
      obtain ⟨a1, b1⟩ := wrBytes_bf (s := s + shakeRate) (x := 8 * s) (H.block input k) m
      rw [hB] at a1 b1
      generalize wrBytes (8 * s) (H.block input k) m = m1 at a1 b1 ⊢
      obtain ⟨h1, h2⟩ := sampleLoopM_sim (x := x) (reps := reps) (base := done) (num := reps - done) (s := s + shakeRate) (by omega) shakeRate (8 * s) 0 m1
        (by omega) hx
      have e : trits m1 x reps = trits m x reps := by rw [trits, trits, b1.bytes (by omega) (by simp; omega)]
      rw [a1, e] at h1
      rw [sampleTernary, h1]
      generalize sampleLoopM (x + done) (reps - done) shakeRate (8 * s) 0 m1 = r at h2 ⊢
      obtain ⟨n, m2⟩ := r
      dsimp only at h2 ⊢
      have hr := challengeLoopM_sim H input hB hx fuel (k + 1) (done + n) m2
      have hb := ((b1.trans h2).mono (s' := s) (W' := [(x, reps)]) (by omega) (by simp))
      generalize challengeLoop reps (H.block input) fuel (k + 1) (trits m2 x reps) (done + n) = o at hr ⊢
      generalize challengeLoopM H input reps x s fuel (k + 1) (done + n) m2 = o' at hr ⊢
      rcases o with ⟨ts, k'⟩ | _ | _ <;> rcases o' with _ | m3 <;> simp only [ChalRes] at hr ⊢
      exact ⟨hr.1, (hb.trans hr.2).mono (le_refl _) (by simp)⟩
    · rw [if_neg h, if_neg h]
      exact ⟨rfl, (BF.refl s m).mono (le_refl _) (by simp)⟩

theorem challengeMM_sim (H : Hash) (hB : ∀ x k, (H.block x k).length = shakeRate) (fuel : ℕ) {s comm x : ℕ} (hc : comm + commSize l ≤ 8 * s)
    (hx : x + (params l).reps ≤ 8 * s) (m : Mem) :
    ChalRes s x (params l).reps m (challenge (params l).reps (H.block (roChallenge ++ rdBytes m comm (commSize l))) fuel (trits m x (params l).reps))
      (challengeMM l H fuel comm x s m) := by
  simp only [challengeMM]
  have hl : roChallenge.length = 1 := rfl
  rw [hl]
  obtain ⟨a1, b1⟩ := wrBytes_bf (s := s + commSize l + 1) (x := 8 * s) roChallenge m
  rw [hl] at a1 b1
  generalize wrBytes (8 * s) roChallenge m = m1 at a1 b1 ⊢
  obtain ⟨a2, b2⟩ := memcpyM_bf (s := s + commSize l + 1) (len := commSize l) (dst := 8 * s + 1) (src := comm) m1 (by omega)
  generalize memcpyM (commSize l) (8 * s + 1) comm m1 = m2 at a2 b2 ⊢
  have e : rdBytes m2 (8 * s) (1 + commSize l) = roChallenge ++ rdBytes m comm (commSize l) := by
    rw [rdBytes_append, a2, b2.bytes (by omega) (by simp), a1, b1.bytes (by omega) (by simp; omega)]
  have hb := b1.trans b2
  have et : trits m2 x (params l).reps = trits m x (params l).reps := by rw [trits, trits, hb.bytes (by omega) (by simp; omega)]
  rw [e, challenge, ← et]
  have hr := challengeLoopM_sim H (roChallenge ++ rdBytes m comm (commSize l)) (hB _) hx fuel 0 0 m2
  have hb' := hb.mono (s' := s) (W' := []) (by omega) (by simp)
  generalize challengeLoop _ _ fuel 0 _ 0 = o at hr ⊢
  generalize challengeLoopM H _ _ x s fuel 0 0 m2 = o' at hr ⊢
  rcases o with ⟨ts, k'⟩ | _ | _ <;> rcases o' with _ | m3 <;> simp only [ChalRes] at hr ⊢
  exact ⟨hr.1, hb'.trans hr.2⟩

theorem memeqM_eq : ∀ (n a b : ℕ) (m : Mem), memeqM n a b m = decide (trits m a n = trits m b n)
  | 0, a, b, m => by simp [memeqM, trits, rdBytes]
  | n + 1, a, b, m => by
    have e : ∀ x, trits m x (n + 1) = i8 (byteAt m x) :: trits m (x + 1) n := by
      intro x
      rw [trits, Nat.add_comm n 1, rdBytes_append]
      rfl
    rw [memeqM, memeqM_eq n, e, e]
    by_cases h : byteAt m a = byteAt m b
    · rw [h]; simp
    · have h' : ¬ i8 (byteAt m a) = i8 (byteAt m b) := fun h1 => h (i8_inj h1)
      simp [h, h']

/-! ## The responses -/

attribute [local irreducible] rdInt in
theorem rdResp_congr {m m' : Mem} {r : ℕ} (pr : ∀ a b, r ≤ a → a + b ≤ r + respSize l → rdBytes m' a b = rdBytes m a b) :
    rdResp l m' r = rdResp l m r := by
  have hul := uni_left (l := l)
  have hub := uni_bottom (l := l)
  have hus := uniSize_le (l := l) r
  have hu : uni r = r + 4 := rfl
  have e0 : rdInt m' r = rdInt m r := by
    unfold rdInt
    rw [pr r 4 (by omega) (by omega)]
  have e1 : ∀ x n, r ≤ x → x + n * sz l ≤ r + respSize l → rdPFs l m' x n = rdPFs l m x n := fun x n h1 h2 =>
    rdPFs_congr fun a b h3 h4 => pr a b (by omega) (by omega)
  have e2 : rdPF l m' (uni r + (params l).hide + (params l).hide) = rdPF l m (uni r + (params l).hide + (params l).hide) :=
    rdPF_congr (pr _ _ (by omega) (by omega))
  simp only [rdResp]
  rw [e0, e2, pr (uni r) (params l).hide (by omega) (by omega), pr (uni r + (params l).hide) (params l).hash (by omega) (by omega),
    e1 (uni r + (params l).hide + (params l).hash) (params l).height (by omega) (by omega),
    pr (uni r + (params l).hide) (params l).hide (by omega) (by omega),
    e1 (uni r + (params l).hide + (params l).hide + sz l) (params l).width (by omega) (by omega),
    pr (uni r) (params l).hash (by omega) (by omega), pr (uni r + (params l).hash) (params l).hide (by omega) (by omega),
    e1 (uni r + (params l).hash + (params l).hide) (params l).height (by omega) (by omega)]

/-- `n` responses -/
def rdResps (l : Level) (m : Mem) (r n : ℕ) : List CResp := (List.range n).map fun i => rdResp l m (r + i * respSize l)

theorem rdResps_succ (m : Mem) (r n : ℕ) : rdResps l m r (n + 1) = rdResp l m r :: rdResps l m (r + respSize l) n := by
  rw [rdResps, rdResps, List.range_succ_eq_map, List.map_cons, List.map_map]
  refine congr (congrArg List.cons ?_) (List.map_congr_left fun i _ => ?_)
  · rw [Nat.zero_mul, Nat.add_zero]
  · change rdResp l m (r + (i + 1) * respSize l) = _
    rw [Nat.add_mul, Nat.one_mul, Nat.add_comm (i * respSize l), Nat.add_assoc]

theorem BF.resps {s : ℕ} {W : List (ℕ × ℕ)} {m m' : Mem} (h : BF s W m m') {r n : ℕ} (hx : r + n * respSize l ≤ 8 * s)
    (hw : ∀ w ∈ W, r + n * respSize l ≤ w.1 ∨ w.1 + w.2 ≤ r) : rdResps l m' r n = rdResps l m r n := by
  refine List.map_congr_left fun i hi => ?_
  have hi := List.mem_range.1 hi
  have : i * respSize l + respSize l ≤ n * respSize l := by rw [← Nat.succ_mul]; exact Nat.mul_le_mul_right _ hi
  exact rdResp_congr fun a b h1 h2 => h.bytes (by omega) fun w hwW => by have := hw w hwW; omega

/-- The size of an entry of `comm.hashes` -/
abbrev pairSize (l : Level) : ℕ := (params l).hash + (params l).hash

/-- What the loop over the responses does -/
def LoopRes (l : Level) (s n tag hs : ℕ) (m : Mem) : Option (List (Int × Comm)) → Bool × Mem → Prop
  | none, (false, m') => BF s [(tag, n), (hs, n * pairSize l)] m m'
  | some os, (true, m') => trits m' tag n = os.map Prod.fst ∧ rdBytes m' hs (n * pairSize l) = (os.map Prod.snd).flatMap (fun c => c.h2 ++ c.h3) ∧
      BF s [(tag, n), (hs, n * pairSize l)] m m'
  | _, _ => False

attribute [local irreducible] Protocol.unpackResponse unpackResponseM rdInt rdResp in
theorem verifyLoopM_f (H : Hash) (hH : ∀ n x, (H.out n x).length = n) (pmem : Protocol.Mem l) {s prf : ℕ} : ∀ (n r tag hs : ℕ) {t : Tape Draw}
    (_ht : TapeLen l t) (m : Mem), prf + sz l + sz l ≤ hs → r + n * respSize l ≤ hs → hs + n * pairSize l ≤ tag → tag + n ≤ 8 * s →
    FRes l (LoopRes l s n tag hs m) (Protocol.unpackAll l H pmem (rdPF l m prf) (rdPF l m (prf + sz l)) (rdResps l m r n) (fieldTape l t))
      (verifyLoopM l H prf s n r tag hs t m)
  | 0, r, tag, hs, t, ht, m, _, _, _, _ => by
    refine ⟨ht, rfl, rfl, ?_, (BF.refl s m).mono (le_refl _) (by simp)⟩
    rw [Nat.zero_mul]
    rfl
  | n + 1, r, tag, hs, t, ht, m, h1, h2, h3, h4 => by
    have en : (n + 1) * respSize l = respSize l + n * respSize l := by rw [Nat.add_mul, Nat.one_mul, Nat.add_comm]
    have ep : (n + 1) * pairSize l = pairSize l + n * pairSize l := by rw [Nat.add_mul, Nat.one_mul, Nat.add_comm]
    have epp : pairSize l = (params l).hash + (params l).hash := rfl
    rw [en] at h2
    rw [ep] at h3
    have hA : RespArgs l s prf (prf + sz l) r tag hs :=
      ⟨by omega, by omega, by omega, by omega, by omega, by omega, by omega, by omega, by omega, by omega⟩
    rw [rdResps_succ, verifyLoopM]
    simp only [Protocol.unpackAll]
    refine (unpackResponseM_f H hH pmem hA ht m).bind fun o q t ht h => ?_
    obtain ⟨b, m1⟩ := q
    rcases o with _ | o <;> rcases b with _ | _ <;> simp only [RespRes] at h
    · refine ⟨ht, rfl, ?_⟩
      change BF s _ m m1
      rw [ep]
      exact h.mono (le_refl _) (by simp)
    · obtain ⟨h5, h6, h7⟩ := h
      dsimp only
      rw [if_neg (by decide)]
      have ih := verifyLoopM_f H hH pmem (s := s) (prf := prf) n (r + respSize l) (tag + 1) (hs + pairSize l) ht m1 (by omega) (by omega) (by omega) (by omega)
      rw [h7.pf (x := prf) (by omega) (by simp; omega), h7.pf (x := prf + sz l) (by omega) (by simp; omega),
        h7.resps (by omega) (by simp; omega)] at ih
      rw [← epp]
      generalize hv : verifyLoopM l H prf s n (r + respSize l) (tag + 1) (hs + pairSize l) t m1 = V at ih ⊢
      have hV : V = bindT V fun a t => .ok (a, t) := by rcases V with ⟨a, t⟩ | _ | _ | _ <;> rfl
      rw [hV]
      refine ih.bind fun os q t ht h => ?_
      obtain ⟨b, m2⟩ := q
      rcases os with _ | os <;> rcases b with _ | _ <;> simp only [LoopRes] at h
      · refine ⟨ht, rfl, ?_⟩
        change BF s _ m m2
        rw [ep]
        exact (h7.trans h).mono (le_refl _) (by simp; omega)
      · obtain ⟨h8, h9, h10⟩ := h
        refine ⟨ht, rfl, ?_, ?_, ?_⟩
        · have e : trits m2 tag (n + 1) = i8 (byteAt m2 tag) :: trits m2 (tag + 1) n := by
            rw [trits, Nat.add_comm n 1, rdBytes_append]
            rfl
          rw [e, h8, h10.byte (by omega) (by simp; omega), h5]
          rfl
        · rw [ep, rdBytes_append, h9, h10.bytes (by omega) (by simp; omega), h6]
          rfl
        · rw [ep]
          exact (h7.trans h10).mono (le_refl _) (by simp; omega)

/-! ## `Verify` -/

theorem reps_pairs : commSize l = sz l + sz l + (params l).reps * pairSize l := rfl

/-- Where `Verify` puts the array `challenge` -/
def chalAddr (l : Level) (sp : ℕ) : ℕ := 8 * loc (nw l) sp 4 + commSize l + (params l).reps

/-- `Verify` on memory does what the model of the protocol says, and leaves the memory below its stack frame unchanged. -/
theorem verifyM_f (H : Hash) (hH : ∀ n x, (H.out n x).length = n) (hB : ∀ x k, (H.block x k).length = shakeRate) (pts : ℕ → Pt l.F × Pt l.F)
    (fuel : ℕ) {prf s : ℕ} (hp : prf + proofSize l ≤ 8 * s) {t : Tape Draw} (ht : TapeLen l t) (m : Mem) :
    FRes l (fun b q => b = q.1 ∧ BF s [] m q.2)
      (Protocol.verify l H ⟨pts, trits m (chalAddr l s) (params l).reps⟩ fuel (rdProof l m prf) (fieldTape l t)) (verifyM l H fuel prf s t m) := by
  have h4 : loc (nw l) s 4 = s + 8 * nw l := by rw [loc_eq]; omega
  have h2 : loc (nw l) s 2 = s + 4 * nw l := by rw [loc_eq]; omega
  have h0 : loc (nw l) s 0 = s := by rw [loc_eq]; omega
  have hp' : proofSize l = sz l + sz l + (params l).reps * respSize l := rfl
  have hc := reps_pairs (l := l)
  have hca : chalAddr l s = 8 * loc (nw l) s 4 + commSize l + (params l).reps := rfl
  generalize hS : loc (nw l) s 4 + commSize l + 2 * (params l).reps = S
  have hL0 : Layout (nw l) S (argU l (loc (nw l) s 0)) := by
    constructor <;> (simp [argU]; try omega)
  have hL2 : Layout (nw l) S (argU l (loc (nw l) s 2)) := by
    constructor <;> (simp [argU]; try omega)
  have hstr : ∀ {x len : ℕ}, x + len ≤ 8 * s → Str (nw l) S (argU l (loc (nw l) s 0)) x len := fun h =>
    Str.below h (by omega) (by simp [argU]; omega)
  have hstr2 : ∀ {x len : ℕ}, x + len ≤ 8 * s → Str (nw l) S (argU l (loc (nw l) s 2)) x len := fun h =>
    Str.below h (by omega) (by simp [argU]; omega)
  simp only [Protocol.verify, verifyM]
  rw [hS]
  rw [hp'] at hp
  refine (unpackCurveM_f _ hL0 (a := prf) (hstr (by omega)) ht m).bind fun o q t ht h => ?_
  obtain ⟨b, m1⟩ := q
  obtain ⟨rfl, hE0, b1⟩ := h
  dsimp only at hE0 b1 ⊢
  by_cases hb : o = false
  · subst hb
    exact ⟨ht, rfl, rfl, b1.mono (by omega) (by simp; omega)⟩
  rw [if_neg hb, if_neg hb]
  have q1 : rdPF l m1 (prf + sz l) = rdPF l m (prf + sz l) := b1.pf (by omega) (by simp; omega)
  have hu := unpackCurveM_f (l := l) ⟨pts, trits m (chalAddr l s) (params l).reps⟩ hL2 (a := prf + sz l) (hstr2 (by omega)) ht m1
  rw [q1] at hu
  refine FRes.bind hu fun o q t ht h => ?_
  obtain ⟨b, m2⟩ := q
  obtain ⟨rfl, hE1, b2⟩ := h
  dsimp only at hE1 b2 ⊢
  by_cases hb : o = false
  · subst hb
    exact ⟨ht, rfl, rfl, (b1.trans b2).mono (by omega) (by simp; omega)⟩
  rw [if_neg hb, if_neg hb]
  have rE0 : rdC (nw l) m2 (loc (nw l) s 0) = rdC (nw l) m1 (loc (nw l) s 0) := by
    change Crv.mk _ _ = Crv.mk _ _
    exact congr (congrArg Crv.mk (b2.rdF (by omega) (by simp; omega))) (b2.rdF (by omega) (by simp; omega))
  rw [← rE0] at hE0
  obtain ⟨a3, b3⟩ := encJM_f (j := 8 * loc (nw l) s 4) m2 hL0 (by omega) hE0
  generalize encJM l (loc (nw l) s 0) (8 * loc (nw l) s 4) S m2 = m3 at a3 b3 ⊢
  have rE1 : rdC (nw l) m3 (loc (nw l) s 2) = rdC (nw l) m2 (loc (nw l) s 2) := by
    change Crv.mk _ _ = Crv.mk _ _
    exact congr (congrArg Crv.mk (b3.rdF (by omega) (by simp; omega))) (b3.rdF (by omega) (by simp; omega))
  rw [← rE1] at hE1
  obtain ⟨a4, b4⟩ := encJM_f (j := 8 * loc (nw l) s 4 + sz l) m3 hL2 (by omega) hE1
  generalize encJM l (loc (nw l) s 2) (8 * loc (nw l) s 4 + sz l) S m3 = m4 at a4 b4 ⊢
  have b14 := ((b1.trans b2).trans b3).trans b4
  have hl := verifyLoopM_f H hH ⟨pts, trits m (chalAddr l s) (params l).reps⟩ (prf := prf) (s := S) (params l).reps (prf + sz l + sz l)
    (8 * loc (nw l) s 4 + commSize l) (8 * loc (nw l) s 4 + sz l + sz l) ht m4 (by omega) (by omega) (by omega) (by omega)
  rw [b14.pf (x := prf) (by omega) (by simp; omega), b14.pf (x := prf + sz l) (by omega) (by simp; omega),
    b14.resps (by omega) (by simp; omega)] at hl
  refine FRes.bind hl fun o q t ht h => ?_
  obtain ⟨b, m5⟩ := q
  rcases o with _ | os <;> rcases b with _ | _ <;> simp only [LoopRes] at h
  · exact ⟨ht, rfl, rfl, (b14.trans h).mono (by omega) (by simp; omega)⟩
  obtain ⟨h5, h6, b5⟩ := h
  dsimp only
  rw [if_neg (by decide)]
  have hcomm : roChallenge ++ rdBytes m5 (8 * loc (nw l) s 4) (commSize l) =
      challengeInput (Protocol.encJ l ⟨Protocol.decode l (rdProof l m prf).E0, 1⟩) (Protocol.encJ l ⟨Protocol.decode l (rdProof l m prf).E1, 1⟩)
        (os.map Prod.snd) := by
    change _ = challengeInput (Protocol.encJ l ⟨Protocol.decode l (rdPF l m prf), 1⟩) (Protocol.encJ l ⟨Protocol.decode l (rdPF l m (prf + sz l)), 1⟩)
      (os.map Prod.snd)
    have e1 : rdBytes m5 (8 * loc (nw l) s 4) (sz l) = rdBytes m4 (8 * loc (nw l) s 4) (sz l) := b5.bytes (by omega) (by simp; omega)
    have e2 : rdBytes m5 (8 * loc (nw l) s 4 + sz l) (sz l) = rdBytes m4 (8 * loc (nw l) s 4 + sz l) (sz l) := b5.bytes (by omega) (by simp; omega)
    have e3 : rdBytes m4 (8 * loc (nw l) s 4) (sz l) = rdBytes m3 (8 * loc (nw l) s 4) (sz l) := b4.bytes (by omega) (by simp)
    rw [challengeInput, ← h6, hc, rdBytes_append _ _ (sz l + sz l), rdBytes_append _ _ (sz l) (sz l), e1, e2, a4, e3, a3,
      ← Nat.add_assoc (8 * loc (nw l) s 4) (sz l) (sz l)]
  have htr : trits m5 (chalAddr l s) (params l).reps = trits m (chalAddr l s) (params l).reps := by
    rw [trits, trits, (b14.trans b5).bytes (by omega) (by simp; omega)]
  have hch := challengeMM_sim (l := l) H hB fuel (s := S) (comm := 8 * loc (nw l) s 4) (x := chalAddr l s) (by omega) (by omega) m5
  rw [hcomm, htr] at hch
  rw [← hca]
  simp only [Protocol.challengeM]
  change FRes l _ (M.bind _ _ _) _
  generalize challenge (params l).reps _ fuel _ = o at hch ⊢
  generalize challengeMM l H fuel _ _ S m5 = o' at hch ⊢
  rcases o with ⟨ts, k⟩ | _ | _ <;> rcases o' with _ | m6 <;> simp only [ChalRes] at hch
  · obtain ⟨rfl, b6⟩ := hch
    refine ⟨ht, rfl, ?_, ((b14.trans b5).trans b6).mono (by omega) (by simp; omega)⟩
    dsimp only
    rw [memeqM_eq, ← h5]
    have : trits m6 (8 * loc (nw l) s 4 + commSize l) (params l).reps = trits m5 (8 * loc (nw l) s 4 + commSize l) (params l).reps := by
      rw [trits, trits, b6.bytes (by omega) (by simp; omega)]
    rw [this]
  · trivial

end Secuer.CMem
