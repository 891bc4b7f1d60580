import Verif.CMem.Instance

/-!
# `Pack_Response` and `Prove` on memory

The build without threads.  `malloc` is given by its result: an address for the array of instances, or none.
-/

set_option maxRecDepth 100000

namespace Secuer.CMem

open Secuer.Word Secuer.Field
open Secuer.Text (PFp2 CResp Resp Proof)
open Secuer.Protocol (params Secret Hash Comm roCommit roChallenge flat challengeInput)
open Secuer.Curve (Pt Crv Out Tape M Chain)
open Secuer.WCurve (Draw V VC VP VL VCh TapeLen fieldTape)
open Secuer.Challenge (challenge)

attribute [local instance] Arith.portable

variable {l : Level}

/-! ## The programs -/

/-- The bytes of an `int` with the value of an `int8_t` -/
def extend8 (b : UInt8) : List UInt8 := if b < 128 then [b, 0, 0, 0] else [b, 255, 255, 255]

/-- No value: an access outside an array -/
def orUb (o : Option Mem) (t : Tape Draw) : Out (Mem × Tape Draw) :=
  match o with
  | none => .ub
  | some m => .ok (m, t)

/-- `Pack_Response` (`poik.c:1172-1198`) on the `struct instance` at word address `v`, the `struct commitment1` at `c` and the `struct response` at
`r` -/
def packResponseM (l : Level) (which : UInt8) (v c r sp : ℕ) (t : Tape Draw) (m : Mem) : Out (Mem × Tape Draw) :=
  let hash := (params l).hash
  let hide := (params l).hide
  let m := wrBytes r (extend8 which) m
  if which = tagLeft then
    let m := memcpyM hide (uni r) (8 * v) m
    let m := memcpyM hash (uni r + hide) (c + hash) m
    packChainBM l sp (params l).height (atL l v) (atL l v + ((params l).height + 1) * (4 * nw l)) (uni r + hide + hash) t m
  else if which = tagBottom then
    let m := memcpyM hide (uni r) (8 * v) m
    let m := memcpyM hide (uni r + hide) (atR3 l v) m
    bindT (orUb (packCurveM l (atE2 l v) (uni r + hide + hide) sp m) t) fun m t =>
      packChainAM l sp (params l).width (atB l v) (atB l v + ((params l).width + 1) * (4 * nw l)) (uni r + hide + hide + sz l) t m
  else if which = tagRight then
    let m := memcpyM hash (uni r) c m
    let m := memcpyM hide (uni r + hash) (atR3 l v) m
    packChainBM l sp (params l).height (atR l v) (atR l v + ((params l).height + 1) * (4 * nw l)) (uni r + hash + hide) t m
  else .ub

/-- The first loop of `Prove` (`poik.c:1433-1437`), `n` iterations left -/
def instancesM (l : Level) (H : Hash) (sec sp : ℕ) : (n v c : ℕ) → Tape Draw → Mem → Out (Mem × Tape Draw)
  | 0, _, _, t, m => .ok (m, t)
  | n + 1, v, c, t, m => bindT (instanceMM l H sec v c sp t m) fun m t => instancesM l H sec sp n (v + instW l) (c + pairSize l) t m

/-- The second loop of `Prove` (`poik.c:1452-1456`), `n` iterations left -/
def packAllM (l : Level) (sp : ℕ) : (n ch v c r : ℕ) → Tape Draw → Mem → Out (Mem × Tape Draw)
  | 0, _, _, _, _, t, m => .ok (m, t)
  | n + 1, ch, v, c, r, t, m => bindT (packResponseM l (byteAt m ch) v c r sp t m) fun m t =>
      packAllM l sp n (ch + 1) (v + instW l) (c + pairSize l) (r + respSize l) t m

/-- `Prove` (`poik.c:1406-1461`) without threads, on the `struct secret` at `sec` and the `struct proof` at `prf`; `inst` is the result of
`malloc`; locals: `E0`, `E1`, `comm`, `chall` -/
def proveM (l : Level) (H : Hash) (fuel sec prf : ℕ) (inst : Option ℕ) (sp : ℕ) (t : Tape Draw) (m : Mem) : Out (Mem × Tape Draw) :=
  let v := loc (nw l) sp
  let reps := (params l).reps
  let comm := 8 * v 4
  let chall := comm + commSize l
  let sp := v 4 + commSize l + reps
  let m := unpackCurve0M l sec (v 0) sp m
  let m := unpackCurve0M l (sec + (params l).width * sz l) (v 2) sp m
  match inst with
  | none => .abort
  | some inst =>
    let m := encJM l (v 0) comm sp m
    let m := encJM l (v 2) (comm + sz l) sp m
    bindT (instancesM l H sec sp reps inst (comm + sz l + sz l) t m) fun m t =>
    match challengeMM l H fuel comm chall sp m with
    | none => .starved
    | some m =>
      bindT (orUb (packCurveM l (v 0) prf sp m) t) fun m t =>
      bindT (orUb (packCurveM l (v 2) (prf + sz l) sp m) t) fun m t =>
      packAllM l sp reps chall inst (comm + sz l + sz l) (prf + sz l + sz l) t m

/-! ## What is called, over the field -/

theorem packCurveM_f {E a s : ℕ} (m : Mem) (hE : E + 4 * nw l ≤ s) (ha : a + sz l ≤ 8 * s) {E' : Crv l.F} (h : VC l (rdC (nw l) m E) E')
    {t : Tape Draw} (ht : TapeLen l t) :
    FRes l (fun x m' => rdPF l m' a = Protocol.encode l x ∧ BF s [(a, sz l)] m m') (M.lift (Curve.packCurve l.env E') (fieldTape l t))
      (orUb (packCurveM l E a s m) t) := by
  have r := packCurveM_spec (l := l) (E := E) (a := a) (s := s) m ⟨by simp; omega, by simp⟩ ha
  have q := WCurve.packCurve_ref h
  simp only [M.lift]
  generalize packCurveM l E a s m = o at r ⊢
  generalize WCurve.packCurve l (rdC (nw l) m E) = c at r q
  generalize Curve.packCurve l.env E' = d at q ⊢
  cases q with
  | ok q =>
    rcases o with _ | m'
    · exact r.elim
    · exact ⟨ht, rfl, by rw [r.1, WProtocol.encode_n q], r.2⟩
  | ub =>
    rcases o with _ | m'
    · trivial
    · exact r.elim
  | abort => rcases o with _ | m' <;> exact r.elim
  | starved => rcases o with _ | m' <;> exact r.elim

theorem packChainBM_f {s n E P x : ℕ} (h : PackArgs l s n E P x) {t : Tape Draw} (ht : TapeLen l t) (m : Mem) {Es : List (Crv l.F)} {Ps : List (Pt l.F)}
    (hE : VL (VC l) (rdCs l m (n + 1) E) Es) (hP : VL (VP l) (rdPs l m n P) Ps) :
    FRes l (fun xs m' => rdPFs l m' x n = xs.map (Protocol.encode l) ∧ BF s [(x, n * sz l)] m m') (Curve.packChainB l.env Es Ps (fieldTape l t))
      (packChainBM l s n E P x t m) :=
  (FRes.of (packChainBM_spec n t m h) (WCurve.packChainB_ref hE hP t ht)).mono fun xs m' ⟨a, h1, h2, h3⟩ =>
    ⟨by rw [h2, WProtocol.encode_list h1], h3⟩

theorem packChainAM_f {s n E P x : ℕ} (h : PackArgs l s n E P x) {t : Tape Draw} (ht : TapeLen l t) (m : Mem) {Es : List (Crv l.F)} {Ps : List (Pt l.F)}
    (hE : VL (VC l) (rdCs l m (n + 1) E) Es) (hP : VL (VP l) (rdPs l m n P) Ps) :
    FRes l (fun xs m' => rdPFs l m' x n = xs.map (Protocol.encode l) ∧ BF s [(x, n * sz l)] m m') (Curve.packChainA l.env Es Ps (fieldTape l t))
      (packChainAM l s n E P x t m) := by
  have ho : (List.replicate (WCurve.nwordsOrder l) (0 : Digit)).length = WCurve.nwordsOrder l := by simp
  exact (FRes.of (packChainAM_spec ho n t m h) (WCurve.packChainA_ref ho hE hP t ht)).mono fun xs m' ⟨a, h1, h2, h3⟩ =>
    ⟨by rw [h2, WProtocol.encode_list h1], h3⟩

/-! ## The instances -/

theorem inst_sizes (v : ℕ) : atR3 l v = 8 * v + (params l).hide ∧ atE2 l v = v + (2 * (params l).hide + 7) / 8 ∧ atE3 l v = atE2 l v + 4 * nw l ∧
    atL l v = atE3 l v + 4 * nw l ∧ atB l v = atL l v + ((params l).height + 1) * (4 * nw l) + (params l).height * (4 * nw l) ∧
    atR l v = atB l v + ((params l).width + 1) * (4 * nw l) + (params l).width * (4 * nw l) ∧
    v + instW l = atR l v + ((params l).height + 1) * (4 * nw l) + (params l).height * (4 * nw l) := by
  have h1 : atB l v = atL l v + (((params l).height + 1) * (4 * nw l) + (params l).height * (4 * nw l)) := rfl
  have h2 : atR l v = atB l v + (((params l).width + 1) * (4 * nw l) + (params l).width * (4 * nw l)) := rfl
  have h3 : atE3 l v = atE2 l v + 4 * nw l := rfl
  have h4 : atE2 l v = v + (2 * (params l).hide + 7) / 8 := rfl
  have h5 : atL l v = atE3 l v + 4 * nw l := rfl
  have h6 : instW l = (2 * (params l).hide + 7) / 8 + 4 * nw l + 4 * nw l + (((params l).height + 1) * (4 * nw l) + (params l).height * (4 * nw l)) +
    (((params l).width + 1) * (4 * nw l) + (params l).width * (4 * nw l)) +
    (((params l).height + 1) * (4 * nw l) + (params l).height * (4 * nw l)) := rfl
  exact ⟨rfl, rfl, rfl, rfl, by omega, by omega, by omega⟩

theorem BF.instAt {s : ℕ} {W : List (ℕ × ℕ)} {m m' : Mem} (h : BF s W m m') {v c : ℕ} {i : Protocol.Inst l} {e : Comm} (hi : InstAt l m v c i e)
    (hv : v + instW l ≤ s) (hc : c + pairSize l ≤ 8 * s) (hw : ∀ w ∈ W, 8 * (v + instW l) ≤ w.1 ∨ w.1 + w.2 ≤ 8 * v)
    (hw' : ∀ w ∈ W, c + pairSize l ≤ w.1 ∨ w.1 + w.2 ≤ c) : InstAt l m' v c i e := by
  obtain ⟨a1, a2, a3, a4, a5, a6, a7⟩ := inst_sizes (l := l) v
  have hp : pairSize l = (params l).hash + (params l).hash := rfl
  have key : ∀ {x n : ℕ}, 8 * v ≤ x → x + n ≤ 8 * (v + instW l) → ∀ w ∈ W, x + n ≤ w.1 ∨ w.1 + w.2 ≤ x := fun h1 h2 w hwW => by
    have := hw w hwW
    omega
  have key' : ∀ {x n : ℕ}, c ≤ x → x + n ≤ c + pairSize l → ∀ w ∈ W, x + n ≤ w.1 ∨ w.1 + w.2 ≤ x := fun h1 h2 w hwW => by
    have := hw' w hwW
    omega
  have kw : ∀ {x n : ℕ}, v ≤ x → x + n ≤ v + instW l → ∀ w ∈ W, 8 * (x + n) ≤ w.1 ∨ w.1 + w.2 ≤ 8 * x := fun h1 h2 w hwW => by
    have := hw w hwW
    omega
  refine ⟨?_, ?_, ?_, ?_, ?_, ?_, ?_, ?_, ?_, ?_, ?_, ?_⟩
  · rw [h.bytes (by omega) (key (by omega) (by omega))]; exact hi.r2
  · rw [h.bytes (by omega) (key (by omega) (by omega))]; exact hi.r3
  · rw [h.rdC (by omega) (by simp only [Nat.add_assoc]; exact kw (by omega) (by omega))]; exact hi.E2
  · rw [h.rdC (by omega) (by simp only [Nat.add_assoc]; exact kw (by omega) (by omega))]; exact hi.E3
  · rw [h.rdCs (by omega) (kw (by omega) (by omega))]; exact hi.leftE
  · rw [h.rdPs (by omega) (kw (by omega) (by omega))]; exact hi.leftP
  · rw [h.rdCs (by omega) (kw (by omega) (by omega))]; exact hi.bottomE
  · rw [h.rdPs (by omega) (kw (by omega) (by omega))]; exact hi.bottomP
  · rw [h.rdCs (by omega) (kw (by omega) (by omega))]; exact hi.rightE
  · rw [h.rdPs (by omega) (kw (by omega) (by omega))]; exact hi.rightP
  · rw [h.bytes (by omega) (key' (by omega) (by omega))]; exact hi.h2
  · rw [h.bytes (by omega) (key' (by omega) (by omega))]; exact hi.h3

/-- The arrays of instances and commitments -/
def InstsAt (l : Level) (m : Mem) : (n v c : ℕ) → List (Protocol.Inst l × Comm) → Prop
  | 0, _, _, [] => True
  | n + 1, v, c, x :: xs => InstAt l m v c x.1 x.2 ∧ InstsAt l m n (v + instW l) (c + pairSize l) xs
  | _, _, _, _ => False

theorem BF.instsAt {s : ℕ} {W : List (ℕ × ℕ)} {m m' : Mem} (h : BF s W m m') : ∀ {n v c : ℕ} {vs : List (Protocol.Inst l × Comm)},
    InstsAt l m n v c vs → v + n * instW l ≤ s → c + n * pairSize l ≤ 8 * s →
    (∀ w ∈ W, 8 * (v + n * instW l) ≤ w.1 ∨ w.1 + w.2 ≤ 8 * v) → (∀ w ∈ W, c + n * pairSize l ≤ w.1 ∨ w.1 + w.2 ≤ c) → InstsAt l m' n v c vs
  | 0, _, _, [], _, _, _, _, _ => trivial
  | n + 1, v, c, x :: xs, hi, h1, h2, h3, h4 => by
    simp only [Nat.succ_mul n (instW l)] at h1 h3
    simp only [Nat.succ_mul n (pairSize l)] at h2 h4
    exact ⟨h.instAt hi.1 (by omega) (by omega) (fun w hw => by have := h3 w hw; omega) (fun w hw => by have := h4 w hw; omega),
      h.instsAt hi.2 (by omega) (by omega) (fun w hw => by have := h3 w hw; omega) (fun w hw => by have := h4 w hw; omega)⟩

theorem InstsAt.hashes {m : Mem} : ∀ {n v c : ℕ} {vs : List (Protocol.Inst l × Comm)}, InstsAt l m n v c vs →
    rdBytes m c (n * pairSize l) = (vs.map Prod.snd).flatMap fun e => e.h2 ++ e.h3
  | 0, _, _, [], _ => by rw [Nat.zero_mul]; rfl
  | n + 1, v, c, x :: xs, h => by
    rw [Nat.add_mul, Nat.one_mul, Nat.add_comm, rdBytes_append, rdBytes_append, h.1.h2, h.1.h3, h.2.hashes]
    rfl

theorem instancesM_f (H : Hash) (hH : ∀ n x, (H.out n x).length = n) {s sec : ℕ} (hs : sec + secretSize l ≤ 8 * s) : ∀ (n v c : ℕ) {t : Tape Draw}
    (_ht : TapeLen l t) (m : Mem), v + n * instW l ≤ s → c + n * pairSize l ≤ 8 * s →
    (c + n * pairSize l ≤ 8 * v ∨ 8 * (v + n * instW l) ≤ c) → (sec + secretSize l ≤ 8 * v ∨ 8 * (v + n * instW l) ≤ sec) →
    (sec + secretSize l ≤ c ∨ c + n * pairSize l ≤ sec) →
    FRes l (fun vs m' => InstsAt l m' n v c vs ∧ BF s [(8 * v, 8 * (n * instW l)), (c, n * pairSize l)] m m')
      (Protocol.instances l H (rdSecret l m sec) n (fieldTape l t)) (instancesM l H sec s n v c t m)
  | 0, v, c, t, ht, m, _, _, _, _, _ => ⟨ht, rfl, trivial, (BF.refl _ _).mono (le_refl _) (by simp)⟩
  | n + 1, v, c, t, ht, m, h1, h2, h3, h4, h5 => by
    simp only [Nat.succ_mul n (instW l), Nat.succ_mul n (pairSize l)] at h1 h2 h3 h4 h5 ⊢
    simp only [Protocol.instances, instancesM]
    refine (instanceMM_f H hH (s := s) (sec := sec) (v := v) (c := c) ⟨by omega, by omega, by omega, by omega⟩ ht m).bind fun x m1 t ht hx => ?_
    obtain ⟨hx, d1⟩ := hx
    have ih := instancesM_f H hH hs n (v + instW l) (c + pairSize l) ht m1 (by omega) (by omega) (by omega) (by omega) (by omega)
    have hz : secretSize l = ((params l).width + 1) * sz l + (params l).width * sz l := rfl
    have es : rdSecret l m1 sec = rdSecret l m sec := by
      rw [rdSecret, rdSecret, d1.pfs (by omega) (by simp; omega), d1.pfs (by omega) (by simp; omega)]
    rw [es] at ih
    generalize hv : instancesM l H sec s n (v + instW l) (c + pairSize l) t m1 = V at ih ⊢
    have hV : V = bindT V fun a t => .ok (a, t) := by rcases V with ⟨a, t⟩ | _ | _ | _ <;> rfl
    rw [hV]
    refine ih.bind fun xs m2 t ht hxs => ?_
    obtain ⟨hxs, d2⟩ := hxs
    refine ⟨ht, rfl, ⟨d2.instAt hx (by omega) (by omega) (by simp; omega) (by simp; omega), hxs⟩, ?_⟩
    exact (d1.trans d2).mono (le_refl _) (by simp; omega)

/-! ## `Pack_Response` -/

theorem extend8_tag {b : UInt8} {m : Mem} {r : ℕ} (h : rdBytes m r 4 = extend8 b) (hb : b = tagLeft ∨ b = tagBottom ∨ b = tagRight) :
    rdInt m r = i8 b := by
  unfold rdInt
  rw [h]
  rcases hb with rfl | rfl | rfl <;> decide +kernel

attribute [local irreducible] byteAt setByte i8 rdInt

set_option maxHeartbeats 1600000 in
theorem packResponseM_f {s v c r : ℕ} (hv : v + instW l ≤ s) (hc : c + pairSize l ≤ 8 * s) (hr : r + respSize l ≤ 8 * s)
    (hrv : r + respSize l ≤ 8 * v ∨ 8 * (v + instW l) ≤ r) (hrc : r + respSize l ≤ c ∨ c + pairSize l ≤ r) (b : UInt8) {t : Tape Draw}
    (ht : TapeLen l t) (m : Mem) {i : Protocol.Inst l} {e : Comm} (hi : InstAt l m v c i e) :
    FRes l (fun q m' => (rdResp l m' r).active = some q ∧ BF s [(r, respSize l)] m m') (Protocol.packResponse l (i8 b) i e (fieldTape l t))
      (packResponseM l b v c r s t m) := by
  obtain ⟨a1, a2, a3, a4, a5, a6, a7⟩ := inst_sizes (l := l) v
  have hp : pairSize l = (params l).hash + (params l).hash := rfl
  have hul := uni_left (l := l)
  have hub := uni_bottom (l := l)
  have hus := uniSize_le (l := l) r
  have hu : uni r = r + 4 := rfl
  have hlen : (extend8 b).length = 4 := by
    unfold extend8
    split <;> rfl
  have hL : i8 tagLeft = -1 := by decide +kernel
  have hB : i8 tagBottom = 0 := by decide +kernel
  have hR : i8 tagRight = 1 := by decide +kernel
  simp only [Protocol.packResponse, packResponseM]
  obtain ⟨c1, d1⟩ := wrBytes_bf (s := s) (x := r) (extend8 b) m
  rw [hlen] at c1 d1
  generalize wrBytes r (extend8 b) m = m1 at c1 d1 ⊢
  have hi1 : InstAt l m1 v c i e := d1.instAt hi hv hc (by simp; omega) (by simp; omega)
  by_cases h1 : b = tagLeft
  · subst h1
    rw [if_pos hL, if_pos rfl]
    obtain ⟨c2, d2⟩ := memcpyM_bf (s := s) (len := (params l).hide) (dst := uni r) (src := 8 * v) m1 (by omega)
    generalize memcpyM (params l).hide (uni r) (8 * v) m1 = m2 at c2 d2 ⊢
    rw [hi1.r2] at c2
    have hi2 := d2.instAt hi1 hv hc (by simp; omega) (by simp; omega)
    obtain ⟨c3, d3⟩ := memcpyM_bf (s := s) (len := (params l).hash) (dst := uni r + (params l).hide) (src := c + (params l).hash) m2 (by omega)
    generalize memcpyM (params l).hash (uni r + (params l).hide) (c + (params l).hash) m2 = m3 at c3 d3 ⊢
    rw [hi2.h3] at c3
    have hi3 := d3.instAt hi2 hv hc (by simp; omega) (by simp; omega)
    have f := packChainBM_f (l := l) (s := s) (n := (params l).height) (E := atL l v) (P := atL l v + ((params l).height + 1) * (4 * nw l))
      (x := uni r + (params l).hide + (params l).hash) ⟨by omega, by omega, by omega, by omega, by omega, by omega⟩ ht m3 hi3.leftE hi3.leftP
    generalize packChainBM l s _ _ _ _ t m3 = V at f ⊢
    have hV : V = bindT V fun a t => .ok (a, t) := by rcases V with ⟨a, t⟩ | _ | _ | _ <;> rfl
    rw [hV]
    refine f.bind fun xs m4 t ht hx => ?_
    obtain ⟨hx, d4⟩ := hx
    have d14 := ((d1.trans d2).trans d3).trans d4
    refine ⟨ht, rfl, ?_, d14.mono (le_refl _) (by simp; omega)⟩
    have t4 : (rdResp l m4 r).tag = -1 := by
      have : rdBytes m4 r 4 = extend8 tagLeft := by rw [((d2.trans d3).trans d4).bytes (by omega) (by simp; omega), c1]
      rw [rdResp, extend8_tag this (by simp), hL]
    rw [CResp.active, if_pos t4]
    simp only [rdResp]
    rw [hx, (d3.trans d4).bytes (by omega) (by simp), c2, d4.bytes (by omega) (by simp), c3]
  rw [if_neg fun h => h1 (i8_inj (h.trans hL.symm)), if_neg h1]
  by_cases h2 : b = tagBottom
  · subst h2
    rw [if_pos hB, if_pos rfl]
    obtain ⟨c2, d2⟩ := memcpyM_bf (s := s) (len := (params l).hide) (dst := uni r) (src := 8 * v) m1 (by omega)
    generalize memcpyM (params l).hide (uni r) (8 * v) m1 = m2 at c2 d2 ⊢
    rw [hi1.r2] at c2
    have hi2 := d2.instAt hi1 hv hc (by simp; omega) (by simp; omega)
    obtain ⟨c3, d3⟩ := memcpyM_bf (s := s) (len := (params l).hide) (dst := uni r + (params l).hide) (src := atR3 l v) m2 (by omega)
    generalize memcpyM (params l).hide (uni r + (params l).hide) (atR3 l v) m2 = m3 at c3 d3 ⊢
    rw [hi2.r3] at c3
    have hi3 := d3.instAt hi2 hv hc (by simp; omega) (by simp; omega)
    refine (packCurveM_f (l := l) (s := s) (E := atE2 l v) (a := uni r + (params l).hide + (params l).hide) m3 (by omega) (by omega) hi3.E2 ht).bind
      fun x m4 t ht hx => ?_
    obtain ⟨c4, d4⟩ := hx
    have hi4 := d4.instAt hi3 hv hc (by simp; omega) (by simp; omega)
    have f := packChainAM_f (l := l) (s := s) (n := (params l).width) (E := atB l v) (P := atB l v + ((params l).width + 1) * (4 * nw l))
      (x := uni r + (params l).hide + (params l).hide + sz l) ⟨by omega, by omega, by omega, by omega, by omega, by omega⟩ ht m4 hi4.bottomE hi4.bottomP
    generalize packChainAM l s _ _ _ _ t m4 = V at f ⊢
    have hV : V = bindT V fun a t => .ok (a, t) := by rcases V with ⟨a, t⟩ | _ | _ | _ <;> rfl
    rw [hV]
    refine f.bind fun xs m5 t ht hx => ?_
    obtain ⟨hx, d5⟩ := hx
    have d25 := ((d2.trans d3).trans d4).trans d5
    refine ⟨ht, rfl, ?_, (d1.trans d25).mono (le_refl _) (by simp; omega)⟩
    have t4 : (rdResp l m5 r).tag = 0 := by
      have : rdBytes m5 r 4 = extend8 tagBottom := by rw [d25.bytes (by omega) (by simp; omega), c1]
      rw [rdResp, extend8_tag this (by simp), hB]
    rw [CResp.active, t4, if_neg (by decide), if_pos rfl]
    simp only [rdResp]
    rw [hx, ((d3.trans d4).trans d5).bytes (by omega) (by simp; omega), c2, (d4.trans d5).bytes (by omega) (by simp), c3,
      d5.pf (by omega) (by simp), c4]
  rw [if_neg fun h => h2 (i8_inj (h.trans hB.symm)), if_neg h2]
  by_cases h3 : b = tagRight
  · subst h3
    rw [if_pos hR, if_pos rfl]
    obtain ⟨c2, d2⟩ := memcpyM_bf (s := s) (len := (params l).hash) (dst := uni r) (src := c) m1 (by omega)
    generalize memcpyM (params l).hash (uni r) c m1 = m2 at c2 d2 ⊢
    rw [hi1.h2] at c2
    have hi2 := d2.instAt hi1 hv hc (by simp; omega) (by simp; omega)
    obtain ⟨c3, d3⟩ := memcpyM_bf (s := s) (len := (params l).hide) (dst := uni r + (params l).hash) (src := atR3 l v) m2 (by omega)
    generalize memcpyM (params l).hide (uni r + (params l).hash) (atR3 l v) m2 = m3 at c3 d3 ⊢
    rw [hi2.r3] at c3
    have hi3 := d3.instAt hi2 hv hc (by simp; omega) (by simp; omega)
    have f := packChainBM_f (l := l) (s := s) (n := (params l).height) (E := atR l v) (P := atR l v + ((params l).height + 1) * (4 * nw l))
      (x := uni r + (params l).hash + (params l).hide) ⟨by omega, by omega, by omega, by omega, by omega, by omega⟩ ht m3 hi3.rightE hi3.rightP
    generalize packChainBM l s _ _ _ _ t m3 = V at f ⊢
    have hV : V = bindT V fun a t => .ok (a, t) := by rcases V with ⟨a, t⟩ | _ | _ | _ <;> rfl
    rw [hV]
    refine f.bind fun xs m4 t ht hx => ?_
    obtain ⟨hx, d4⟩ := hx
    have d24 := (d2.trans d3).trans d4
    refine ⟨ht, rfl, ?_, (d1.trans d24).mono (le_refl _) (by simp; omega)⟩
    have t4 : (rdResp l m4 r).tag = 1 := by
      have : rdBytes m4 r 4 = extend8 tagRight := by rw [d24.bytes (by omega) (by simp; omega), c1]
      rw [rdResp, extend8_tag this (by simp), hR]
    rw [CResp.active, t4, if_neg (by decide), if_neg (by decide), if_pos rfl]
    simp only [rdResp]
    rw [hx, (d3.trans d4).bytes (by omega) (by simp), c2, d4.bytes (by omega) (by simp), c3]
  · rw [if_neg fun h => h3 (i8_inj (h.trans hR.symm)), if_neg h3]
    trivial

attribute [local irreducible] rdResp packResponseM Protocol.packResponse in
theorem packAllM_f {s : ℕ} : ∀ (n ch v c r : ℕ) {t : Tape Draw} (_ht : TapeLen l t) (m : Mem) {vs : List (Protocol.Inst l × Comm)}
    (_hi : InstsAt l m n v c vs), v + n * instW l ≤ s → c + n * pairSize l ≤ 8 * s → r + n * respSize l ≤ 8 * s → ch + n ≤ 8 * s →
    (r + n * respSize l ≤ 8 * v ∨ 8 * (v + n * instW l) ≤ r) → (r + n * respSize l ≤ c ∨ c + n * pairSize l ≤ r) →
    (r + n * respSize l ≤ ch ∨ ch + n ≤ r) →
    FRes l (fun rs m' => (rdResps l m' r n).map CResp.active = rs.map some ∧ BF s [(r, n * respSize l)] m m')
      (Protocol.packAll l (trits m ch n) vs (fieldTape l t)) (packAllM l s n ch v c r t m)
  | 0, ch, v, c, r, t, ht, m, [], _, _, _, _, _, _, _, _ => ⟨ht, rfl, rfl, (BF.refl _ _).mono (le_refl _) (by simp)⟩
  | n + 1, ch, v, c, r, t, ht, m, x :: xs, hi, h1, h2, h3, h4, h5, h6, h7 => by
    simp only [Nat.succ_mul n (instW l), Nat.succ_mul n (pairSize l), Nat.succ_mul n (respSize l)] at h1 h2 h3 h5 h6 h7 ⊢
    have e : trits m ch (n + 1) = i8 (byteAt m ch) :: trits m (ch + 1) n := by
      rw [trits, Nat.add_comm n 1, rdBytes_append]
      rfl
    rw [e]
    simp only [Protocol.packAll, packAllM]
    refine (packResponseM_f (l := l) (s := s) (v := v) (c := c) (r := r) (by omega) (by omega) (by omega) (by omega) (by omega) (byteAt m ch) ht m
      hi.1).bind fun q m1 t ht hq => ?_
    obtain ⟨hq, d1⟩ := hq
    have hi1 := d1.instsAt hi.2 (by omega) (by omega) (by simp; omega) (by simp; omega)
    have ih := packAllM_f (s := s) n (ch + 1) (v + instW l) (c + pairSize l) (r + respSize l) ht m1 hi1 (by omega) (by omega) (by omega) (by omega)
      (by omega) (by omega) (by omega)
    have e1 : trits m1 (ch + 1) n = trits m (ch + 1) n := by rw [trits, trits, d1.bytes (by omega) (by simp; omega)]
    rw [e1] at ih
    generalize packAllM l s n _ _ _ _ t m1 = V at ih ⊢
    have hV : V = bindT V fun a t => .ok (a, t) := by rcases V with ⟨a, t⟩ | _ | _ | _ <;> rfl
    rw [hV]
    refine ih.bind fun rs m2 t ht hx => ?_
    obtain ⟨hx, d2⟩ := hx
    refine ⟨ht, rfl, ?_, (d1.trans d2).mono (le_refl _) (by simp; omega)⟩
    have e2 : rdResp l m2 r = rdResp l m1 r := rdResp_congr fun a b g1 g2 => d2.bytes (by omega) (by simp; omega)
    rw [rdResps_succ, List.map_cons, hx, e2, hq]
    rfl

/-! ## `Prove` -/

/-- Where the arguments of `Prove` are -/
structure ProveArgs (l : Level) (s sec prf inst : ℕ) : Prop where
  secret : sec + secretSize l ≤ 8 * s
  proof : prf + proofSize l ≤ 8 * s
  arr : inst + (params l).reps * instW l ≤ s
  sepI : sec + secretSize l ≤ 8 * inst ∨ 8 * (inst + (params l).reps * instW l) ≤ sec
  sepP : prf + proofSize l ≤ 8 * inst ∨ 8 * (inst + (params l).reps * instW l) ≤ prf

/-- Where `Prove` puts the array `chall` -/
def chalAddrP (l : Level) (sp : ℕ) : ℕ := 8 * loc (nw l) sp 4 + commSize l

theorem rdPFs_head (m : Mem) (x n : ℕ) : (rdPFs l m x (n + 1)).head? = some (rdPF l m x) := by rw [rdPFs_succ]; rfl

theorem rdPFs_last (m : Mem) (x n : ℕ) : (rdPFs l m x (n + 1)).getLast? = some (rdPF l m (x + n * sz l)) := by
  rw [rdPFs, List.range_succ, List.map_append, List.map_singleton, List.getLast?_append_of_ne_nil _ (by simp), List.getLast?_singleton]

set_option maxHeartbeats 1600000 in
/-- `Prove` on memory -/
theorem proveM_f (H : Hash) (hH : ∀ n x, (H.out n x).length = n) (hB : ∀ x k, (H.block x k).length = shakeRate) (pts : ℕ → Pt l.F × Pt l.F)
    (fuel : ℕ) {s sec prf inst : ℕ} (h : ProveArgs l s sec prf inst) {t : Tape Draw} (ht : TapeLen l t) (m : Mem) :
    FRes l (fun p m' => (rdProof l m' prf).E0 = p.E0 ∧ (rdProof l m' prf).E1 = p.E1 ∧ (rdProof l m' prf).resp.map CResp.active = p.resp.map some ∧
        BF s [(prf, proofSize l), (8 * inst, 8 * ((params l).reps * instW l))] m m')
      (Protocol.prove l H ⟨pts, trits m (chalAddrP l s) (params l).reps⟩ fuel (rdSecret l m sec) (fieldTape l t))
      (proveM l H fuel sec prf (some inst) s t m) := by
  obtain ⟨h1, h2, h3, h4, h5⟩ := h
  have l4 : loc (nw l) s 4 = s + 8 * nw l := by rw [loc_eq]; omega
  have l2 : loc (nw l) s 2 = s + 4 * nw l := by rw [loc_eq]; omega
  have l0 : loc (nw l) s 0 = s := by rw [loc_eq]; omega
  have hsz := sz_le (l := l)
  have hp' : proofSize l = sz l + sz l + (params l).reps * respSize l := rfl
  have hz : secretSize l = ((params l).width + 1) * sz l + (params l).width * sz l := rfl
  have hw1 := Nat.succ_mul (params l).width (sz l)
  rw [Nat.succ_eq_add_one] at hw1
  have hc := reps_pairs (l := l)
  have hca : chalAddrP l s = 8 * loc (nw l) s 4 + commSize l := rfl
  generalize hS : loc (nw l) s 4 + commSize l + (params l).reps = S
  have hhead : (rdSecret l m sec).E.head? = some (rdPF l m sec) := rdPFs_head m sec _
  have hlast : (rdSecret l m sec).E.getLast? = some (rdPF l m (sec + (params l).width * sz l)) := rdPFs_last m sec _
  simp only [Protocol.prove, proveM, hhead, hlast]
  rw [hS, ← hca]
  rw [l0, l2]
  generalize hCA : chalAddrP l s = CA at hca ⊢
  generalize loc (nw l) s 4 = L4 at l4 hca hS ⊢
  generalize hL4 : 8 * L4 = comm at hca ⊢
  obtain ⟨c1, d1⟩ := unpackCurve0M_bf (l := l) (a := sec) (E := s) (s := S) m (by omega) (by omega)
  generalize unpackCurve0M l sec s S m = m1 at c1 d1 ⊢
  obtain ⟨c2, d2⟩ := unpackCurve0M_bf (l := l) (a := sec + (params l).width * sz l) (E := s + 4 * nw l) (s := S) m1 (by omega) (by omega)
  generalize unpackCurve0M l (sec + (params l).width * sz l) (s + 4 * nw l) S m1 = m2 at c2 d2 ⊢
  have e2 : rdBytes m1 (sec + (params l).width * sz l) (sz l) = rdBytes m (sec + (params l).width * sz l) (sz l) :=
    d1.bytes (by omega) (by simp; omega)
  rw [e2] at c2
  rw [← d2.rdC (by omega) (by simp; omega)] at c1
  have v0 : VC l (rdC (nw l) m2 s) ⟨Protocol.decode l (rdPF l m sec), 1⟩ := by
    rw [c1]
    exact ⟨(rdPF_v m sec).n, WCurve.one_v⟩
  have v1 : VC l (rdC (nw l) m2 (s + 4 * nw l)) ⟨Protocol.decode l (rdPF l m (sec + (params l).width * sz l)), 1⟩ := by
    rw [c2]
    exact ⟨(rdPF_v m _).n, WCurve.one_v⟩
  obtain ⟨c3, d3⟩ := encJM_f (l := l) (s := S) (E := s) (j := comm) m2 ⟨by simp; omega, by simp⟩ (by omega) v0
  generalize encJM l s comm S m2 = m3 at c3 d3 ⊢
  rw [← d3.rdC (by omega) (by simp; omega)] at v0
  rw [← d3.rdC (by omega) (by simp; omega)] at v1
  obtain ⟨c4, d4⟩ := encJM_f (l := l) (s := S) (E := s + 4 * nw l) (j := comm + sz l) m3 ⟨by simp; omega, by simp⟩ (by omega) v1
  generalize encJM l (s + 4 * nw l) (comm + sz l) S m3 = m4 at c4 d4 ⊢
  rw [← d4.rdC (by omega) (by simp; omega)] at v0
  rw [← d4.rdC (by omega) (by simp; omega)] at v1
  rw [← d4.bytes (by omega) (by simp)] at c3
  have d14 := ((d1.trans d2).trans d3).trans d4
  have es : rdSecret l m4 sec = rdSecret l m sec := by
    rw [rdSecret, rdSecret, d14.pfs (by omega) (by simp; omega), d14.pfs (by omega) (by simp; omega)]
  have f := instancesM_f (l := l) H hH (s := S) (sec := sec) (by omega) (params l).reps inst (comm + sz l + sz l) ht m4 (by omega) (by omega)
    (by omega) (by omega) (by omega)
  rw [es] at f
  refine f.bind fun vs m5 t ht hvs => ?_
  obtain ⟨hvs, d5⟩ := hvs
  rw [← d5.rdC (by omega) (by simp; omega)] at v0
  rw [← d5.rdC (by omega) (by simp; omega)] at v1
  rw [← d5.bytes (by omega) (by simp; omega)] at c3
  rw [← d5.bytes (by omega) (by simp; omega)] at c4
  have hcomm : roChallenge ++ rdBytes m5 comm (commSize l) =
      challengeInput (Protocol.encJ l ⟨Protocol.decode l (rdPF l m sec), 1⟩)
        (Protocol.encJ l ⟨Protocol.decode l (rdPF l m (sec + (params l).width * sz l)), 1⟩) (vs.map Prod.snd) := by
    rw [challengeInput, hc, rdBytes_append _ _ (sz l + sz l), rdBytes_append _ _ (sz l) (sz l), c3, c4, ← Nat.add_assoc comm (sz l) (sz l),
      hvs.hashes]
  have htr : trits m5 CA (params l).reps = trits m CA (params l).reps := by
    rw [trits, trits, (d14.trans d5).bytes (by omega) (by simp; omega)]
  have hch := challengeMM_sim (l := l) H hB fuel (s := S) (comm := comm) (x := CA) (by omega) (by omega) m5
  rw [hcomm, htr] at hch
  simp only [Protocol.challengeM]
  change FRes l _ (M.bind _ _ _) _
  generalize challenge (params l).reps _ fuel _ = o at hch ⊢
  generalize challengeMM l H fuel _ _ S m5 = o' at hch ⊢
  rcases o with ⟨ts, k⟩ | _ | _ <;> rcases o' with _ | m6 <;> simp only [ChalRes] at hch
  swap
  · trivial
  obtain ⟨rfl, d6⟩ := hch
  rw [← d6.rdC (by omega) (by simp; omega)] at v0
  rw [← d6.rdC (by omega) (by simp; omega)] at v1
  have hvs := d6.instsAt hvs (by omega) (by omega) (by simp; omega) (by simp; omega)
  refine (packCurveM_f (l := l) (s := S) (E := s) (a := prf) m6 (by omega) (by omega) v0 ht).bind fun e0 m7 t ht h7 => ?_
  obtain ⟨c7, d7⟩ := h7
  rw [← d7.rdC (by omega) (by simp; omega)] at v1
  have hvs := d7.instsAt hvs (by omega) (by omega) (by simp; omega) (by simp; omega)
  refine (packCurveM_f (l := l) (s := S) (E := s + 4 * nw l) (a := prf + sz l) m7 (by omega) (by omega) v1 ht).bind fun e1 m8 t ht h8 => ?_
  obtain ⟨c8, d8⟩ := h8
  have hvs := d8.instsAt hvs (by omega) (by omega) (by simp; omega) (by simp; omega)
  have f := packAllM_f (l := l) (s := S) (params l).reps CA inst (comm + sz l + sz l) (prf + sz l + sz l) ht m8 hvs (by omega) (by omega) (by omega)
    (by omega) (by omega) (by omega) (by omega)
  have e8 : trits m8 CA (params l).reps = trits m6 CA (params l).reps := by
    rw [trits, trits, (d7.trans d8).bytes (by omega) (by simp; omega)]
  rw [e8] at f
  generalize packAllM l S _ _ _ _ _ t m8 = V at f ⊢
  have hV : V = bindT V fun a t => .ok (a, t) := by rcases V with ⟨a, t⟩ | _ | _ | _ <;> rfl
  rw [hV]
  refine f.bind fun rs m9 t ht hx => ?_
  obtain ⟨hx, d9⟩ := hx
  refine ⟨ht, rfl, ?_, ?_, hx, ?_⟩
  · change rdPF l m9 prf = Protocol.encode l e0
    rw [(d8.trans d9).pf (by omega) (by simp), c7]
  · change rdPF l m9 (prf + sz l) = Protocol.encode l e1
    rw [d9.pf (by omega) (by simp), c8]
  · exact (((((d14.trans d5).trans d6).trans d7).trans d8).trans d9).mono (by omega) (by simp; omega)

end Secuer.CMem
