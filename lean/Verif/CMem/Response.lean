import Verif.CMem.Chain

/-!
# `enc_j`, `hash_hiding` and `Unpack_Response` on memory

The structs of `poik.h:57-94` as they lie in memory: `unsigned char` arrays one after the other, and the tag of a response an `int` of four
bytes, little-endian, so that the size of a response is rounded up to a multiple of four.  SHAKE256 is a parameter: `hash_hiding` reads the
string that it hashes from its buffer, and the value is written to memory.
-/

set_option maxRecDepth 100000

namespace Secuer.CMem

open Secuer.Word Secuer.Field
open Secuer.Text (PFp2 CResp CProof)
open Secuer.Protocol (Hash Comm params roCommit roChallenge flat)
open Secuer.Curve (Pt Crv Iso Out Tape M)
open Secuer.WCurve (Draw V VC VL TapeLen fieldTape)

attribute [local instance] Arith.portable

variable {l : Level}

/-! ## The programs -/

/-- Writes a string to byte address `x`. -/
def wrBytes : (x : ℕ) → List UInt8 → Mem → Mem
  | _, [], m => m
  | x, b :: bs, m => wrBytes (x + 1) bs (setByte m x b)

/-- `enc_j` (`poik.c:1086-1091`); local: `jinv` -/
def encJM (l : Level) (E j sp : ℕ) (m : Mem) : Mem :=
  let v := loc (nw l) sp
  let sp := v 1
  let m := jInvM (portable l) E (E + 2 * nw l) (v 0) sp m
  fp2encodeM (tables l) (v 0) j sp m

/-- `hash_hiding` (`poik.c:1093-1100`); local: `buf`.  `r`, `v`, `h` are byte addresses. -/
def hashHidingM (l : Level) (H : Hash) (r v h sp : ℕ) (m : Mem) : Mem :=
  let buf := 8 * sp
  let m := wrBytes buf roCommit m
  let m := memcpyM (params l).hide (buf + roCommit.length) r m
  let m := memcpyM (sz l) (buf + roCommit.length + (params l).hide) v m
  wrBytes h (H.out (params l).hash (rdBytes m buf (roCommit.length + (params l).hide + sz l))) m

/-- `RESP_LEFT` as an `int8_t` -/
def tagLeft : UInt8 := 255
/-- `RESP_BOTTOM` as an `int8_t` -/
def tagBottom : UInt8 := 0
/-- `RESP_RIGHT` as an `int8_t` -/
def tagRight : UInt8 := 1

/-- The union in the `struct response` at `r` (`poik.h:79`) -/
abbrev uni (r : ℕ) : ℕ := r + 4

/-- `Unpack_Response` (`poik.c:1200-1239`); locals: `E2`, `E3`, `j2`, `j3`.  `E0`, `E1`, `r`, `which`, `comm` are byte addresses. -/
def unpackResponseM (l : Level) (H : Hash) (E0 E1 r which comm sp : ℕ) (t : Tape Draw) (m : Mem) : Out ((Bool × Mem) × Tape Draw) :=
  let v := loc (nw l) sp
  let sp := v 6
  let j2 := 8 * v 4
  let j3 := 8 * v 5
  let hash := (params l).hash
  let hide := (params l).hide
  let m := setByte m which (byteAt m r)
  let tag := byteAt m which
  if tag = tagLeft then
    bindT (unpackChainBM l (params l).height E0 (uni r + hide + hash) (v 0) sp t m) fun q t =>
      if q.1 = false then .ok ((false, q.2), t) else
      let m := encJM l (v 0) j2 sp q.2
      let m := hashHidingM l H (uni r) j2 comm sp m
      .ok ((true, memcpyM hash (comm + hash) (uni r + hide) m), t)
  else if tag = tagBottom then
    bindT (unpackCurveM l (uni r + hide + hide) (v 0) sp t m) fun q t =>
      if q.1 = false then .ok ((false, q.2), t) else
      bindT (unpackChainAM l (params l).width (uni r + hide + hide) (uni r + hide + hide + sz l) (v 2) sp t q.2) fun q t =>
        if q.1 = false then .ok ((false, q.2), t) else
        let m := encJM l (v 0) j2 sp q.2
        let m := encJM l (v 2) j3 sp m
        let m := hashHidingM l H (uni r) j2 comm sp m
        .ok ((true, hashHidingM l H (uni r + hide) j3 (comm + hash) sp m), t)
  else if tag = tagRight then
    bindT (unpackChainBM l (params l).height E1 (uni r + hash + hide) (v 2) sp t m) fun q t =>
      if q.1 = false then .ok ((false, q.2), t) else
      let m := memcpyM hash comm (uni r) q.2
      let m := encJM l (v 2) j3 sp m
      .ok ((true, hashHidingM l H (uni r + hash) j3 (comm + hash) sp m), t)
  else .ok ((false, m), t)

/-! ## What is unchanged -/

/-- Below `s`, the memories agree on all bytes but those in the strings `W` (address and length). -/
def BF (s : ℕ) (W : List (ℕ × ℕ)) (m m' : Mem) : Prop := ∀ y < 8 * s, (∀ w ∈ W, y < w.1 ∨ w.1 + w.2 ≤ y) → byteAt m' y = byteAt m y

theorem BF.refl (s : ℕ) (m : Mem) : BF s [] m m := fun _ _ _ => rfl

theorem BF.trans {s : ℕ} {W W' : List (ℕ × ℕ)} {m m' m'' : Mem} (h : BF s W m m') (h' : BF s W' m' m'') : BF s (W ++ W') m m'' :=
  fun y hy hw => (h' y hy fun w hw' => hw w (List.mem_append_right _ hw')).trans (h y hy fun w hw' => hw w (List.mem_append_left _ hw'))

theorem BF.mono {s s' : ℕ} {W W' : List (ℕ × ℕ)} {m m' : Mem} (h : BF s W m m') (hs : s' ≤ s)
    (hw : ∀ w ∈ W, 8 * s' ≤ w.1 ∨ ∃ w' ∈ W', w'.1 ≤ w.1 ∧ w.1 + w.2 ≤ w'.1 + w'.2) : BF s' W' m m' := by
  intro y hy hy'
  refine h y (by omega) fun w hwW => ?_
  rcases hw w hwW with h1 | ⟨w', h1, h2, h3⟩
  · omega
  · have := hy' w' h1
    omega

theorem BF.bytes {s : ℕ} {W : List (ℕ × ℕ)} {m m' : Mem} (h : BF s W m m') {x len : ℕ} (hx : x + len ≤ 8 * s)
    (hw : ∀ w ∈ W, x + len ≤ w.1 ∨ w.1 + w.2 ≤ x) : rdBytes m' x len = rdBytes m x len :=
  rdBytes_congr fun y h1 h2 => h y (by omega) fun w hwW => by have := hw w hwW; omega

theorem BF.rdF {s : ℕ} {W : List (ℕ × ℕ)} {m m' : Mem} (h : BF s W m m') {n a : ℕ} (ha : a + 2 * n ≤ s)
    (hw : ∀ w ∈ W, 8 * (a + 2 * n) ≤ w.1 ∨ w.1 + w.2 ≤ 8 * a) : rdF n m' a = rdF n m a := by
  have key : ∀ y, a ≤ y → y < a + 2 * n → m' y = m y := fun y h1 h2 =>
    mem_eq_of_bytes fun k hk => h _ (by omega) fun w hwW => by have := hw w hwW; omega
  change F2.mk (rd m' n a) (rd m' n (a + n)) = F2.mk (rd m n a) (rd m n (a + n))
  exact congr (congrArg F2.mk (rd_congr fun y h1 h2 => key y h1 (by omega))) (rd_congr fun y h1 h2 => key y (by omega) (by omega))

theorem Effect.bf {n s : ℕ} {m m' : Mem} {W : List (ℕ × F2)} (h : Effect n s m m' W) : BF s (W.map fun w => (8 * w.1, 16 * n)) m m' := by
  intro y hy hw
  refine byteAt_congr (h.frame _ (by omega) fun w hwW => ?_)
  have := hw _ (List.mem_map_of_mem hwW)
  dsimp only at this
  omega

theorem memcpyM_bf {s len dst src : ℕ} (m : Mem) (h : dst + len ≤ src ∨ src + len ≤ dst) :
    rdBytes (memcpyM len dst src m) dst len = rdBytes m src len ∧ BF s [(dst, len)] m (memcpyM len dst src m) := by
  refine ⟨?_, fun y _ hw => ?_⟩
  · apply List.ext_getElem?
    intro i
    rw [rdBytes_getElem?, rdBytes_getElem?]
    by_cases hi : i < len
    · rw [if_pos hi, if_pos hi, memcpyM_byte _ _ _ _ h, if_pos (by omega), Nat.add_sub_cancel_left]
    · rw [if_neg hi, if_neg hi]
  · have := hw _ (List.mem_singleton.2 rfl)
    dsimp only at this
    rw [memcpyM_byte _ _ _ _ h, if_neg (by omega)]

theorem wrBytes_byte : ∀ (bs : List UInt8) (x : ℕ) (m : Mem) (y : ℕ),
    byteAt (wrBytes x bs m) y = if x ≤ y then (bs[y - x]?).getD (byteAt m y) else byteAt m y
  | [], x, m, y => by simp [wrBytes]
  | b :: bs, x, m, y => by
    rw [wrBytes, wrBytes_byte bs (x + 1) _ y, byteAt_setByte]
    by_cases h1 : y = x
    · subst h1
      rw [if_neg (by omega), if_pos rfl, if_pos (le_refl _), Nat.sub_self]
      rfl
    · rw [if_neg h1]
      by_cases h2 : x ≤ y
      · rw [if_pos (by omega), if_pos h2, show y - x = y - (x + 1) + 1 by omega, List.getElem?_cons_succ]
      · rw [if_neg (by omega), if_neg h2]

theorem wrBytes_bf {s x : ℕ} (bs : List UInt8) (m : Mem) : rdBytes (wrBytes x bs m) x bs.length = bs ∧ BF s [(x, bs.length)] m (wrBytes x bs m) := by
  refine ⟨?_, fun y _ hw => ?_⟩
  · apply List.ext_getElem?
    intro i
    rw [rdBytes_getElem?]
    by_cases hi : i < bs.length
    · rw [if_pos hi, wrBytes_byte, if_pos (by omega), Nat.add_sub_cancel_left, List.getElem?_eq_getElem hi, Option.getD_some]
    · rw [if_neg hi, List.getElem?_eq_none (by omega)]
  · have := hw _ (List.mem_singleton.2 rfl)
    dsimp only at this
    rw [wrBytes_byte]
    by_cases h : x ≤ y
    · rw [if_pos h, List.getElem?_eq_none (by omega), Option.getD_none]
    · rw [if_neg h]

theorem setByte_bf {s x : ℕ} (b : UInt8) (m : Mem) : BF s [(x, 1)] m (setByte m x b) := by
  intro y _ hw
  have := hw _ (List.mem_singleton.2 rfl)
  dsimp only at this
  rw [byteAt_setByte, if_neg (by omega)]

/-! ## `enc_j` and `hash_hiding` -/

theorem encJM_spec {E j s : ℕ} (m : Mem) (hL : Layout (nw l) s [E, E + 2 * nw l]) (hj : j + sz l ≤ 8 * s) :
    rdBytes (encJM l E j s m) j (sz l) = fp2encode (tables l) (WCurve.jInv l (rdF (nw l) m E) (rdF (nw l) m (E + 2 * nw l))) ∧
      BF s [(j, sz l)] m (encJM l E j s m) := by
  have e1 := jInvM_effect (portable l) m (A := E) (C := E + 2 * nw l) (jinv := loc (nw l) s 0) (hL.call 1 [0, 1, 2] (by decide) rfl)
  simp only [encJM]
  have hv := e1.out _ (List.mem_singleton.2 rfl)
  have hb := e1.bf
  change CMem.rdF (nw l) _ (loc (nw l) s 0) = _ at hv
  generalize jInvM (portable l) E (E + 2 * nw l) (loc (nw l) s 0) (loc (nw l) s 1) m = m1 at hv hb ⊢
  have hl : loc (nw l) s 1 = s + 2 * nw l := by rw [loc_eq]; omega
  have hl0 : loc (nw l) s 0 = s := by rw [loc_eq]; omega
  obtain ⟨h1, h2⟩ := fp2encodeM_spec (l := l) (x := loc (nw l) s 0) (e := j) (s := loc (nw l) s 1) m1 (by omega) (by omega)
  refine ⟨by rw [h1, hv], ?_⟩
  intro y hy hw
  have hw' := hw _ (List.mem_singleton.2 rfl)
  dsimp only at hw'
  rw [h2 y (by omega) (by omega)]
  refine hb y (by omega) fun w hwW => ?_
  rw [List.map_singleton, List.mem_singleton] at hwW
  subst hwW
  dsimp only
  omega

theorem hashHidingM_spec (H : Hash) (hH : ∀ n x, (H.out n x).length = n) {r v h s : ℕ} (m : Mem) (hr : r + (params l).hide ≤ 8 * s)
    (hv : v + sz l ≤ 8 * s) :
    rdBytes (hashHidingM l H r v h s m) h (params l).hash = H.out (params l).hash (roCommit ++ rdBytes m r (params l).hide ++ rdBytes m v (sz l)) ∧
      BF s [(h, (params l).hash)] m (hashHidingM l H r v h s m) := by
  simp only [hashHidingM]
  obtain ⟨a1, b1⟩ := wrBytes_bf (s := s + sz l + (params l).hide + 1) (x := 8 * s) roCommit m
  generalize wrBytes (8 * s) roCommit m = m1 at a1 b1 ⊢
  have hc : roCommit.length = 1 := rfl
  rw [hc] at a1 b1 ⊢
  obtain ⟨a2, b2⟩ := memcpyM_bf (s := s + sz l + (params l).hide + 1) (len := (params l).hide) (dst := 8 * s + 1) (src := r) m1 (by omega)
  generalize memcpyM (params l).hide (8 * s + 1) r m1 = m2 at a2 b2 ⊢
  obtain ⟨a3, b3⟩ := memcpyM_bf (s := s + sz l + (params l).hide + 1) (len := sz l) (dst := 8 * s + 1 + (params l).hide) (src := v) m2 (by omega)
  generalize memcpyM (sz l) (8 * s + 1 + (params l).hide) v m2 = m3 at a3 b3 ⊢
  have hin : rdBytes m3 (8 * s) (1 + (params l).hide + sz l) = roCommit ++ rdBytes m r (params l).hide ++ rdBytes m v (sz l) := by
    rw [rdBytes_append, rdBytes_append, show 8 * s + (1 + (params l).hide) = 8 * s + 1 + (params l).hide by omega, a3]
    congr 1
    · congr 1
      · rw [b3.bytes (by omega) (by simp; omega), b2.bytes (by omega) (by simp), a1]
      · rw [b3.bytes (by omega) (by simp), a2, b1.bytes (by omega) (by simp; omega)]
    · rw [b2.bytes (by omega) (by simp; omega), b1.bytes (by omega) (by simp; omega)]
  rw [hin]
  obtain ⟨a4, b4⟩ := wrBytes_bf (s := s) (x := h) (H.out (params l).hash (roCommit ++ rdBytes m r (params l).hide ++ rdBytes m v (sz l))) m3
  rw [hH] at a4 b4
  refine ⟨a4, ?_⟩
  have b := (((b1.trans b2).trans b3).mono (s' := s) (W' := []) (by omega) (by simp; omega)).trans b4
  exact b

/-! ## Runs of the program on memory and of the model over the field -/

/-- The two runs end in the same way, and if they return, the random strings left over stand for the same elements, and the results are as `P`
says. -/
def FRes (l : Level) {α γ : Type} (P : α → γ → Prop) : Out (α × Tape l.F) → Out (γ × Tape Draw) → Prop
  | .ok (a, u), .ok (c, t) => TapeLen l t ∧ u = fieldTape l t ∧ P a c
  | .abort, .abort => True
  | .ub, .ub => True
  | .starved, .starved => True
  | _, _ => False

theorem FRes.of {α β γ : Type} {R : α → β → Prop} {P : α → γ → Prop} {o : Out (α × Tape Draw)} {o' : Out (γ × Tape Draw)} {c : Out (β × Tape l.F)}
    (r : ResT P o o') (q : WCurve.OR (fun a b => R a.1 b.1 ∧ TapeLen l a.2 ∧ b.2 = fieldTape l a.2) o c) :
    FRes l (fun b g => ∃ a, R a b ∧ P a g) c o' := by
  cases q with
  | ok q =>
    rename_i x y
    obtain ⟨x, tx⟩ := x
    obtain ⟨y, ty⟩ := y
    rcases o' with ⟨g, tg⟩ | _ | _ | _ <;> simp only [ResT] at r
    obtain ⟨rfl, r⟩ := r
    exact ⟨q.2.1, q.2.2, x, q.1, r⟩
  | _ => rcases o' with ⟨g, tg⟩ | _ | _ | _ <;> (simp only [ResT] at r; try trivial)

theorem FRes.mono {α γ : Type} {P P' : α → γ → Prop} {o : Out (α × Tape l.F)} {r : Out (γ × Tape Draw)} (h : FRes l P o r)
    (hP : ∀ a c, P a c → P' a c) : FRes l P' o r := by
  rcases o with ⟨a, t1⟩ | _ | _ | _ <;> rcases r with ⟨m, t2⟩ | _ | _ | _ <;> simp only [FRes] at h ⊢
  exact ⟨h.1, h.2.1, hP _ _ h.2.2⟩

theorem FRes.bind {α β γ δ : Type} {P : α → γ → Prop} {P' : β → δ → Prop} {f : M l.F α} {g : α → M l.F β} {t : Tape l.F}
    {r : Out (γ × Tape Draw)} {k : γ → Tape Draw → Out (δ × Tape Draw)} (h : FRes l P (f t) r)
    (hg : ∀ a c t, TapeLen l t → P a c → FRes l P' (g a (fieldTape l t)) (k c t)) : FRes l P' (M.bind f g t) (bindT r k) := by
  simp only [M.bind, bindT]
  generalize f t = o at h ⊢
  rcases o with ⟨a, t1⟩ | _ | _ | _ <;> rcases r with ⟨m, t2⟩ | _ | _ | _ <;> simp only [FRes] at h ⊢
  obtain ⟨h1, rfl, h2⟩ := h
  exact hg _ _ _ h1 h2

/-! ## The structs -/

/-- The `packed_fp2` at `x` (`poik.h:49-55`) -/
def rdPF (l : Level) (m : Mem) (x : ℕ) : PFp2 := ⟨rdBytes m x (half (tables l)), rdBytes m (x + half (tables l)) (half (tables l))⟩

/-- `n` of them -/
def rdPFs (l : Level) (m : Mem) (x n : ℕ) : List PFp2 := (List.range n).map fun i => rdPF l m (x + i * sz l)

/-- A byte as an `int8_t` -/
def i8 (b : UInt8) : Int := Int.bmod b.toNat 256

/-- The `int` at `r` -/
def rdInt (m : Mem) (r : ℕ) : Int := Int.bmod (Scalar.leNat (rdBytes m r 4)) 4294967296

/-- The `struct response` at `r` (`poik.h:73-94`): the tag, and the union with each of its types -/
def rdResp (l : Level) (m : Mem) (r : ℕ) : CResp :=
  let hash := (params l).hash
  let hide := (params l).hide
  { tag := rdInt m r
    leftR2 := rdBytes m (uni r) hide
    leftH3 := rdBytes m (uni r + hide) hash
    leftChain := rdPFs l m (uni r + hide + hash) (params l).height
    bottomR2 := rdBytes m (uni r) hide
    bottomR3 := rdBytes m (uni r + hide) hide
    bottomE2 := rdPF l m (uni r + hide + hide)
    bottomChain := rdPFs l m (uni r + hide + hide + sz l) (params l).width
    rightH2 := rdBytes m (uni r) hash
    rightR3 := rdBytes m (uni r + hash) hide
    rightChain := rdPFs l m (uni r + hash + hide) (params l).height }

/-- The size of the union (`poik.h:79-93`) -/
def uniSize (l : Level) : ℕ :=
  max ((params l).hide + (params l).hash + (params l).height * sz l) ((params l).hide + (params l).hide + sz l + (params l).width * sz l)

/-- `sizeof(struct response)` -/
def respSize (l : Level) : ℕ := (4 + uniSize l + 3) / 4 * 4

theorem uniSize_le (r : ℕ) : uni r + uniSize l ≤ r + respSize l := by
  rw [respSize, uni]
  omega

theorem flat_rdPF (m : Mem) (x : ℕ) : flat (rdPF l m x) = rdBytes m x (sz l) := (rdBytes_append _ _ _ _).symm

theorem rdPF_wf (m : Mem) (x : ℕ) : (rdPF l m x).WF (params l) := by
  rw [PFp2.WF, rdPF, rdBytes_length, rdBytes_length, half_eq]
  exact ⟨rfl, rfl⟩

theorem rdPF_v (m : Mem) (x : ℕ) : V l 2 (dec l (rdBytes m x (sz l))) (Protocol.decode l (rdPF l m x)) := by
  rw [← flat_rdPF]
  obtain ⟨h1, h2⟩ := fp2decode_spec l ⟨List.replicate (nw l) 0, List.replicate (nw l) 0⟩ (by simp) (by simp) (rdPF l m x).real (rdPF l m x).imag
    (rdPF_wf m x).1 (rdPF_wf m x).2
  exact ⟨h1, h2⟩

theorem rdPFs_v (m : Mem) (x n : ℕ) :
    VL (V l 2) ((List.range n).map fun i => dec l (rdBytes m (x + i * sz l) (sz l))) ((rdPFs l m x n).map (Protocol.decode l)) := by
  rw [rdPFs, List.map_map]
  induction List.range n with
  | nil => exact .nil
  | cons i is ih => exact .cons (rdPF_v m _) ih

theorem rdPF_congr {m m' : Mem} {x : ℕ} (h : rdBytes m' x (sz l) = rdBytes m x (sz l)) : rdPF l m' x = rdPF l m x := by
  rw [rdBytes_append, rdBytes_append] at h
  obtain ⟨h1, h2⟩ := List.append_inj h (by rw [rdBytes_length, rdBytes_length])
  rw [rdPF, rdPF, h1, h2]

theorem BF.pf {s : ℕ} {W : List (ℕ × ℕ)} {m m' : Mem} (h : BF s W m m') {x : ℕ} (hx : x + sz l ≤ 8 * s)
    (hw : ∀ w ∈ W, x + sz l ≤ w.1 ∨ w.1 + w.2 ≤ x) : rdPF l m' x = rdPF l m x := rdPF_congr (h.bytes hx hw)

theorem BF.pfs {s : ℕ} {W : List (ℕ × ℕ)} {m m' : Mem} (h : BF s W m m') {x n : ℕ} (hx : x + n * sz l ≤ 8 * s)
    (hw : ∀ w ∈ W, x + n * sz l ≤ w.1 ∨ w.1 + w.2 ≤ x) : rdPFs l m' x n = rdPFs l m x n := by
  refine List.map_congr_left fun i hi => ?_
  have hi := List.mem_range.1 hi
  have : i * sz l + sz l ≤ n * sz l := by rw [← Nat.succ_mul]; exact Nat.mul_le_mul_right _ hi
  exact h.pf (by omega) fun w hwW => by have := hw w hwW; omega

theorem i8_inj {a b : UInt8} (h : i8 a = i8 b) : a = b := by
  have ha : a.toNat < 256 := a.toNat_lt
  have hb : b.toNat < 256 := b.toNat_lt
  have h1 : i8 a % ((256 : ℕ) : ℤ) = (a.toNat : ℤ) % ((256 : ℕ) : ℤ) := Int.bmod_emod
  have h2 : i8 b % ((256 : ℕ) : ℤ) = (b.toNat : ℤ) % ((256 : ℕ) : ℤ) := Int.bmod_emod
  rw [h, h2, Nat.cast_ofNat] at h1
  apply UInt8.toNat.inj
  omega

/-- The conversion of the tag to `int8_t` takes its lowest byte. -/
theorem int8_tag (m : Mem) (r : ℕ) : Protocol.int8 (rdResp l m r).tag = i8 (byteAt m r) := by
  have e : Scalar.leNat (rdBytes m r 4) = (byteAt m r).toNat + 256 * Scalar.leNat (rdBytes m (r + 1) 3) := by
    have h : rdBytes m r 4 = [byteAt m r] ++ rdBytes m (r + 1) 3 := rdBytes_append m r 1 3
    rw [h, List.singleton_append, Scalar.leNat]
  have e1 : Protocol.int8 (rdInt m r) = Int.bmod (Scalar.leNat (rdBytes m r 4)) 256 := Int.bmod_bmod_of_dvd (by norm_num)
  rw [show (rdResp l m r).tag = rdInt m r by rw [rdResp], e1, e, i8, Nat.cast_add, Nat.cast_mul]
  exact Int.add_mul_bmod_self_left _ _ _

/-! ## The functions called -/

/-- What `Unpack_Chain_A` and `Unpack_Chain_B` do -/
def ChainF (l : Level) (s E : ℕ) (m : Mem) : Option (Crv l.F) → Bool × Mem → Prop
  | none, (false, m') => BF s [(8 * E, 32 * nw l)] m m'
  | some x, (true, m') => VC l (rdC (nw l) m' E) x ∧ BF s [(8 * E, 32 * nw l)] m m'
  | _, _ => False

theorem crv_bf {s E : ℕ} {m m' : Mem} {x : Crv F2} (h : Effect (nw l) s m m' (crvVars (nw l) E x)) : BF s [(8 * E, 32 * nw l)] m m' := by
  refine h.bf.mono (le_refl _) ?_
  simp only [crvVars, List.map_cons, List.map_nil, List.forall_mem_cons, List.mem_singleton, exists_eq_left]
  refine ⟨by omega, ?_⟩
  rintro w rfl
  dsimp only
  omega

theorem crv_rd {s E : ℕ} {m m' : Mem} {x : Crv F2} (h : Effect (nw l) s m m' (crvVars (nw l) E x)) : rdC (nw l) m' E = x :=
  congr (congrArg Crv.mk (h.out (E, x.A) (by simp [crvVars]))) (h.out (E + 2 * nw l, x.C) (by simp [crvVars]))

theorem chainF {s E : ℕ} {m : Mem} {o : Option (Crv l.F)} {g : Bool × Mem} (h : ∃ a, Option.Rel (VC l) a o ∧ ChainRes (nw l) s m E a g) :
    ChainF l s E m o g := by
  obtain ⟨a, h1, h2⟩ := h
  obtain ⟨b, m'⟩ := g
  cases h1 with
  | none =>
    rcases b with _ | _ <;> simp only [ChainRes] at h2
    obtain ⟨x, h2⟩ := h2
    exact crv_bf h2
  | some h1 =>
    rcases b with _ | _ <;> simp only [ChainRes] at h2
    refine ⟨?_, crv_bf h2⟩
    rw [crv_rd h2]
    exact h1

theorem unpackChainAM_f (pts : ℕ → Pt l.F × Pt l.F) {s E : ℕ} (hL : Layout (nw l) s (argU l E)) {n E0 x : ℕ} (h0 : Str (nw l) s (argU l E) E0 (sz l))
    (hx : Str (nw l) s (argU l E) x (n * sz l)) {t : Tape Draw} (ht : TapeLen l t) (m : Mem) :
    FRes l (ChainF l s E m) (Curve.unpackChainA l.env l.po pts (Protocol.decode l (rdPF l m E0)) ((rdPFs l m x n).map (Protocol.decode l))
      (fieldTape l t)) (unpackChainAM l n E0 x E s t m) := by
  obtain ⟨junk, r⟩ := unpackChainAM_spec hL h0 hx t m
  exact (FRes.of r (WCurve.unpackChainA_ref junk pts (rdPF_v m E0) (rdPFs_v m x n) t ht)).mono fun _ _ h => chainF h

theorem unpackChainBM_f (pts : ℕ → Pt l.F × Pt l.F) {s E : ℕ} (hL : Layout (nw l) s (argU l E)) {n E0 x : ℕ} (h0 : Str (nw l) s (argU l E) E0 (sz l))
    (hx : Str (nw l) s (argU l E) x (n * sz l)) {t : Tape Draw} (ht : TapeLen l t) (m : Mem) :
    FRes l (ChainF l s E m) (Curve.unpackChainB l.env l.po pts (Protocol.decode l (rdPF l m E0)) ((rdPFs l m x n).map (Protocol.decode l))
      (fieldTape l t)) (unpackChainBM l n E0 x E s t m) := by
  obtain ⟨junk, r⟩ := unpackChainBM_spec hL h0 hx t m
  exact (FRes.of r (WCurve.unpackChainB_ref junk pts (rdPF_v m E0) (rdPFs_v m x n) t ht)).mono fun _ _ h => chainF h

/-- `unpack_curve` with `check` true -/
theorem unpackCurveM_f (pmem : Protocol.Mem l) {s E : ℕ} (hL : Layout (nw l) s (argU l E)) {a : ℕ} (hx : Str (nw l) s (argU l E) a (sz l))
    {t : Tape Draw} (ht : TapeLen l t) (m : Mem) :
    FRes l (fun b g => b = g.1 ∧ VC l (rdC (nw l) g.2 E) ⟨Protocol.decode l (rdPF l m a), 1⟩ ∧ BF s [(8 * E, 32 * nw l)] m g.2)
      (Protocol.checkedCurve l pmem (rdPF l m a) (fieldTape l t)) (unpackCurveM l a E s t m) := by
  have e := fp2decodeM_effect (l := l) (x := a) m (addr_below (i := 0) (k := 0) hL (by simp)) (hx.addr (i := 0) (k := 0) (by simp))
  have a1 := (At.start (k := 0) m).call hL [(0, dec l (rdBytes m a (sz l)))] (by simp) rfl e
  have a2 := a1.sim (Sim.ops (portable l) hL [.one 1] rfl)
  have e2 : Effect (nw l) s m _ (crvVars (nw l) E ⟨dec l (rdBytes m a (sz l)), fp2one (tables l)⟩) :=
    a2.holds.effect a2.frame [(0, dec l (rdBytes m a (sz l))), (1, fp2one (tables l))] [] rfl rfl (by simp; exact ⟨rfl, rfl⟩) (by simp)
  change Effect (nw l) s m ((portable l).runs s [.one (E + 2 * nw l)] (fp2decodeM (tables l) a E s m)) _ at e2
  simp only [unpackCurveM]
  generalize (portable l).runs s [.one (E + 2 * nw l)] (fp2decodeM (tables l) a E s m) = m1 at e2 ⊢
  obtain ⟨junk, r⟩ := checkCurveM_spec hL t m1
  rw [crv_rd e2] at r
  refine (FRes.of r (WCurve.checkCurve_ref junk pmem.pts (E' := ⟨Protocol.decode l (rdPF l m a), 1⟩) ⟨(rdPF_v m a).n, WCurve.one_v⟩
    (rdPF_v m a) t ht)).mono ?_
  rintro b g ⟨b', rfl, h1, h2⟩
  refine ⟨h1, ?_, (crv_bf e2).trans h2.bf⟩
  have h3 : rdC (nw l) g.2 E = rdC (nw l) m1 E := by
    have hb := h2.bf
    change Crv.mk _ _ = Crv.mk _ _
    exact congr (congrArg Crv.mk (hb.rdF (addr_below (i := 0) (k := 0) hL (by simp)) (by simp)))
      (hb.rdF (addr_below (i := 1) (k := 0) hL (by simp)) (by simp))
  rw [h3, crv_rd e2]
  exact ⟨(rdPF_v m a).n, WCurve.one_v⟩

theorem encJM_f {E j s : ℕ} (m : Mem) (hL : Layout (nw l) s [E, E + 2 * nw l]) (hj : j + sz l ≤ 8 * s) {E' : Crv l.F}
    (h : VC l (rdC (nw l) m E) E') :
    rdBytes (encJM l E j s m) j (sz l) = flat (Protocol.encJ l E') ∧ BF s [(j, sz l)] m (encJM l E j s m) := by
  obtain ⟨h1, h2⟩ := encJM_spec m hL hj
  refine ⟨?_, h2⟩
  have hv : V l 2 (WCurve.jInv l (rdF (nw l) m E) (rdF (nw l) m (E + 2 * nw l))) (Curve.jInv E'.A E'.C) := WCurve.jInv_ref h.A.wide h.C
  have hv := hv.mono (show 2 ≤ 120 by norm_num)
  have g := good l
  rw [h1, fp2encode_of l (fromMont_spec g hv.rng.c0) (fromMont_spec g hv.rng.c1), hv.val]
  rfl

/-! ## `Unpack_Response` -/

/-- The places of the arguments: all below `s`; `*which` and `*comm` are apart from each other and from the strings and the response. -/
structure RespArgs (l : Level) (s E0 E1 r which comm : ℕ) : Prop where
  in_E0 : E0 + sz l ≤ 8 * s
  in_E1 : E1 + sz l ≤ 8 * s
  in_r : r + respSize l ≤ 8 * s
  in_which : which + 1 ≤ 8 * s
  in_comm : comm + ((params l).hash + (params l).hash) ≤ 8 * s
  which_E0 : which + 1 ≤ E0 ∨ E0 + sz l ≤ which
  which_E1 : which + 1 ≤ E1 ∨ E1 + sz l ≤ which
  which_r : which + 1 ≤ r ∨ r + respSize l ≤ which
  which_comm : which + 1 ≤ comm ∨ comm + ((params l).hash + (params l).hash) ≤ which
  comm_r : comm + ((params l).hash + (params l).hash) ≤ r ∨ r + respSize l ≤ comm

/-- What `Unpack_Response` does: it writes `*which` and `*comm`, and changes nothing else. -/
def RespRes (l : Level) (s which comm : ℕ) (m : Mem) : Option (Int × Comm) → Bool × Mem → Prop
  | none, (false, m') => BF s [(which, 1), (comm, (params l).hash + (params l).hash)] m m'
  | some o, (true, m') => i8 (byteAt m' which) = o.1 ∧ rdBytes m' comm ((params l).hash + (params l).hash) = o.2.h2 ++ o.2.h3 ∧
      BF s [(which, 1), (comm, (params l).hash + (params l).hash)] m m'
  | _, _ => False

theorem i8_left (b : UInt8) : i8 b = -1 ↔ b = tagLeft :=
  ⟨fun h => i8_inj (h.trans (by decide)), fun h => by rw [h]; decide⟩
theorem i8_bottom (b : UInt8) : i8 b = 0 ↔ b = tagBottom :=
  ⟨fun h => i8_inj (h.trans (by decide)), fun h => by rw [h]; decide⟩
theorem i8_right (b : UInt8) : i8 b = 1 ↔ b = tagRight :=
  ⟨fun h => i8_inj (h.trans (by decide)), fun h => by rw [h]; decide⟩

theorem uni_left : (params l).hide + (params l).hash + (params l).height * sz l ≤ uniSize l := le_max_left _ _
theorem uni_bottom : (params l).hide + (params l).hide + sz l + (params l).width * sz l ≤ uniSize l := le_max_right _ _

theorem BF.byte {s : ℕ} {W : List (ℕ × ℕ)} {m m' : Mem} (h : BF s W m m') {x : ℕ} (hx : x < 8 * s)
    (hw : ∀ w ∈ W, x < w.1 ∨ w.1 + w.2 ≤ x) : byteAt m' x = byteAt m x := h x hx hw

theorem BF.rdC {s : ℕ} {W : List (ℕ × ℕ)} {m m' : Mem} (h : BF s W m m') {n a : ℕ} (ha : a + 2 * n + 2 * n ≤ s)
    (hw : ∀ w ∈ W, 8 * (a + 2 * n + 2 * n) ≤ w.1 ∨ w.1 + w.2 ≤ 8 * a) : rdC n m' a = rdC n m a := by
  change Crv.mk _ _ = Crv.mk _ _
  exact congr (congrArg Crv.mk (h.rdF (by omega) fun w hwW => by have := hw w hwW; omega))
    (h.rdF (by omega) fun w hwW => by have := hw w hwW; omega)

theorem sz_le : sz l ≤ 16 * nw l := by
  have h := (half_bounds l).2.1
  have hs : sz l = half (tables l) + half (tables l) := rfl
  have en : (tables l).n = nw l := rfl
  omega

theorem Str.below {n s S : ℕ} {L : List ℕ} {x len : ℕ} (h : x + len ≤ 8 * s) (hs : s ≤ S) (hL : ∀ a ∈ L, s ≤ a) : Str n S L x len :=
  ⟨by omega, fun a ha => by have := hL a ha; omega⟩

section
variable {s E0 E1 r which comm : ℕ} {m : Mem}

/-- After `*which` has been written -/
theorem RespArgs.tag (hA : RespArgs l s E0 E1 r which comm) :
    ∃ m1, setByte m which (byteAt m r) = m1 ∧ byteAt m1 which = byteAt m r ∧ BF (loc (nw l) s 6) [(which, 1)] m m1 ∧ rdPF l m1 E0 = rdPF l m E0 ∧
      rdPF l m1 E1 = rdPF l m E1 ∧ ∀ a b, r ≤ a → a + b ≤ r + respSize l → rdBytes m1 a b = rdBytes m a b := by
  have hb := setByte_bf (s := loc (nw l) s 6) (x := which) (byteAt m r) m
  have h6 : loc (nw l) s 6 = s + 12 * nw l := by rw [loc_eq]; omega
  refine ⟨_, rfl, by rw [byteAt_setByte, if_pos rfl], hb, ?_, ?_, ?_⟩
  · have := hA.in_E0; have := hA.which_E0
    exact hb.pf (by omega) (by simp; omega)
  · have := hA.in_E1; have := hA.which_E1
    exact hb.pf (by omega) (by simp; omega)
  · intro a b h1 h2
    have := hA.in_r; have := hA.which_r
    exact hb.bytes (by omega) (by simp; omega)

/-- The end of a run that returns true -/
theorem RespRes.mk {o : Int × Comm} {m' : Mem} {m1 : Mem} (hA : RespArgs l s E0 E1 r which comm) {b : UInt8} (hb : byteAt m1 which = b)
    (ho : o.1 = i8 b) {W : List (ℕ × ℕ)}
    (hW : ∀ w ∈ W, 8 * s ≤ w.1 ∨ (comm ≤ w.1 ∧ w.1 + w.2 ≤ comm + ((params l).hash + (params l).hash)))
    (h1 : BF (loc (nw l) s 6) [(which, 1)] m m1) (h2 : BF (loc (nw l) s 6) W m1 m') (e2 : rdBytes m' comm (params l).hash = o.2.h2)
    (e3 : rdBytes m' (comm + (params l).hash) (params l).hash = o.2.h3) : RespRes l s which comm m (some o) (true, m') := by
  have h6 : loc (nw l) s 6 = s + 12 * nw l := by rw [loc_eq]; omega
  have i1 := hA.in_which
  have i2 := hA.which_comm
  refine ⟨?_, ?_, ?_⟩
  · rw [h2.byte (by omega) fun w hw => by have := hW w hw; omega, hb, ho]
  · rw [rdBytes_append, e2, e3]
  · refine (h1.trans h2).mono (by omega) fun w hw => ?_
    rcases List.mem_append.1 hw with hw | hw
    · rw [List.mem_singleton.1 hw]
      exact Or.inr ⟨_, List.mem_cons_self, le_refl _, le_refl _⟩
    · rcases hW w hw with h | h
      · exact Or.inl h
      · exact Or.inr ⟨_, List.mem_cons_of_mem _ (List.mem_singleton.2 rfl), h.1, h.2⟩

/-- The end of a run that returns false -/
theorem RespRes.no {m' : Mem} {m1 : Mem} {W : List (ℕ × ℕ)} (hW : ∀ w ∈ W, 8 * s ≤ w.1)
    (h1 : BF (loc (nw l) s 6) [(which, 1)] m m1) (h2 : BF (loc (nw l) s 6) W m1 m') : RespRes l s which comm m none (false, m') := by
  have h6 : loc (nw l) s 6 = s + 12 * nw l := by rw [loc_eq]; omega
  refine (h1.trans h2).mono (by omega) fun w hw => ?_
  rcases List.mem_append.1 hw with hw | hw
  · rw [List.mem_singleton.1 hw]
    exact Or.inr ⟨_, List.mem_cons_self, le_refl _, le_refl _⟩
  · exact Or.inl (hW w hw)

theorem rdPFs_congr {m m' : Mem} {x n : ℕ} (h : ∀ a b, x ≤ a → a + b ≤ x + n * sz l → rdBytes m' a b = rdBytes m a b) :
    rdPFs l m' x n = rdPFs l m x n := by
  refine List.map_congr_left fun i hi => ?_
  have hi := List.mem_range.1 hi
  have : i * sz l + sz l ≤ n * sz l := by rw [← Nat.succ_mul]; exact Nat.mul_le_mul_right _ hi
  exact rdPF_congr (h _ _ (by omega) (by omega))

attribute [local irreducible] byteAt setByte i8 Protocol.int8 rdInt in
theorem unpackResponseM_f (H : Hash) (hH : ∀ n x, (H.out n x).length = n) (pmem : Protocol.Mem l) (hA : RespArgs l s E0 E1 r which comm)
    {t : Tape Draw} (ht : TapeLen l t) (m : Mem) :
    FRes l (RespRes l s which comm m) (Protocol.unpackResponse l H pmem (rdPF l m E0) (rdPF l m E1) (rdResp l m r) (fieldTape l t))
      (unpackResponseM l H E0 E1 r which comm s t m) := by
  obtain ⟨m1, em, ew, b1, p0, p1, pr⟩ := hA.tag (m := m)
  have h6 : loc (nw l) s 6 = s + 12 * nw l := by rw [loc_eq]; omega
  have h5 : loc (nw l) s 5 = s + 10 * nw l := by rw [loc_eq]; omega
  have h4 : loc (nw l) s 4 = s + 8 * nw l := by rw [loc_eq]; omega
  have h2 : loc (nw l) s 2 = s + 4 * nw l := by rw [loc_eq]; omega
  have h0 : loc (nw l) s 0 = s := by rw [loc_eq]; omega
  have hsz := sz_le (l := l)
  have hul := uni_left (l := l)
  have hub := uni_bottom (l := l)
  have hus := uniSize_le (l := l) r
  have hu : uni r = r + 4 := rfl
  have i0 := hA.in_E0
  have i1 := hA.in_E1
  have i2 := hA.in_r
  have i3 := hA.in_which
  have i4 := hA.in_comm
  have i5 := hA.comm_r
  have i6 := hA.which_comm
  have hL : Layout (nw l) s [] := ⟨by simp, by simp⟩
  have hL0 : Layout (nw l) (loc (nw l) s 6) (argU l (loc (nw l) s 0)) := hL.call 6 [0, 1] (by decide) rfl
  have hL2 : Layout (nw l) (loc (nw l) s 6) (argU l (loc (nw l) s 2)) := hL.call 6 [2, 3] (by decide) rfl
  have hstr : ∀ {x len : ℕ}, x + len ≤ 8 * s → Str (nw l) (loc (nw l) s 6) (argU l (loc (nw l) s 0)) x len := fun h =>
    Str.below h (by omega) (by simp [argU]; omega)
  have hstr2 : ∀ {x len : ℕ}, x + len ≤ 8 * s → Str (nw l) (loc (nw l) s 6) (argU l (loc (nw l) s 2)) x len := fun h =>
    Str.below h (by omega) (by simp [argU]; omega)
  have et := int8_tag (l := l) m r
  have el1 : (rdResp l m r).leftChain = rdPFs l m1 (uni r + (params l).hide + (params l).hash) (params l).height :=
    (rdPFs_congr fun a b h1 h2 => pr a b (by omega) (by omega)).symm
  have el2 : (rdResp l m r).leftR2 = rdBytes m1 (uni r) (params l).hide := (pr _ _ (by omega) (by omega)).symm
  have el3 : (rdResp l m r).leftH3 = rdBytes m1 (uni r + (params l).hide) (params l).hash := (pr _ _ (by omega) (by omega)).symm
  have eb1 : (rdResp l m r).bottomChain = rdPFs l m1 (uni r + (params l).hide + (params l).hide + sz l) (params l).width :=
    (rdPFs_congr fun a b h1 h2 => pr a b (by omega) (by omega)).symm
  have eb2 : (rdResp l m r).bottomR2 = rdBytes m1 (uni r) (params l).hide := (pr _ _ (by omega) (by omega)).symm
  have eb3 : (rdResp l m r).bottomR3 = rdBytes m1 (uni r + (params l).hide) (params l).hide := (pr _ _ (by omega) (by omega)).symm
  have eb4 : (rdResp l m r).bottomE2 = rdPF l m1 (uni r + (params l).hide + (params l).hide) :=
    (rdPF_congr (pr _ _ (by omega) (by omega))).symm
  have er1 : (rdResp l m r).rightChain = rdPFs l m1 (uni r + (params l).hash + (params l).hide) (params l).height :=
    (rdPFs_congr fun a b h1 h2 => pr a b (by omega) (by omega)).symm
  have er2 : (rdResp l m r).rightH2 = rdBytes m1 (uni r) (params l).hash := (pr _ _ (by omega) (by omega)).symm
  have er3 : (rdResp l m r).rightR3 = rdBytes m1 (uni r + (params l).hash) (params l).hide := (pr _ _ (by omega) (by omega)).symm
  rw [← p0, ← p1]
  simp only [Protocol.unpackResponse, unpackResponseM]
  rw [em, ew, et, el1, el2, el3, eb1, eb2, eb3, eb4, er1, er2, er3]
  by_cases c1 : byteAt m r = tagLeft
  · rw [if_pos c1, if_pos ((i8_left _).2 c1)]
    refine (unpackChainBM_f pmem.pts hL0 (hstr i0) (hstr (by omega)) ht m1).bind fun o q t ht h => ?_
    obtain ⟨b, m2⟩ := q
    rcases o with _ | x <;> rcases b with _ | _ <;> simp only [ChainF] at h
    · exact ⟨ht, rfl, RespRes.no (by simp; omega) b1 h⟩
    · obtain ⟨hx, b2⟩ := h
      refine ⟨ht, rfl, ?_⟩
      dsimp only
      obtain ⟨a3, b3⟩ := encJM_f (j := 8 * loc (nw l) s 4) m2 hL0 (by omega) hx
      generalize encJM l (loc (nw l) s 0) (8 * loc (nw l) s 4) (loc (nw l) s 6) m2 = m3 at a3 b3 ⊢
      obtain ⟨a4, b4⟩ := hashHidingM_spec (l := l) H hH (r := uni r) (v := 8 * loc (nw l) s 4) (h := comm) (s := loc (nw l) s 6) m3 (by omega) (by omega)
      generalize hashHidingM l H (uni r) (8 * loc (nw l) s 4) comm (loc (nw l) s 6) m3 = m4 at a4 b4 ⊢
      obtain ⟨a5, b5⟩ := memcpyM_bf (s := loc (nw l) s 6) (len := (params l).hash) (dst := comm + (params l).hash) (src := uni r + (params l).hide) m4
        (by omega)
      generalize memcpyM (params l).hash (comm + (params l).hash) (uni r + (params l).hide) m4 = m5 at a5 b5 ⊢
      have b13 := b2.trans b3
      refine RespRes.mk hA ew rfl ?_ b1 ((b13.trans b4).trans b5) ?_ ?_
      · simp; omega
      · rw [b5.bytes (by omega) (by simp), a4, a3, b13.bytes (by omega) (by simp; omega)]
        rfl
      · rw [a5, (b13.trans b4).bytes (by omega) (by simp; omega)]
  rw [if_neg c1, if_neg (fun h => c1 ((i8_left _).1 h))]
  by_cases c2 : byteAt m r = tagBottom
  · rw [if_pos c2, if_pos ((i8_bottom _).2 c2)]
    refine (unpackCurveM_f pmem hL0 (a := uni r + (params l).hide + (params l).hide) (hstr (by omega)) ht m1).bind fun o q t ht h => ?_
    obtain ⟨b, m2⟩ := q
    obtain ⟨rfl, hE, b2⟩ := h
    dsimp only at hE b2 ⊢
    by_cases hb : o = false
    · subst hb
      exact ⟨ht, rfl, RespRes.no (by simp; omega) b1 b2⟩
    rw [if_neg hb, if_neg hb]
    have q1 : rdPF l m2 (uni r + (params l).hide + (params l).hide) = rdPF l m1 (uni r + (params l).hide + (params l).hide) :=
      b2.pf (by omega) (by simp; omega)
    have q2 : rdPFs l m2 (uni r + (params l).hide + (params l).hide + sz l) (params l).width =
        rdPFs l m1 (uni r + (params l).hide + (params l).hide + sz l) (params l).width := b2.pfs (by omega) (by simp; omega)
    have hc := unpackChainAM_f pmem.pts hL2 (n := (params l).width) (E0 := uni r + (params l).hide + (params l).hide)
      (x := uni r + (params l).hide + (params l).hide + sz l) (hstr2 (by omega)) (hstr2 (by omega)) ht m2
    rw [q1, q2] at hc
    refine hc.bind fun o q t ht h => ?_
    obtain ⟨b, m3⟩ := q
    rcases o with _ | x <;> rcases b with _ | _ <;> simp only [ChainF] at h
    · exact ⟨ht, rfl, RespRes.no (by simp; omega) b1 (b2.trans h)⟩
    · obtain ⟨hx, b3⟩ := h
      refine ⟨ht, rfl, ?_⟩
      dsimp only
      have hE3 : VC l (rdC (nw l) m3 (loc (nw l) s 0)) ⟨Protocol.decode l (rdPF l m1 (uni r + (params l).hide + (params l).hide)), 1⟩ := by
        rw [b3.rdC (by omega) (by simp; omega)]
        exact hE
      obtain ⟨a4, b4⟩ := encJM_f (j := 8 * loc (nw l) s 4) m3 hL0 (by omega) hE3
      generalize encJM l (loc (nw l) s 0) (8 * loc (nw l) s 4) (loc (nw l) s 6) m3 = m4 at a4 b4 ⊢
      have hx4 : VC l (rdC (nw l) m4 (loc (nw l) s 2)) x := by
        rw [b4.rdC (by omega) (by simp; omega)]
        exact hx
      obtain ⟨a5, b5⟩ := encJM_f (j := 8 * loc (nw l) s 5) m4 hL2 (by omega) hx4
      generalize encJM l (loc (nw l) s 2) (8 * loc (nw l) s 5) (loc (nw l) s 6) m4 = m5 at a5 b5 ⊢
      obtain ⟨a6, b6⟩ := hashHidingM_spec (l := l) H hH (r := uni r) (v := 8 * loc (nw l) s 4) (h := comm) (s := loc (nw l) s 6) m5 (by omega) (by omega)
      generalize hashHidingM l H (uni r) (8 * loc (nw l) s 4) comm (loc (nw l) s 6) m5 = m6 at a6 b6 ⊢
      obtain ⟨a7, b7⟩ := hashHidingM_spec (l := l) H hH (r := uni r + (params l).hide) (v := 8 * loc (nw l) s 5) (h := comm + (params l).hash)
        (s := loc (nw l) s 6) m6 (by omega) (by omega)
      generalize hashHidingM l H (uni r + (params l).hide) (8 * loc (nw l) s 5) (comm + (params l).hash) (loc (nw l) s 6) m6 = m7 at a7 b7 ⊢
      have b15 := ((b2.trans b3).trans b4).trans b5
      refine RespRes.mk hA ew rfl ?_ b1 ((b15.trans b6).trans b7) ?_ ?_
      · simp; omega
      · rw [b7.bytes (by omega) (by simp), a6, b5.bytes (x := 8 * loc (nw l) s 4) (by omega) (by simp; omega), a4,
          b15.bytes (by omega) (by simp; omega)]
        rfl
      · rw [a7, b6.bytes (x := 8 * loc (nw l) s 5) (by omega) (by simp; omega), a5, (b15.trans b6).bytes (by omega) (by simp; omega)]
        rfl
  rw [if_neg c2, if_neg (fun h => c2 ((i8_bottom _).1 h))]
  by_cases c3 : byteAt m r = tagRight
  · rw [if_pos c3, if_pos ((i8_right _).2 c3)]
    refine (unpackChainBM_f pmem.pts hL2 (hstr2 i1) (hstr2 (by omega)) ht m1).bind fun o q t ht h => ?_
    obtain ⟨b, m2⟩ := q
    rcases o with _ | x <;> rcases b with _ | _ <;> simp only [ChainF] at h
    · exact ⟨ht, rfl, RespRes.no (by simp; omega) b1 h⟩
    · obtain ⟨hx, b2⟩ := h
      refine ⟨ht, rfl, ?_⟩
      dsimp only
      obtain ⟨a3, b3⟩ := memcpyM_bf (s := loc (nw l) s 6) (len := (params l).hash) (dst := comm) (src := uni r) m2 (by omega)
      generalize memcpyM (params l).hash comm (uni r) m2 = m3 at a3 b3 ⊢
      have hx3 : VC l (rdC (nw l) m3 (loc (nw l) s 2)) x := by
        rw [b3.rdC (by omega) (by simp; omega)]
        exact hx
      obtain ⟨a4, b4⟩ := encJM_f (j := 8 * loc (nw l) s 5) m3 hL2 (by omega) hx3
      generalize encJM l (loc (nw l) s 2) (8 * loc (nw l) s 5) (loc (nw l) s 6) m3 = m4 at a4 b4 ⊢
      obtain ⟨a5, b5⟩ := hashHidingM_spec (l := l) H hH (r := uni r + (params l).hash) (v := 8 * loc (nw l) s 5) (h := comm + (params l).hash)
        (s := loc (nw l) s 6) m4 (by omega) (by omega)
      generalize hashHidingM l H (uni r + (params l).hash) (8 * loc (nw l) s 5) (comm + (params l).hash) (loc (nw l) s 6) m4 = m5 at a5 b5 ⊢
      have b14 := (b2.trans b3).trans b4
      refine RespRes.mk hA ew rfl ?_ b1 (b14.trans b5) ?_ ?_
      · simp; omega
      · rw [(b4.trans b5).bytes (by omega) (by simp; omega), a3, b2.bytes (by omega) (by simp; omega)]
      · rw [a5, a4, b14.bytes (by omega) (by simp; omega)]
        rfl
  rw [if_neg c3, if_neg (fun h => c3 ((i8_right _).1 h))]
  exact ⟨ht, rfl, RespRes.no (W := []) (by simp) b1 (BF.refl _ _)⟩
end

end Secuer.CMem
