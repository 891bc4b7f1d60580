import Verif.Kem.Model
import Verif.Props.KeccakProps

/-!
# Properties of the key encapsulation (C57, C58)
-/

namespace Secuer.KemProps

open Secuer.Text Secuer.Protocol Secuer.Kem Secuer.Scalar Secuer.Util

/-- The four parameter sets -/
def Known (P : Sizes) : Prop := P = sizes434 ∨ P = sizes503 ∨ P = sizes610 ∨ P = sizes751

/-- What the callers and the functions called have to provide: outputs have the documented lengths. -/
structure Lengths (H : Hash) (K : Kex) (P : Sizes) : Prop where
  hash : ∀ n x, (H.out n x).length = n
  genA : ∀ k, (K.genA k).length = P.pk
  genB : ∀ k, (K.genB k).length = P.pk

/-! ### Specification -/

/-- Bytewise exclusive or -/
def xor (a b : Bytes) : Bytes := List.zipWith (· ^^^ ·) a b

/-- The ephemeral key belonging to the message `m` and the public key: hash, with the unused bits of the last byte cleared -/
def ephemeral (H : Hash) (P : Sizes) (m pk : Bytes) : Bytes :=
  let k := H.out P.skA (m ++ pk)
  k.dropLast ++ (k.getLast?.map (· &&& P.maskA)).toList

/-- The message that a ciphertext `c₀ ‖ c₁` carries for the shared j-invariant `j` -/
def message (H : Hash) (P : Sizes) (j c₁ : Bytes) : Bytes := xor c₁ (H.out P.msg j)

/-- The ciphertext is the encryption of `m` with the key derived from `m`. -/
def Genuine (H : Hash) (K : Kex) (P : Sizes) (skB pk c₀ c₁ m : Bytes) : Prop :=
  ∃ j, K.agreeB skB c₀ = some j ∧ m = message H P j c₁ ∧ K.genA (ephemeral H P m pk) = c₀

/-! ### Lemmas -/

theorem maskLast_eq (mask : UInt8) : ∀ bs : Bytes, maskLast mask bs = bs.dropLast ++ (bs.getLast?.map (· &&& mask)).toList
  | [] => rfl
  | [b] => rfl
  | b :: c :: bs => by
    rw [maskLast, maskLast_eq mask (c :: bs)]
    · simp [List.dropLast, List.getLast?_cons_cons]
    · simp

theorem xorBytes_eq : ∀ a b : Bytes, xorBytes a b = xor a b
  | [], _ => by simp [xorBytes, xor]
  | _ :: _, [] => by simp [xorBytes, xor]
  | a :: as, b :: bs => by
    rw [xorBytes, xorBytes_eq as bs]
    rfl

theorem xor_length {a b : Bytes} {n : ℕ} (ha : a.length = n) (hb : b.length = n) : (xor a b).length = n := by
  rw [xor, List.length_zipWith, ha, hb, Nat.min_self]

theorem xor_xor : ∀ {a b : Bytes}, a.length = b.length → xor (xor a b) b = a
  | [], [], _ => rfl
  | a :: as, b :: bs, h => by
    have := xor_xor (a := as) (b := bs) (by simpa using h)
    simp only [xor, List.zipWith_cons_cons] at this ⊢
    rw [this, UInt8.xor_assoc, UInt8.xor_self, UInt8.xor_zero]

theorem slice_mid {a b c : Bytes} {i n : ℕ} (ha : a.length = i) (hb : b.length = n) : slice (a ++ b ++ c) i n = some b := by
  unfold slice
  rw [if_pos (by simp only [List.length_append]; omega), List.append_assoc, List.drop_left' ha, List.take_left' hb]

theorem slice_left {b c : Bytes} {n : ℕ} (hb : b.length = n) : slice (b ++ c) 0 n = some b :=
  slice_mid (a := []) rfl hb

theorem slice_all {b : Bytes} {n : ℕ} (hb : b.length = n) : slice b 0 n = some b := by
  have := slice_left (c := []) hb
  rwa [List.append_nil] at this

theorem put_split {a b c bs : Bytes} {i : ℕ} (ha : a.length = i) (hb : b.length = bs.length) :
    put (a ++ b ++ c) i bs = some (a ++ bs ++ c) := by
  unfold put blit
  rw [if_pos (by simp only [List.length_append]; omega), List.append_assoc a b c, List.take_left' ha, ← List.append_assoc a b c,
    List.drop_left' (by simp only [List.length_append]; omega)]

/-- Writing at the front -/
theorem put_front {buf bs : Bytes} (h : bs.length ≤ buf.length) : put buf 0 bs = some (bs ++ buf.drop bs.length) := by
  unfold put blit
  rw [if_pos (by omega)]
  simp

/-- Writing behind what is known -/
theorem put_next {a rest bs : Bytes} {i : ℕ} (ha : a.length = i) (h : bs.length ≤ rest.length) :
    put (a ++ rest) i bs = some (a ++ bs ++ rest.drop bs.length) := by
  have e : rest = rest.take bs.length ++ rest.drop bs.length := (List.take_append_drop _ _).symm
  conv_lhs => rw [e, ← List.append_assoc]
  rw [put_split ha (by rw [List.length_take]; omega)]

variable {H : Hash} {K : Kex} {P : Sizes}

theorem Known.ct (h : Known P) : P.ct = P.pk + P.msg := by rcases h with rfl | rfl | rfl | rfl <;> rfl
theorem Known.sk (h : Known P) : P.sk = P.msg + P.skB + P.pk := by rcases h with rfl | rfl | rfl | rfl <;> rfl

theorem ephemeral_length (hL : Lengths H K P) (m pk : Bytes) : (ephemeral H P m pk).length = P.skA := by
  unfold ephemeral
  have : (H.out P.skA (m ++ pk)).length = P.skA := hL.hash _ _
  generalize H.out P.skA (m ++ pk) = k at this
  cases k using List.reverseRecOn with
  | nil => simpa using this
  | append_singleton k x => simpa using this

/-- What the code does after the label `Hashing`. -/
theorem finish (hP : Known P) (hL : Lengths H K P) {m rest s skB pk c₀ c₁ ss₀ : Bytes} {sel : UInt8}
    (hm : m.length = P.msg) (hr : rest.length = P.ct) (hs : s.length = P.msg) (hc0 : c₀.length = P.pk)
    (hc1 : c₁.length = P.msg) (hss : ss₀.length = P.ss) :
    (do
      let m' ← slice (m ++ rest) 0 P.msg
      let s' ← slice (s ++ skB ++ pk) 0 P.msg
      let temp ← put (m ++ rest) 0 (ctCmov sel m' s')
      let ct' ← slice (c₀ ++ c₁) 0 P.ct
      let temp ← put temp P.msg ct'
      let inp ← slice temp 0 (P.ct + P.msg)
      let ss ← put ss₀ 0 (H.out P.ss inp)
      pure ((0 : ℕ), ss)) = some (0, H.out P.ss (ctCmov sel m s ++ (c₀ ++ c₁))) := by
  have hlen : ∀ a b : Bytes, a.length = b.length → (ctCmov sel a b).length = a.length := by
    intro a
    induction a with
    | nil => intro b _; cases b <;> rfl
    | cons x a ih =>
      intro b hb
      cases b with
      | nil => simp at hb
      | cons y b => rw [ctCmov, List.length_cons, List.length_cons, ih b (by simpa using hb)]
  have h1 : (ctCmov sel m s).length = P.msg := by rw [hlen m s (by rw [hm, hs]), hm]
  have hct := hP.ct
  have hc : (c₀ ++ c₁).length = P.ct := by rw [List.length_append]; omega
  rw [slice_left hm, List.append_assoc s, slice_left hs]
  simp only [Option.bind_eq_bind, Option.bind_some]
  rw [put_front (by rw [List.length_append]; omega), h1, List.drop_left' hm, Option.bind_some, slice_all hc, Option.bind_some,
    put_next h1 (by omega), Option.bind_some, slice_left (by rw [List.length_append]; omega), Option.bind_some,
    put_front (by rw [hL.hash]; omega), hL.hash, List.drop_eq_nil_of_le (by omega), List.append_nil]
  rfl

/-! ## C57 -/

/-- **C57.** `crypto_kem_dec` never signals a rejection: for all keys and ciphertexts of the right lengths, and whatever was in
memory, it returns 0 and a shared secret; the secret is derived from the decrypted message if the ciphertext is genuine and from
the stored string `s` if it is not. -/
theorem C57_decapsulation (hP : Known P) (hL : Lengths H K P) (temp₀ ss₀ s skB pk c₀ c₁ : Bytes)
    (ht : temp₀.length = P.ct + P.msg) (hss : ss₀.length = P.ss) (hs : s.length = P.msg) (hk : skB.length = P.skB)
    (hpk : pk.length = P.pk) (hc0 : c₀.length = P.pk) (hc1 : c₁.length = P.msg) :
    ∃ ss, dec H K P temp₀ ss₀ (c₀ ++ c₁) (s ++ skB ++ pk) = some (0, ss) ∧
      (∀ m, Genuine H K P skB pk c₀ c₁ m → ss = H.out P.ss (m ++ (c₀ ++ c₁))) ∧
      ((¬ ∃ m, Genuine H K P skB pk c₀ c₁ m) → ss = H.out P.ss (s ++ (c₀ ++ c₁))) := by
  have hct := hP.ct
  unfold dec
  rw [slice_mid hs hk, slice_left hc0]
  simp only [Option.bind_eq_bind, Option.bind_some]
  cases hj : K.agreeB skB c₀ with
  | none =>
    dsimp only [Option.pure_def, Option.bind_some]
    obtain ⟨m, rest, rfl, hm⟩ : ∃ m rest, temp₀ = m ++ rest ∧ m.length = P.msg :=
      ⟨temp₀.take P.msg, temp₀.drop P.msg, (List.take_append_drop _ _).symm, by rw [List.length_take]; omega⟩
    have hr : rest.length = P.ct := by rw [List.length_append] at ht; omega
    have := finish (skB := skB) (pk := pk) (sel := 255) hP hL hm hr hs hc0 hc1 hss
    simp only [Option.bind_eq_bind, Option.pure_def] at this
    refine ⟨_, this, ?_, ?_⟩
    · rintro m' ⟨j, h, -⟩
      rw [hj] at h
      cases h
    · intro _
      rw [(C53_ct_cmov m s (by rw [hm, hs])).1]
  | some j =>
    have hx : (xorBytes c₁ (H.out P.msg j)).length = P.msg := by rw [xorBytes_eq]; exact xor_length hc1 (hL.hash _ _)
    have hm' : xorBytes c₁ (H.out P.msg j) = message H P j c₁ := by rw [xorBytes_eq]; rfl
    rw [hm'] at hx
    have e1 : slice (c₀ ++ c₁) P.pk P.msg = some c₁ := by
      have := slice_mid (c := []) hc0 hc1
      rwa [List.append_nil] at this
    have e2 : slice (s ++ skB ++ pk) (P.msg + P.skB) P.pk = some pk := by
      have := slice_mid (a := s ++ skB) (c := []) (i := P.msg + P.skB) (by rw [List.length_append]; omega) hpk
      rwa [List.append_nil] at this
    dsimp only
    rw [e1, Option.bind_some, hm', put_front (by omega), Option.bind_some, e2, Option.bind_some,
      put_next hx (by rw [List.length_drop]; omega), Option.bind_some,
      slice_left (by rw [List.length_append]; omega), Option.bind_some]
    simp only [Option.pure_def, Option.bind_some, hx, hpk]
    rw [List.append_assoc (message H P j c₁)]
    have := finish (skB := skB) (pk := pk) (rest := pk ++ List.drop P.pk (List.drop P.msg temp₀))
      (sel := UInt8.ofBitVec (ctCompare (K.genA (maskLast P.maskA (H.out P.skA (message H P j c₁ ++ pk)))) c₀))
      hP hL hx (by rw [List.length_append, List.length_drop, List.length_drop]; omega) hs hc0 hc1 hss
    simp only [Option.bind_eq_bind, Option.pure_def] at this
    refine ⟨_, this, ?_, ?_⟩
    · rintro m ⟨j', h, rfl, hg⟩
      rw [hj] at h
      cases h
      rw [show maskLast P.maskA (H.out P.skA (message H P j c₁ ++ pk)) = ephemeral H P (message H P j c₁) pk from
        maskLast_eq _ _]
      rw [C53_ct_compare _ _ (by rw [hL.genA, hc0]), if_pos hg]
      rw [show UInt8.ofBitVec 0#8 = 0 from rfl, (C53_ct_cmov _ s (by rw [hx, hs])).2]
    · intro hn
      have hg : K.genA (ephemeral H P (message H P j c₁) pk) ≠ c₀ := fun e => hn ⟨_, j, hj, rfl, e⟩
      rw [show maskLast P.maskA (H.out P.skA (message H P j c₁ ++ pk)) = ephemeral H P (message H P j c₁) pk from
        maskLast_eq _ _]
      rw [C53_ct_compare _ _ (by rw [hL.genA, hc0]), if_neg hg]
      rw [show UInt8.ofBitVec 255#8 = 255 from rfl, (C53_ct_cmov _ s (by rw [hx, hs])).1]

/-! ## C58 -/

/-- `crypto_kem_keypair` with working randomness returns 0 and a key pair of the documented form. -/
theorem C58_keypair (hP : Known P) (hL : Lengths H K P) (s b pk₀ sk₀ : Bytes) (hs : s.length = P.msg) (hb : b.length = P.skB)
    (h1 : pk₀.length = P.pk) (h2 : sk₀.length = P.sk) :
    ∃ skB, skB.length = P.skB ∧ (∀ i : ℕ, i + 1 < P.skB → skB[i]? = b[i]?) ∧
      keypair K P (some s) (some b) pk₀ sk₀ = some (0, K.genB skB, s ++ skB ++ K.genB skB) := by
  have hsk := hP.sk
  have hl : ∀ bs : Bytes, (maskLast P.maskB bs).length = bs.length := by
    intro bs
    rw [maskLast_eq]
    cases bs using List.reverseRecOn with
    | nil => rfl
    | append_singleton k x => simp
  refine ⟨maskLast P.maskB b, by rw [hl, hb], ?_, ?_⟩
  · intro i hi
    rw [maskLast_eq, List.getElem?_append_left (by rw [List.length_dropLast]; omega), List.getElem?_dropLast]
    rw [if_pos (by omega)]
  · have hm : (maskLast P.maskB b).length = P.skB := by rw [hl, hb]
    unfold keypair
    simp only [Option.bind_eq_bind]
    rw [put_front (by omega), Option.bind_some, put_next hs (by rw [List.length_drop]; omega), Option.bind_some,
      slice_mid hs hm, Option.bind_some, put_front (by rw [hL.genB]; omega), Option.bind_some, slice_left (hL.genB _),
      Option.bind_some, put_next (by rw [List.length_append]; omega) (by rw [hL.genB, List.length_drop, List.length_drop]; omega),
      Option.bind_some]
    rw [hL.genB, hm, hs, List.drop_eq_nil_of_le (by omega), List.drop_eq_nil_of_le (by simp only [List.length_drop]; omega),
      List.append_nil, List.append_nil]
    rfl

/-- `crypto_kem_enc` returns 0, a ciphertext `genA(e) ‖ m ⊕ H(j)` and `H(m ‖ ct)`, for the ephemeral key `e` of `m`. -/
theorem C58_encapsulation (hP : Known P) (hL : Lengths H K P) (m temp₀ ct₀ ss₀ pk : Bytes) (hm : m.length = P.msg)
    (ht : temp₀.length = P.ct + P.msg) (hc : ct₀.length = P.ct) (hss : ss₀.length = P.ss) (hpk : pk.length = P.pk) :
    ∃ c₀ c₁, c₀ = K.genA (ephemeral H P m pk) ∧ c₁ = xor m (H.out P.msg (K.agreeA (ephemeral H P m pk) pk)) ∧
      enc H K P (some m) temp₀ ct₀ ss₀ pk = some (0, c₀ ++ c₁, H.out P.ss (m ++ (c₀ ++ c₁))) := by
  refine ⟨_, _, rfl, rfl, ?_⟩
  have hct := hP.ct
  unfold enc
  simp only [Option.bind_eq_bind]
  rw [put_front (by omega), Option.bind_some, slice_all hpk, Option.bind_some, put_next hm (by rw [List.length_drop]; omega),
    Option.bind_some, slice_left (by rw [List.length_append]; omega), Option.bind_some]
  have e : maskLast P.maskA (H.out P.skA (m ++ pk)) = ephemeral H P m pk := maskLast_eq _ _
  rw [e]
  have hx : (xor m (H.out P.msg (K.agreeA (ephemeral H P m pk) pk))).length = P.msg := xor_length hm (hL.hash _ _)
  have hg := hL.genA (ephemeral H P m pk)
  have hd1 : List.drop P.msg (List.drop P.pk ct₀) = [] :=
    List.drop_eq_nil_of_le (by rw [List.length_drop]; omega)
  have hd2 : List.drop P.ss ss₀ = [] := List.drop_eq_nil_of_le (by omega)
  rw [put_front (by omega), Option.bind_some, List.append_assoc m, slice_left hm, Option.bind_some, xorBytes_eq,
    put_next hg (by rw [List.length_drop]; omega), Option.bind_some, hx, hg, hd1, List.append_nil,
    slice_all (by rw [List.length_append]; omega), Option.bind_some,
    put_next hm (by simp only [List.length_append, List.length_drop, hx, hg]; omega), Option.bind_some,
    slice_left (by simp only [List.length_append, hx, hg]; omega), Option.bind_some, put_front (by rw [hL.hash]; omega),
    Option.bind_some, hL.hash, hd2, List.append_nil]
  rfl

/-- **C58.** If the two sides of the key exchange agree on the j-invariant, decapsulating an honest ciphertext with the key pair
it was made for gives the shared secret of the encapsulation. -/
theorem C58_correct (hP : Known P) (hL : Lengths H K P) (s b m pk₀ sk₀ temp₀ temp₁ ct₀ ss₀ ss₁ : Bytes)
    (hs : s.length = P.msg) (hb : b.length = P.skB) (hm : m.length = P.msg) (h1 : pk₀.length = P.pk) (h2 : sk₀.length = P.sk)
    (ht : temp₀.length = P.ct + P.msg) (ht' : temp₁.length = P.ct + P.msg) (hc : ct₀.length = P.ct) (hss : ss₀.length = P.ss)
    (hss' : ss₁.length = P.ss) {pk sk ct ss : Bytes} (hkey : keypair K P (some s) (some b) pk₀ sk₀ = some (0, pk, sk))
    (henc : enc H K P (some m) temp₀ ct₀ ss₀ pk = some (0, ct, ss))
    (hagree : ∀ skB, sk = s ++ skB ++ pk →
      K.agreeB skB (K.genA (ephemeral H P m pk)) = some (K.agreeA (ephemeral H P m pk) pk)) :
    dec H K P temp₁ ss₁ ct sk = some (0, ss) := by
  obtain ⟨skB, hkB, -, e⟩ := C58_keypair hP hL s b pk₀ sk₀ hs hb h1 h2
  rw [e] at hkey
  cases hkey
  obtain ⟨c₀, c₁, e0, e1, e⟩ := C58_encapsulation hP hL m temp₀ ct₀ ss₀ (K.genB skB) hm ht hc hss (hL.genB _)
  rw [e] at henc
  cases henc
  have hc0 : c₀.length = P.pk := by rw [e0]; exact hL.genA _
  have hc1 : c₁.length = P.msg := by rw [e1]; exact xor_length hm (hL.hash _ _)
  obtain ⟨ss', hd, hgen, -⟩ := C57_decapsulation hP hL temp₁ ss₁ s skB (K.genB skB) c₀ c₁ ht' hss' hs hkB (hL.genB _) hc0 hc1
  rw [hd, hgen m ?_]
  have hag := hagree skB rfl
  refine ⟨_, by rw [e0]; exact hag, ?_, e0.symm⟩
  rw [message, e1, xor_xor (by rw [hm, hL.hash])]

/-! ### The premises can be met -/

/-- A toy key exchange with the right lengths in which the two sides agree (on an uninteresting value). -/
def toyKex (P : Sizes) : Kex where
  genA k := (k ++ List.replicate P.pk 0).take P.pk
  genB k := (k ++ List.replicate P.pk 1).take P.pk
  agreeA _ _ := [7]
  agreeB _ c := if c.length = P.pk then some [7] else none

theorem toy_lengths (P : Sizes) : Lengths KeccakProps.shakeHash (toyKex P) P := by
  refine ⟨fun n x => (KeccakProps.C13_hash n x).1, fun k => ?_, fun k => ?_⟩ <;>
    simp [toyKex]

example : ∃ pk sk ct ss, keypair (toyKex sizes434) sizes434 (some (List.replicate 16 1)) (some (List.replicate 28 2))
      (List.replicate 330 0) (List.replicate 374 0) = some (0, pk, sk) ∧
    enc KeccakProps.shakeHash (toyKex sizes434) sizes434 (some (List.replicate 16 3)) (List.replicate 362 0)
      (List.replicate 346 0) (List.replicate 16 0) pk = some (0, ct, ss) ∧
    (∀ skB, sk = List.replicate 16 1 ++ skB ++ pk →
      (toyKex sizes434).agreeB skB ((toyKex sizes434).genA (ephemeral KeccakProps.shakeHash sizes434 (List.replicate 16 3) pk)) =
        some ((toyKex sizes434).agreeA (ephemeral KeccakProps.shakeHash sizes434 (List.replicate 16 3) pk) pk)) := by
  have hL := toy_lengths sizes434
  have hP : Known sizes434 := .inl rfl
  obtain ⟨skB, -, -, h1⟩ := C58_keypair hP hL (List.replicate 16 1) (List.replicate 28 2) (List.replicate 330 0)
    (List.replicate 374 0) (by rw [List.length_replicate]; rfl) (by rw [List.length_replicate]; rfl) (by rw [List.length_replicate]; rfl) (by rw [List.length_replicate]; rfl)
  obtain ⟨c₀, c₁, -, -, h2⟩ := C58_encapsulation hP hL (List.replicate 16 3) (List.replicate 362 0) (List.replicate 346 0)
    (List.replicate 16 0) ((toyKex sizes434).genB skB) (by rw [List.length_replicate]; rfl) (by rw [List.length_replicate]; rfl) (by rw [List.length_replicate]; rfl)
    (by rw [List.length_replicate]; rfl) (hL.genB _)
  refine ⟨_, _, _, _, h1, h2, fun skB _ => ?_⟩
  change (if _ then _ else _) = _
  rw [if_pos (hL.genA _)]
  rfl

end Secuer.KemProps
