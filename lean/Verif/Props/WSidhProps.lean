import Verif.Sidh.WRefine
import Verif.Props.SidhProps
import Verif.Props.BuildProps

/-!
# The key exchange and the key encapsulation on words, in both builds (C81, C82)

`Secuer.SidhProps` is about the model over the field. Here the functions of `sidh.c` are those of `Verif.Sidh.WModel`, with the
routines of the portable build or of the default build for x86-64.
-/

namespace Secuer.WSidhProps

set_option maxRecDepth 100000

open Secuer.Word Secuer.Field Secuer.Text Secuer.Scalar Secuer.Mont Secuer.Kem Secuer.SidhProps
open Secuer.BuildProps (Build)
open Secuer.Sidh (Three skABytes skBBytes aGen bGen decodePk)
open Secuer.WSidh (Sized)
open Secuer.Protocol (params flat encode)

/-- `EphemeralKeyGeneration_A` in a build -/
def genA (bd : Build) (l : Level) (k : Bytes) : Option Bytes :=
  letI := bd.arith l
  WSidh.ephGenA l k

/-- `EphemeralKeyGeneration_B` in a build -/
def genB (bd : Build) (l : Level) (k : Bytes) : Option Bytes :=
  letI := bd.arith l
  WSidh.ephGenB l k

/-- `EphemeralSecretAgreement_A` in a build; `old` is the uninitialised array for the public key. -/
def agreeA (bd : Build) (l : Level) (old : Three F2) (k pk : Bytes) : Option Bytes :=
  letI := bd.arith l
  WSidh.ephAgreeA l old k pk

/-- `EphemeralSecretAgreement_B_extended` in a build -/
def agreeBExt (bd : Build) (l : Level) (sike : ℕ) (old : Three F2) (k pk : Bytes) : Option (Option Bytes) :=
  letI := bd.arith l
  WSidh.ephAgreeBExt l sike old k pk

/-- `EphemeralSecretAgreement_B` in a build -/
def agreeB (bd : Build) (l : Level) (old : Three F2) (k pk : Bytes) : Option (Option Bytes) :=
  letI := bd.arith l
  WSidh.ephAgreeB l old k pk

variable (bd : Build) (l : Level)

/-! ### C81 -/

/-- **C81.** On buffers that are large enough the functions of `sidh.c` on words return what the functions over the field do,
whatever uninitialised arrays hold. -/
theorem C81_words (old : Three F2) (ho : Sized l old) (kA kB pk : Bytes) (hA : skABytes l ≤ kA.length)
    (hB : skBBytes l ≤ kB.length) (hpk : 6 * (params l).fpBytes ≤ pk.length) (sike : ℕ) :
    genA bd l kA = Sidh.ephGenA l kA ∧ genB bd l kB = Sidh.ephGenB l kB ∧
    agreeA bd l old kA pk = Sidh.ephAgreeA l kA pk ∧ agreeBExt bd l sike old kB pk = Sidh.ephAgreeBExt l sike kB pk ∧
    agreeB bd l old kB pk = Sidh.ephAgreeB l kB pk := by
  letI := bd.arith l
  haveI := bd.ok l
  exact ⟨WSidh.ephGenA_ref hA, WSidh.ephGenB_ref hB, WSidh.ephAgreeA_ref ho hA hpk, WSidh.ephAgreeBExt_ref sike ho hB hpk,
    WSidh.ephAgreeBExt_ref 0 ho hB hpk⟩

/-- **C81.** Reads stay inside the buffers exactly if these are large enough; then all functions but the one with validation
succeed, and that one succeeds or returns 1. -/
theorem C81_total (old : Three F2) (ho : Sized l old) (k pk : Bytes) (sike : ℕ) :
    (genA bd l k ≠ none ↔ skABytes l ≤ k.length) ∧ (genB bd l k ≠ none ↔ skBBytes l ≤ k.length) ∧
    (agreeA bd l old k pk ≠ none ↔ skABytes l ≤ k.length ∧ 6 * (params l).fpBytes ≤ pk.length) ∧
    (skBBytes l ≤ k.length ∧ 6 * (params l).fpBytes ≤ pk.length → ∃ r, agreeBExt bd l sike old k pk = some r ∧
      ∀ j ∈ r, j.length = 2 * (params l).fpBytes) := by
  letI := bd.arith l
  haveI := bd.ok l
  have hh := half_eq l
  obtain ⟨⟨r1, e1, -⟩, ⟨r2, e2, -⟩, ⟨r3, e3, -⟩, ⟨r4, e4, l4⟩, -⟩ := C75_total l k pk sike
  refine ⟨⟨fun h => ?_, fun h => ?_⟩, ⟨fun h => ?_, fun h => ?_⟩, ⟨fun h => ?_, fun h => ?_⟩, fun h => ?_⟩
  · by_contra hn
    exact h (by simp only [genA, WSidh.ephGenA, WSidh.readKey, if_neg hn]; rfl)
  · rw [show genA bd l k = _ from WSidh.ephGenA_ref h, e1]
    exact Option.some_ne_none _
  · by_contra hn
    exact h (by simp only [genB, WSidh.ephGenB, WSidh.readKey, if_neg hn]; rfl)
  · rw [show genB bd l k = _ from WSidh.ephGenB_ref h, e2]
    exact Option.some_ne_none _
  · by_contra hn
    by_cases hp : 6 * (params l).fpBytes ≤ pk.length
    · have hk : ¬ skABytes l ≤ k.length := fun hk => hn ⟨hk, hp⟩
      refine h ?_
      obtain ⟨t, et, -⟩ := WSidh.readPk_ref ho hp
      simp only [agreeA, WSidh.ephAgreeA, et, WSidh.readKey, if_neg hk]
      rfl
    · refine h ?_
      rw [← hh] at hp
      simp only [agreeA, WSidh.ephAgreeA, WSidh.readPk, if_neg hp]
      rfl
  · rw [show agreeA bd l old k pk = _ from WSidh.ephAgreeA_ref ho h.1 h.2, e3]
    exact Option.some_ne_none _
  · exact ⟨r4, (WSidh.ephAgreeBExt_ref sike ho h.1 h.2).trans e4, l4⟩

/-- **C81.** For all private keys, in any combination of builds, both sides obtain the same bytes: the j-invariant of the quotient of
the starting curve by the two kernels. With validation this is so unless the two values compared agree in the bits looked at. -/
theorem C81_agree (bd' : Build) (old old' : Three F2) (ho : Sized l old) (ho' : Sized l old') (kA kB : Bytes)
    (hA : skABytes l ≤ kA.length) (hB : skBBytes l ≤ kB.length) :
    ∃ (pkA pkB : Bytes) (d : l.F) (PA QA PB QB : (W (l.φ 6)).Point),
    Holds l (Sidh.initBasis l (aGen l)) PA QA ∧ Holds l (Sidh.initBasis l (bGen l)) PB QB ∧
    genA bd l kA = some pkA ∧ genB bd' l kB = some pkB ∧
    agreeA bd l old kA pkB = some (flat (encode l (jInvariant d))) ∧
    agreeB bd' l old' kB pkA = some (some (flat (encode l (jInvariant d)))) ∧
    (Confused l (SidhProps.compared l pkA).1 (SidhProps.compared l pkA).2 → agreeBExt bd' l 1 old' kB pkA = some none) ∧
    (¬ Confused l (SidhProps.compared l pkA).1 (SidhProps.compared l pkA).2 →
      agreeBExt bd' l 1 old' kB pkA = some (some (flat (encode l (jInvariant d))))) ∧
    ∃ χ : (W (l.φ 6)).Point →+ (W (l.φ d)).Point, Function.Surjective χ ∧
      χ.ker = AddSubgroup.zmultiples (PA + scalarA l kA • QA) ⊔
        AddSubgroup.zmultiples (PB + scalarB l kB • QB) := by
  obtain ⟨pkA, pkB, d, PA, QA, PB, QB, h1, h2, h3, h4, h5, h6, h7, h8, h9⟩ := C75_agree l kA kB
  obtain ⟨⟨r1, e1, l1⟩, -⟩ := C75_total l kA [] 0
  obtain ⟨-, ⟨r2, e2, l2⟩, -⟩ := C75_total l kB [] 0
  obtain rfl : r1 = pkA := Option.some.inj (e1.symm.trans h3)
  obtain rfl : r2 = pkB := Option.some.inj (e2.symm.trans h4)
  obtain ⟨a1, -, a3, -, -⟩ := C81_words bd l old ho kA kB r2 hA hB l2.ge 0
  obtain ⟨-, b2, -, b4, b5⟩ := C81_words bd' l old' ho' kA kB r1 hA hB l1.ge 1
  exact ⟨r1, r2, d, PA, QA, PB, QB, h1, h2, a1.trans h3, b2.trans h4, a3.trans h5, b5.trans h6, fun h => b4.trans (h7 h),
    fun h => b4.trans (h8 h), h9⟩

/-- **C81.** What decapsulation accepts (`C77_accepted`, `C79_order`), on words. -/
theorem C81_accepted (old : Three F2) (ho : Sized l old) (k pk j : Bytes) (hk : skBBytes l ≤ k.length)
    (hpk : 6 * (params l).fpBytes ≤ pk.length) (h : agreeBExt bd l 1 old k pk = some (some j)) :
    let t := decodePk l pk
    let a := Sidh.getA t.P t.Q t.R
    a ^ 2 ≠ 4 ∧ (ChainProps.RightOrder l a ∨ l = .l610 ∧ Nat.card (W a).Point = (l.p - 1) ^ 2 + 4 * 3 ^ (2 * l.iso.e3)) ∧
    ∃ P Q : (W (l.φ a)).Point, Rep ⟨l.φ t.P, 1⟩ P ∧ Rep ⟨l.φ t.Q, 1⟩ Q ∧ Independent 3 l.iso.e3 P Q ∧
      (t.R ≠ 0 → Holds l t P Q ∧ ∃ (d : l.F) (ψ : (W (l.φ a)).Point →+ (W (l.φ d)).Point), Function.Surjective ψ ∧
        ψ.ker = AddSubgroup.zmultiples (P + scalarB l k • Q) ∧
        j = flat (encode l (jInvariant d))) := by
  letI := bd.arith l
  haveI := bd.ok l
  have h' : Sidh.ephAgreeBExt l 1 k pk = some (some j) := (WSidh.ephAgreeBExt_ref 1 ho hk hpk).symm.trans h
  have h1 := C77_accepted l k pk j h'
  exact ⟨h1.1, C79_order l k pk j h', h1.2.2⟩

/-! ### C82 -/

/-- The functions of `sidh.c` in a build, as `sike.c` calls them -/
def kexW (old : Three F2) : Kex where
  genA k := (genA bd l k).getD []
  genB k := (genB bd l k).getD []
  agreeA k pk := (agreeA bd l old k pk).getD []
  agreeB k pk := (agreeBExt bd l 1 old k pk).getD none

/-- Key exchanges that agree on inputs of the right sizes -/
structure Same (K K' : Kex) (P : Sizes) : Prop where
  genA : ∀ k, k.length = P.skA → K.genA k = K'.genA k
  genB : ∀ k, k.length = P.skB → K.genB k = K'.genB k
  agreeA : ∀ k pk, k.length = P.skA → pk.length = P.pk → K.agreeA k pk = K'.agreeA k pk
  agreeB : ∀ k pk, k.length = P.skB → pk.length = P.pk → K.agreeB k pk = K'.agreeB k pk

theorem slice_length {buf r : Bytes} {i n : ℕ} (h : slice buf i n = some r) : r.length = n := by
  unfold slice at h
  split at h
  · obtain rfl := Option.some.inj h
    rw [List.length_take, List.length_drop]
    omega
  · cases h

variable {K K' : Kex} {P : Sizes} {H : Protocol.Hash}

theorem keypair_same (h : Same K K' P) (s b : Option Bytes) (pk₀ sk₀ : Bytes) :
    keypair K P s b pk₀ sk₀ = keypair K' P s b pk₀ sk₀ := by
  unfold keypair
  cases s with
  | none => rfl
  | some s =>
    simp only [bind]
    refine Option.bind_congr fun sk _ => ?_
    cases b with
    | none => rfl
    | some b =>
      refine Option.bind_congr fun sk _ => Option.bind_congr fun skB hs => ?_
      rw [h.genB skB (slice_length hs)]

theorem enc_same (h : Same K K' P) (hH : ∀ n x, (H.out n x).length = n) (m : Option Bytes) (temp₀ ct₀ ss₀ pk : Bytes) :
    enc H K P m temp₀ ct₀ ss₀ pk = enc H K' P m temp₀ ct₀ ss₀ pk := by
  unfold enc
  cases m with
  | none => rfl
  | some m =>
    simp only [bind]
    refine Option.bind_congr fun temp _ => Option.bind_congr fun pk hp => Option.bind_congr fun temp _ =>
      Option.bind_congr fun inp _ => ?_
    have hl : (maskLast P.maskA (H.out P.skA inp)).length = P.skA := by rw [WCurve.maskLast_length, hH]
    rw [h.genA _ hl, h.agreeA _ _ hl (slice_length hp)]

theorem dec_same (h : Same K K' P) (hH : ∀ n x, (H.out n x).length = n) (temp₀ ss₀ ct sk : Bytes) :
    dec H K P temp₀ ss₀ ct sk = dec H K' P temp₀ ss₀ ct sk := by
  unfold dec
  have hl : ∀ inp, (maskLast P.maskA (H.out P.skA inp)).length = P.skA := fun inp => by rw [WCurve.maskLast_length, hH]
  simp only [bind, h.genA _ (hl _)]
  refine Option.bind_congr fun skB hs => Option.bind_congr fun c0 hc => ?_
  rw [h.agreeB _ _ (slice_length hs) (slice_length hc)]

theorem kexW_same (old : Three F2) (ho : Sized l old) : Same (kexW bd l old) (kex l) (sizes l) := by
  letI := bd.arith l
  haveI := bd.ok l
  have h1 : skABytes l = (sizes l).skA := by cases l <;> rfl
  have h2 : skBBytes l = (sizes l).skB := by cases l <;> rfl
  have h3 := pk_size l
  refine ⟨fun k hk => ?_, fun k hk => ?_, fun k pk hk hp => ?_, fun k pk hk hp => ?_⟩
  · exact congrArg (·.getD []) (WSidh.ephGenA_ref (l := l) (k := k) (by omega))
  · exact congrArg (·.getD []) (WSidh.ephGenB_ref (l := l) (k := k) (by omega))
  · exact congrArg (·.getD []) (WSidh.ephAgreeA_ref (k := k) (pk := pk) ho (by omega) (by omega))
  · exact congrArg (·.getD none) (WSidh.ephAgreeBExt_ref 1 (k := k) (pk := pk) ho (by omega) (by omega))

/-- **C82.** Key generation, encapsulation and decapsulation on words do the same as over the field, for all arguments: those that
the key exchange is called with always have the right sizes. -/
theorem C82_words (old : Three F2) (ho : Sized l old) (s b m : Option Bytes) (pk₀ sk₀ temp₀ ct₀ ss₀ pk ct sk : Bytes) :
    keypair (kexW bd l old) (sizes l) s b pk₀ sk₀ = keypair (kex l) (sizes l) s b pk₀ sk₀ ∧
    enc KeccakProps.shakeHash (kexW bd l old) (sizes l) m temp₀ ct₀ ss₀ pk =
      enc KeccakProps.shakeHash (kex l) (sizes l) m temp₀ ct₀ ss₀ pk ∧
    dec KeccakProps.shakeHash (kexW bd l old) (sizes l) temp₀ ss₀ ct sk =
      dec KeccakProps.shakeHash (kex l) (sizes l) temp₀ ss₀ ct sk := by
  have h := kexW_same bd l old ho
  have hH := (kex_lengths l).hash
  exact ⟨keypair_same h _ _ _ _, enc_same h hH _ _ _ _ _, dec_same h hH _ _ _ _⟩

/-- **C82.** Key encapsulation on words, with SHAKE256, each of the three functions in its own build: key generation and encapsulation
with any random bytes succeed, and decapsulation gives the shared secret of the encapsulation, unless the validation confuses the two
values it compares; then decapsulation gives the secret for invalid ciphertexts. -/
theorem C82_kem (bd₁ bd₂ bd₃ : Build) (old₁ old₂ old₃ : Three F2) (ho₁ : Sized l old₁) (ho₂ : Sized l old₂) (ho₃ : Sized l old₃)
    (s b m pk₀ sk₀ temp₀ temp₁ ct₀ ss₀ ss₁ : Bytes) (hs : s.length = (sizes l).msg)
    (hb : b.length = (sizes l).skB) (hm : m.length = (sizes l).msg) (h1 : pk₀.length = (sizes l).pk) (h2 : sk₀.length = (sizes l).sk)
    (ht : temp₀.length = (sizes l).ct + (sizes l).msg) (ht' : temp₁.length = (sizes l).ct + (sizes l).msg)
    (hc : ct₀.length = (sizes l).ct) (hss : ss₀.length = (sizes l).ss) (hss' : ss₁.length = (sizes l).ss) :
    ∃ pk sk c₀ c₁ ss, keypair (kexW bd₁ l old₁) (sizes l) (some s) (some b) pk₀ sk₀ = some (0, pk, sk) ∧
      enc KeccakProps.shakeHash (kexW bd₂ l old₂) (sizes l) (some m) temp₀ ct₀ ss₀ pk = some (0, c₀ ++ c₁, ss) ∧
      c₀.length = (sizes l).pk ∧ c₁.length = (sizes l).msg ∧ ss.length = (sizes l).ss ∧
      (¬ Confused l (SidhProps.compared l c₀).1 (SidhProps.compared l c₀).2 →
        dec KeccakProps.shakeHash (kexW bd₃ l old₃) (sizes l) temp₁ ss₁ (c₀ ++ c₁) sk = some (0, ss)) ∧
      (Confused l (SidhProps.compared l c₀).1 (SidhProps.compared l c₀).2 →
        dec KeccakProps.shakeHash (kexW bd₃ l old₃) (sizes l) temp₁ ss₁ (c₀ ++ c₁) sk =
          some (0, KeccakProps.shakeHash.out (sizes l).ss (s ++ (c₀ ++ c₁)))) := by
  obtain ⟨pk, sk, c₀, c₁, ss, k1, k2, k3, k4, k5, k6, k7⟩ := C76_kem l s b m pk₀ sk₀ temp₀ temp₁ ct₀ ss₀ ss₁ hs hb hm h1 h2 ht ht' hc
    hss hss'
  refine ⟨pk, sk, c₀, c₁, ss, ?_, ?_, k3, k4, k5, fun h => ?_, fun h => ?_⟩
  · rw [(C82_words bd₁ l old₁ ho₁ (some s) (some b) none pk₀ sk₀ [] [] [] [] [] []).1, k1]
  · rw [(C82_words bd₂ l old₂ ho₂ none none (some m) [] [] temp₀ ct₀ ss₀ pk [] []).2.1, k2]
  · rw [(C82_words bd₃ l old₃ ho₃ none none none [] [] temp₁ [] ss₁ [] (c₀ ++ c₁) sk).2.2, k6 h]
  · rw [(C82_words bd₃ l old₃ ho₃ none none none [] [] temp₁ [] ss₁ [] (c₀ ++ c₁) sk).2.2, k7 h]

/-! ### The premises can be met -/

/-- arrays of the right sizes -/
example : Sized .l751 ⟨fp2zero (tables .l751), fp2one (tables .l751), fp2zero (tables .l751)⟩ := by
  refine ⟨⟨?_, ?_⟩, ⟨?_, ?_⟩, ⟨?_, ?_⟩⟩ <;> decide

/-- a private key and a public key that Alice accepts as input, in the x86-64 build -/
example (old : Three F2) (ho : Sized .l434 old) :
    agreeA .x64 .l434 old (List.replicate 27 0x5a) (List.replicate 330 0x17) ≠ none :=
  (C81_total .x64 .l434 old ho _ _ 0).2.2.1.2 (by decide)

end Secuer.WSidhProps
