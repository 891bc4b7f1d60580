import Mathlib.Data.BitVec
import Verif.Text.Model

/-!
# Model of `sha3/fips202.c`

The permutation (`fips202.c:64-329`) as written there: straight-line code on 25 variables, two rounds per iteration of the
loop; then absorbing and squeezing (`fips202.c:335-376, 419-456`) on byte arrays. `uint64_t` is `BitVec 64`.

* `load64`, `store64` (`fips202.c:23-33`) are the little-endian conversions. The casts of unaligned pointers in them, which
  standard C leaves undefined, are taken to work.
* Reads outside the message give `none`.
* SHAKE128 (`fips202.c:380-414`) is not used by the proof system and not modelled.
-/

namespace Secuer.Keccak

open Secuer.Text

abbrev W := BitVec 64

/-- `ROL` (`fips202.c:20`), for offsets between 1 and 63 -/
def ROL (a : W) (offset : ℕ) : W := (a <<< offset) ^^^ (a >>> (64 - offset))

/-- The variables `Aba … Asu` resp. `Eba … Esu` (`fips202.c:68-79`) -/
structure Lanes where
  (ba be bi bo bu : W)
  (ga ge gi go gu : W)
  (ka ke ki ko ku : W)
  (ma me mi mo mu : W)
  (sa se si so su : W)

/-- `KeccakF_RoundConstants` (`fips202.c:36-62`) -/
def roundConstants : List W :=
  [0x0000000000000001, 0x0000000000008082, 0x800000000000808a, 0x8000000080008000, 0x000000000000808b, 0x0000000080000001,
   0x8000000080008081, 0x8000000000008009, 0x000000000000008a, 0x0000000000000088, 0x0000000080008009, 0x000000008000000a,
   0x000000008000808b, 0x800000000000008b, 0x8000000000008089, 0x8000000000008003, 0x8000000000008002, 0x8000000000000080,
   0x000000000000800a, 0x800000008000000a, 0x8000000080008081, 0x8000000000008080, 0x0000000080000001, 0x8000000080008008]

/-- First half of the loop body (`fips202.c:110-204`): from the `A` variables to the `E` variables -/
def halfAE (rc : W) (s : Lanes) : Lanes :=
  let Aba := s.ba
  let Abe := s.be
  let Abi := s.bi
  let Abo := s.bo
  let Abu := s.bu
  let Aga := s.ga
  let Age := s.ge
  let Agi := s.gi
  let Ago := s.go
  let Agu := s.gu
  let Aka := s.ka
  let Ake := s.ke
  let Aki := s.ki
  let Ako := s.ko
  let Aku := s.ku
  let Ama := s.ma
  let Ame := s.me
  let Ami := s.mi
  let Amo := s.mo
  let Amu := s.mu
  let Asa := s.sa
  let Ase := s.se
  let Asi := s.si
  let Aso := s.so
  let Asu := s.su
  let BCa := Aba ^^^ Aga ^^^ Aka ^^^ Ama ^^^ Asa
  let BCe := Abe ^^^ Age ^^^ Ake ^^^ Ame ^^^ Ase
  let BCi := Abi ^^^ Agi ^^^ Aki ^^^ Ami ^^^ Asi
  let BCo := Abo ^^^ Ago ^^^ Ako ^^^ Amo ^^^ Aso
  let BCu := Abu ^^^ Agu ^^^ Aku ^^^ Amu ^^^ Asu
  let Da := BCu ^^^ ROL BCe 1
  let De := BCa ^^^ ROL BCi 1
  let Di := BCe ^^^ ROL BCo 1
  let Do := BCi ^^^ ROL BCu 1
  let Du := BCo ^^^ ROL BCa 1
  let Aba := Aba ^^^ Da
  let BCa := Aba
  let Age := Age ^^^ De
  let BCe := ROL Age 44
  let Aki := Aki ^^^ Di
  let BCi := ROL Aki 43
  let Amo := Amo ^^^ Do
  let BCo := ROL Amo 21
  let Asu := Asu ^^^ Du
  let BCu := ROL Asu 14
  let Eba := BCa ^^^ ((~~~BCe) &&& BCi)
  let Eba := Eba ^^^ rc
  let Ebe := BCe ^^^ ((~~~BCi) &&& BCo)
  let Ebi := BCi ^^^ ((~~~BCo) &&& BCu)
  let Ebo := BCo ^^^ ((~~~BCu) &&& BCa)
  let Ebu := BCu ^^^ ((~~~BCa) &&& BCe)
  let Abo := Abo ^^^ Do
  let BCa := ROL Abo 28
  let Agu := Agu ^^^ Du
  let BCe := ROL Agu 20
  let Aka := Aka ^^^ Da
  let BCi := ROL Aka 3
  let Ame := Ame ^^^ De
  let BCo := ROL Ame 45
  let Asi := Asi ^^^ Di
  let BCu := ROL Asi 61
  let Ega := BCa ^^^ ((~~~BCe) &&& BCi)
  let Ege := BCe ^^^ ((~~~BCi) &&& BCo)
  let Egi := BCi ^^^ ((~~~BCo) &&& BCu)
  let Ego := BCo ^^^ ((~~~BCu) &&& BCa)
  let Egu := BCu ^^^ ((~~~BCa) &&& BCe)
  let Abe := Abe ^^^ De
  let BCa := ROL Abe 1
  let Agi := Agi ^^^ Di
  let BCe := ROL Agi 6
  let Ako := Ako ^^^ Do
  let BCi := ROL Ako 25
  let Amu := Amu ^^^ Du
  let BCo := ROL Amu 8
  let Asa := Asa ^^^ Da
  let BCu := ROL Asa 18
  let Eka := BCa ^^^ ((~~~BCe) &&& BCi)
  let Eke := BCe ^^^ ((~~~BCi) &&& BCo)
  let Eki := BCi ^^^ ((~~~BCo) &&& BCu)
  let Eko := BCo ^^^ ((~~~BCu) &&& BCa)
  let Eku := BCu ^^^ ((~~~BCa) &&& BCe)
  let Abu := Abu ^^^ Du
  let BCa := ROL Abu 27
  let Aga := Aga ^^^ Da
  let BCe := ROL Aga 36
  let Ake := Ake ^^^ De
  let BCi := ROL Ake 10
  let Ami := Ami ^^^ Di
  let BCo := ROL Ami 15
  let Aso := Aso ^^^ Do
  let BCu := ROL Aso 56
  let Ema := BCa ^^^ ((~~~BCe) &&& BCi)
  let Eme := BCe ^^^ ((~~~BCi) &&& BCo)
  let Emi := BCi ^^^ ((~~~BCo) &&& BCu)
  let Emo := BCo ^^^ ((~~~BCu) &&& BCa)
  let Emu := BCu ^^^ ((~~~BCa) &&& BCe)
  let Abi := Abi ^^^ Di
  let BCa := ROL Abi 62
  let Ago := Ago ^^^ Do
  let BCe := ROL Ago 55
  let Aku := Aku ^^^ Du
  let BCi := ROL Aku 39
  let Ama := Ama ^^^ Da
  let BCo := ROL Ama 41
  let Ase := Ase ^^^ De
  let BCu := ROL Ase 2
  let Esa := BCa ^^^ ((~~~BCe) &&& BCi)
  let Ese := BCe ^^^ ((~~~BCi) &&& BCo)
  let Esi := BCi ^^^ ((~~~BCo) &&& BCu)
  let Eso := BCo ^^^ ((~~~BCu) &&& BCa)
  let Esu := BCu ^^^ ((~~~BCa) &&& BCe)
  ⟨Eba, Ebe, Ebi, Ebo, Ebu, Ega, Ege, Egi, Ego, Egu, Eka, Eke, Eki, Eko, Eku, Ema, Eme, Emi, Emo, Emu, Esa, Ese, Esi, Eso, Esu⟩

/-- Second half of the loop body (`fips202.c:205-298`): from the `E` variables back to the `A` variables -/
def halfEA (rc : W) (s : Lanes) : Lanes :=
  let Eba := s.ba
  let Ebe := s.be
  let Ebi := s.bi
  let Ebo := s.bo
  let Ebu := s.bu
  let Ega := s.ga
  let Ege := s.ge
  let Egi := s.gi
  let Ego := s.go
  let Egu := s.gu
  let Eka := s.ka
  let Eke := s.ke
  let Eki := s.ki
  let Eko := s.ko
  let Eku := s.ku
  let Ema := s.ma
  let Eme := s.me
  let Emi := s.mi
  let Emo := s.mo
  let Emu := s.mu
  let Esa := s.sa
  let Ese := s.se
  let Esi := s.si
  let Eso := s.so
  let Esu := s.su
  let BCa := Eba ^^^ Ega ^^^ Eka ^^^ Ema ^^^ Esa
  let BCe := Ebe ^^^ Ege ^^^ Eke ^^^ Eme ^^^ Ese
  let BCi := Ebi ^^^ Egi ^^^ Eki ^^^ Emi ^^^ Esi
  let BCo := Ebo ^^^ Ego ^^^ Eko ^^^ Emo ^^^ Eso
  let BCu := Ebu ^^^ Egu ^^^ Eku ^^^ Emu ^^^ Esu
  let Da := BCu ^^^ ROL BCe 1
  let De := BCa ^^^ ROL BCi 1
  let Di := BCe ^^^ ROL BCo 1
  let Do := BCi ^^^ ROL BCu 1
  let Du := BCo ^^^ ROL BCa 1
  let Eba := Eba ^^^ Da
  let BCa := Eba
  let Ege := Ege ^^^ De
  let BCe := ROL Ege 44
  let Eki := Eki ^^^ Di
  let BCi := ROL Eki 43
  let Emo := Emo ^^^ Do
  let BCo := ROL Emo 21
  let Esu := Esu ^^^ Du
  let BCu := ROL Esu 14
  let Aba := BCa ^^^ ((~~~BCe) &&& BCi)
  let Aba := Aba ^^^ rc
  let Abe := BCe ^^^ ((~~~BCi) &&& BCo)
  let Abi := BCi ^^^ ((~~~BCo) &&& BCu)
  let Abo := BCo ^^^ ((~~~BCu) &&& BCa)
  let Abu := BCu ^^^ ((~~~BCa) &&& BCe)
  let Ebo := Ebo ^^^ Do
  let BCa := ROL Ebo 28
  let Egu := Egu ^^^ Du
  let BCe := ROL Egu 20
  let Eka := Eka ^^^ Da
  let BCi := ROL Eka 3
  let Eme := Eme ^^^ De
  let BCo := ROL Eme 45
  let Esi := Esi ^^^ Di
  let BCu := ROL Esi 61
  let Aga := BCa ^^^ ((~~~BCe) &&& BCi)
  let Age := BCe ^^^ ((~~~BCi) &&& BCo)
  let Agi := BCi ^^^ ((~~~BCo) &&& BCu)
  let Ago := BCo ^^^ ((~~~BCu) &&& BCa)
  let Agu := BCu ^^^ ((~~~BCa) &&& BCe)
  let Ebe := Ebe ^^^ De
  let BCa := ROL Ebe 1
  let Egi := Egi ^^^ Di
  let BCe := ROL Egi 6
  let Eko := Eko ^^^ Do
  let BCi := ROL Eko 25
  let Emu := Emu ^^^ Du
  let BCo := ROL Emu 8
  let Esa := Esa ^^^ Da
  let BCu := ROL Esa 18
  let Aka := BCa ^^^ ((~~~BCe) &&& BCi)
  let Ake := BCe ^^^ ((~~~BCi) &&& BCo)
  let Aki := BCi ^^^ ((~~~BCo) &&& BCu)
  let Ako := BCo ^^^ ((~~~BCu) &&& BCa)
  let Aku := BCu ^^^ ((~~~BCa) &&& BCe)
  let Ebu := Ebu ^^^ Du
  let BCa := ROL Ebu 27
  let Ega := Ega ^^^ Da
  let BCe := ROL Ega 36
  let Eke := Eke ^^^ De
  let BCi := ROL Eke 10
  let Emi := Emi ^^^ Di
  let BCo := ROL Emi 15
  let Eso := Eso ^^^ Do
  let BCu := ROL Eso 56
  let Ama := BCa ^^^ ((~~~BCe) &&& BCi)
  let Ame := BCe ^^^ ((~~~BCi) &&& BCo)
  let Ami := BCi ^^^ ((~~~BCo) &&& BCu)
  let Amo := BCo ^^^ ((~~~BCu) &&& BCa)
  let Amu := BCu ^^^ ((~~~BCa) &&& BCe)
  let Ebi := Ebi ^^^ Di
  let BCa := ROL Ebi 62
  let Ego := Ego ^^^ Do
  let BCe := ROL Ego 55
  let Eku := Eku ^^^ Du
  let BCi := ROL Eku 39
  let Ema := Ema ^^^ Da
  let BCo := ROL Ema 41
  let Ese := Ese ^^^ De
  let BCu := ROL Ese 2
  let Asa := BCa ^^^ ((~~~BCe) &&& BCi)
  let Ase := BCe ^^^ ((~~~BCi) &&& BCo)
  let Asi := BCi ^^^ ((~~~BCo) &&& BCu)
  let Aso := BCo ^^^ ((~~~BCu) &&& BCa)
  let Asu := BCu ^^^ ((~~~BCa) &&& BCe)
  ⟨Aba, Abe, Abi, Abo, Abu, Aga, Age, Agi, Ago, Agu, Aka, Ake, Aki, Ako, Aku, Ama, Ame, Ami, Amo, Amu, Asa, Ase, Asi, Aso, Asu⟩

/-- The loop over `round` (`fips202.c:108-299`); the list are the constants not used yet. -/
def rounds : List W → Lanes → Lanes
  | rc :: rc' :: rcs, s => rounds rcs (halfEA rc' (halfAE rc s))
  | _, s => s

/-- `uint64_t s[25]` -/
abbrev State := Fin 25 → W

/-- `copyFromState` (`fips202.c:81-106`) -/
def Lanes.load (s : State) : Lanes :=
  ⟨s 0, s 1, s 2, s 3, s 4, s 5, s 6, s 7, s 8, s 9, s 10, s 11, s 12, s 13, s 14, s 15, s 16, s 17, s 18, s 19, s 20, s 21, s 22, s 23, s 24⟩

/-- A state from the list of its words -/
def ofList (ws : List W) : State := fun i => ws.getD i 0

/-- `copyToState` (`fips202.c:301-326`) -/
def Lanes.store (a : Lanes) : State :=
  ofList [a.ba, a.be, a.bi, a.bo, a.bu, a.ga, a.ge, a.gi, a.go, a.gu, a.ka, a.ke, a.ki, a.ko, a.ku, a.ma, a.me, a.mi, a.mo, a.mu, a.sa, a.se, a.si, a.so, a.su]

/-- `KeccakF1600_StatePermute` (`fips202.c:64-329`) -/
def permute (s : State) : State := (rounds roundConstants (Lanes.load s)).store

/-! ### Absorbing and squeezing -/

/-- `SHAKE256_RATE` (`fips202.h:8`) -/
def rate : ℕ := 136

/-- Eight bytes, the first the least significant one -/
def ofBytes (bs : Bytes) : W := bs.foldr (fun b acc => (acc <<< 8) ||| BitVec.setWidth 64 b.toBitVec) 0

/-- `load64(m + off)` (`fips202.c:23-26`); `none` if this reads outside of `m`. -/
def load64 (m : Bytes) (off : ℕ) : Option W :=
  if off + 8 ≤ m.length then some (ofBytes ((m.drop off).take 8)) else none

/-- `store64` (`fips202.c:29-32`) -/
def store64 (u : W) : Bytes := (List.range 8).map fun j => UInt8.ofBitVec (BitVec.setWidth 8 (u >>> (8 * j)))

/-- `for (i = 0; i < r / 8; ++i) s[i] ^= load64(m + 8 * i);` (`fips202.c:342-343, 356-357`) from `i` on, `n` to go -/
def xorLoop (m : Bytes) : (n i : ℕ) → State → Option State
  | 0, _, s => some s
  | n + 1, i, s =>
    match load64 m (8 * i) with
    | none => none
    | some w => if h : i < 25 then xorLoop m n (i + 1) (Function.update s ⟨i, h⟩ (s ⟨i, h⟩ ^^^ w)) else none

/-- The array `t` when it is absorbed (`fips202.c:350-355`): zeros, overwritten by the rest of the message and `p`; then
bit 7 of the last byte is set. -/
def lastBlock (m : Bytes) (p : UInt8) : Bytes :=
  let t := m ++ List.replicate (rate - m.length) 0
  let t := t.set m.length p
  t.set (rate - 1) (t.getD (rate - 1) 0 ||| 128)

/-- `keccak_absorb` with `r = SHAKE256_RATE` (`fips202.c:335-358`), `mlen = m.length` -/
def absorb (s : State) (m : Bytes) (p : UInt8) : Option State :=
  if rate ≤ m.length then
    match xorLoop m (rate / 8) 0 s with
    | none => none
    | some s => absorb (permute s) (m.drop rate) p
  else xorLoop (lastBlock m p) (rate / 8) 0 s
termination_by m.length
decreasing_by
  have : 0 < rate := by decide
  rw [List.length_drop]
  omega

/-- One iteration of `keccak_squeezeblocks` (`fips202.c:365-374`): the next state and the block written -/
def squeezeBlock (s : State) : State × Bytes :=
  let s := permute s
  (s, ((List.finRange 25).take (rate / 8)).flatMap fun i => store64 (s i))

/-- `keccak_squeezeblocks` with `r = SHAKE256_RATE` (`fips202.c:361-376`) -/
def squeezeBlocks : (nblocks : ℕ) → State → State × Bytes
  | 0, s => (s, [])
  | n + 1, s =>
    let (s, b) := squeezeBlock s
    let (s, bs) := squeezeBlocks n s
    (s, b ++ bs)

/-- `shake256` (`fips202.c:431-456`) -/
def shake256 (outlen : ℕ) (input : Bytes) : Option Bytes :=
  match absorb (fun _ => 0) input 0x1F with
  | none => none
  | some s =>
    let nblocks := outlen / rate
    let (s, out) := squeezeBlocks nblocks s
    let rest := outlen - nblocks * rate
    if rest ≠ 0 then some (out ++ (squeezeBlocks 1 s).2.take rest) else some out

/-- `shake256_absorb` into a zero state, then `shake256_squeezeblocks(blk, 1, state)` again and again: the `k`-th block
(`fips202.c:419-428`, used at `poik.c:1161-1166`) -/
def xofBlock (input : Bytes) (k : ℕ) : Option Bytes :=
  match absorb (fun _ => 0) input 0x1F with
  | none => none
  | some s => some (squeezeBlock ((fun s => (squeezeBlock s).1)^[k] s)).2

end Secuer.Keccak
