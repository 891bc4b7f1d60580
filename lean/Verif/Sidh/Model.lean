import Verif.Curve.Algo
import Verif.Kem.Model
import Verif.Word.Fp2

/-!
# Model of the key exchange: `sidh.c` and the functions of `ec_isogeny.c` that only it uses

`sidh.c` is compiled into the library; `poik.c` calls only `random_mod_order_A` from it, `sike.c` (`Verif.Kem.Model`) the rest.
As in `Verif.Curve.Model`, every statement of a C function is one `let` in the order of the code, field elements are elements of a
field `F`, additions without reduction are plain `+`, `-`, and in-place updates are shadowing. `none` is an access outside an
array. The comparison of memory in `publickey_validation` looks at the words of the operands; it enters as `Cfg.same` and is
given in terms of the Montgomery representation at the end of the file.
-/

namespace Secuer.Sidh

open Secuer.Curve

variable {F : Type} [Field F]

/-! ### Formulas -/

/-- `inv_3_way` (`ec_isogeny.c:207-221`): the three new values. -/
def inv3way (z1 z2 z3 : F) : F × F × F :=
  let t0 := z1 * z2
  let t1 := z3 * t0
  let t1 := t1⁻¹
  let t2 := z3 * t1
  let z3 := t0 * t1
  let t0 := t2 * z2
  let z2 := t2 * z1
  let z1 := t0
  (z1, z2, z3)

/-- `get_A` (`ec_isogeny.c:224-244`) -/
def getA (xP xQ xR : F) : F :=
  let one : F := 1
  let t1 := xP + xQ
  let t0 := xP * xQ
  let A := xR * t1
  let A := t0 + A
  let t0 := t0 * xR
  let A := A - one
  let t0 := t0 + t0
  let t1 := t1 + xR
  let t0 := t0 + t0
  let A := A * A
  let t0 := t0⁻¹
  let A := A * t0
  A - t1

/-- The main loop of `LADDER3PT` (`ec_isogeny.c:352-364`), over the bits of the scalar from the bottom; `prev` is `prevbit`.
`swap_points` with mask `-(bit ^ prevbit)` (`ec_isogeny.c:300-320`) swaps iff the bits differ. -/
def ladder3Loop (A24 : F) : List Bool → (prev : Bool) → (R0 R2 R : Pt F) → Pt F
  | [], prev, _, R2, R => if prev then R2 else R
  | bit :: bits, prev, R0, R2, R =>
    let (R, R2) := if bit != prev then (R2, R) else (R, R2)
    let (R0, R2) := xDBLADD R0 R2 R.X R.Z A24
    ladder3Loop A24 bits bit R0 R2 R

/-- The bits `i, i+1, ...` of `m`, `n` of them (`ec_isogeny.c:354`) -/
def bitsFrom (m : ℕ) : (i n : ℕ) → List Bool
  | _, 0 => []
  | i, n + 1 => m.testBit i :: bitsFrom m (i + 1) n

/-- `LADDER3PT` (`ec_isogeny.c:323-365`); `m` is the integer whose digits are passed. -/
def ladder3pt (xP xQ xPQ : F) (m nbits : ℕ) (A : F) : Pt F :=
  let A24 : F := 1
  let A24 := A24 + A24
  let A24 := A + A24
  let A24 := A24 / 2
  let A24 := A24 / 2
  let R0 : Pt F := ⟨xQ, 1⟩
  let R2 : Pt F := ⟨xPQ, 1⟩
  let R : Pt F := ⟨xP, 1⟩
  ladder3Loop A24 (bitsFrom m 0 nbits) false R0 R2 R

/-- `xTPL_fast` (`ec_isogeny.c:368-396`) -/
def xTPLfast (P : Pt F) (A2 : F) : Pt F :=
  let t1 := P.X * P.X
  let t2 := P.Z * P.Z
  let t3 := t1 + t2
  let t4 := P.X + P.Z
  let t4 := t4 * t4
  let t4 := t4 - t3
  let t4 := A2 * t4
  let t4 := t3 + t4
  let t3 := t1 - t2
  let t3 := t3 * t3
  let t1 := t1 * t4
  let t1 := t1 + t1
  let t1 := t1 + t1
  let t1 := t1 - t3
  let t1 := t1 * t1
  let t2 := t2 * t4
  let t2 := t2 + t2
  let t2 := t2 + t2
  let t2 := t2 - t3
  let t2 := t2 * t2
  ⟨P.X * t2, P.Z * t1⟩

/-- `xTPLe_fast` (`ec_isogeny.c:399-410`) -/
def xTPLeFast (P : Pt F) (A2 : F) : ℕ → Pt F
  | 0 => P
  | e + 1 => xTPLeFast (xTPLfast P A2) A2 e

/-! ### Traversal of the strategy tree -/

/-- The loop over the rows (`sidh.c:88-112`, `sidh.c:160-184`; without points to push, `sidh.c:240-261`, `sidh.c:352-373`): as
`stratRows`, but the points `phiP`, `phiQ`, `phiR` in `qs` are pushed through every isogeny. The component `Q` of the state is
not used. -/
def keyRows {F Cv Co : Type} (ops : StratOps F Cv Co) (maxPts : ℕ) :
    (n : ℕ) → StratState F Cv → List (Pt F) → Option (StratState F Cv × List (Pt F))
  | 0, s, qs => some (s, qs)
  | n + 1, s, qs =>
    match stratInner ops (n + 1) (maxPts - s.stack.length) s with
    | none => none
    | some s =>
      let (cv, co) := ops.get s.R
      match s.stack.map (fun e => (ops.eval co e.1, e.2)) with
      | [] => none
      | (R, index) :: stack =>
        keyRows ops maxPts n { s with cv := cv, R := R, index := index, stack := stack } (qs.map (ops.eval co))

/-- From the kernel point `R` to the constants of the codomain and the images of `qs`, Alice's side (`sidh.c:77-117` with
`qs = [phiP, phiQ, phiR]`; `sidh.c:232-263` with `qs = []`). -/
def walkA (env : Env F) (A24plus C24 : F) (R : Pt F) (qs : List (Pt F)) : Option ((F × F) × List (Pt F)) :=
  let (A24plus, C24, R, qs) :=
    if env.e2 % 2 = 1 then
      let S := xDBLe R A24plus C24 (env.e2 - 1)
      let g := get2isog S
      (g.1, g.2, eval2isog R S, qs.map (fun q => eval2isog q S))
    else (A24plus, C24, R, qs)
  match keyRows opsA env.ptsA (env.maxA - 1) ⟨(A24plus, C24), R, none, [], 0, env.stratA⟩ qs with
  | none => none
  | some (s, qs) =>
    let (cv, co) := opsA.get s.R
    some (cv, qs.map (opsA.eval co))

/-- The same on Bob's side (`sidh.c:160-189` with `qs = [phiP, phiQ, phiR]`; `sidh.c:352-375` with `qs = []`). -/
def walkB (env : Env F) (A24minus A24plus : F) (R : Pt F) (qs : List (Pt F)) : Option ((F × F) × List (Pt F)) :=
  match keyRows opsB env.ptsB (env.maxB - 1) ⟨(A24minus, A24plus), R, none, [], 0, env.stratB⟩ qs with
  | none => none
  | some (s, qs) =>
    let (cv, co) := opsB.get s.R
    some (cv, qs.map (opsB.eval co))

/-! ### The four functions -/

/-- Three x-coordinates `x(P)`, `x(Q)`, `x(R)`: a basis (`init_basis`, `sidh.c:14-23`) or a public key. -/
@[ext] structure Three (F : Type) where
  P : F
  Q : F
  R : F
deriving DecidableEq

/-- What the functions depend on at compile time. -/
structure Cfg (F : Type) extends Env F where
  /-- `A_gen` -/
  genA : Three F
  /-- `B_gen` -/
  genB : Three F
  /-- `OBOB_BITS` -/
  bobBits : ℕ
  /-- `memcmp(tmp1, tmp2, 2*NBITS_TO_NBYTES(NBITS_FIELD)) == 0` (`sidh.c:297`) -/
  same : F → F → Bool
  /-- `NBITS_FIELD == 610` (`sidh.c:308`) -/
  eight : Bool
  /-- `is_sqr_fp2` (`fpx.c:864-890`) -/
  isSqr : F → Bool

section exchange

variable [DecidableEq F] (cfg : Cfg F)

/-- The end of the key generation functions (`sidh.c:119-122`, `sidh.c:191-194`): normalise three points. -/
def normalize : List (Pt F) → Option (Three F)
  | [P, Q, R] =>
    let z := inv3way P.Z Q.Z R.Z
    some ⟨P.X * z.1, Q.X * z.2.1, R.X * z.2.2⟩
  | _ => none

/-- `EphemeralKeyGeneration_A` (`sidh.c:50-130`) without decoding and encoding; `m` is the private key. -/
def keyGenA (m : ℕ) : Option (Three F) :=
  let phiP : Pt F := ⟨cfg.genB.P, 1⟩
  let phiQ : Pt F := ⟨cfg.genB.Q, 1⟩
  let phiR : Pt F := ⟨cfg.genB.R, 1⟩
  let A24plus : F := 1
  let A24plus := A24plus + A24plus
  let C24 := A24plus + A24plus
  let A := A24plus + C24
  let A24plus := C24 + C24
  let R := ladder3pt cfg.genA.P cfg.genA.Q cfg.genA.R m cfg.e2 A
  match walkA cfg.toEnv A24plus C24 R [phiP, phiQ, phiR] with
  | none => none
  | some (_, qs) => normalize qs

/-- `EphemeralKeyGeneration_B` (`sidh.c:133-202`) without decoding and encoding. -/
def keyGenB (m : ℕ) : Option (Three F) :=
  let phiP : Pt F := ⟨cfg.genA.P, 1⟩
  let phiQ : Pt F := ⟨cfg.genA.Q, 1⟩
  let phiR : Pt F := ⟨cfg.genA.R, 1⟩
  let A24plus : F := 1
  let A24plus := A24plus + A24plus
  let A24minus := A24plus + A24plus
  let A := A24plus + A24minus
  let A24plus := A24minus + A24minus
  let R := ladder3pt cfg.genB.P cfg.genB.Q cfg.genB.R m (cfg.bobBits - 1) A
  match walkB cfg.toEnv A24minus A24plus R [phiP, phiQ, phiR] with
  | none => none
  | some (_, qs) => normalize qs

/-- `EphemeralSecretAgreement_A` (`sidh.c:205-271`) without decoding and encoding: the value of `jinv`. -/
def secretA (m : ℕ) (pk : Three F) : Option F :=
  let A := getA pk.P pk.Q pk.R
  let C24 : F := 1 + 1
  let A24plus := A + C24
  let C24 := C24 + C24
  let R := ladder3pt pk.P pk.Q pk.R m cfg.e2 A
  match walkA cfg.toEnv A24plus C24 R [] with
  | none => none
  | some ((A24plus, C24), _) =>
    let A24plus := A24plus + A24plus
    let A24plus := A24plus - C24
    let A24plus := A24plus + A24plus
    some (jInv A24plus C24)

/-- `publickey_validation` (`sidh.c:274-315`): true iff it returns 0. `MAX_Bob` is the number of triplings plus one. -/
def validate (pk : Three F) (A A24plus A24minus : F) : Bool :=
  let A2 := A / 2
  let P : Pt F := ⟨pk.P, 1⟩
  let Q : Pt F := ⟨pk.Q, 1⟩
  let P := xTPLeFast P A2 (cfg.maxB - 1)
  let Q := xTPLeFast Q A2 (cfg.maxB - 1)
  if P.Z = 0 ∨ Q.Z = 0 then false else
  let tmp1 := P.X * Q.Z
  let tmp2 := P.Z * Q.X
  if cfg.same tmp1 tmp2 then false else
  let P := xTPLfast P A2
  let Q := xTPLfast Q A2
  if P.Z ≠ 0 ∨ Q.Z ≠ 0 then false else
  if cfg.eight then cfg.isSqr A24plus && cfg.isSqr A24minus else true

/-- `EphemeralSecretAgreement_B_extended` (`sidh.c:318-383`) without decoding and encoding: `some none` if it returns 1. -/
def secretB (sike : ℕ) (m : ℕ) (pk : Three F) : Option (Option F) :=
  let A := getA pk.P pk.Q pk.R
  let A24minus : F := 1 + 1
  let A24plus := A + A24minus
  let A24minus := A - A24minus
  if sike = 1 ∧ validate cfg pk A A24plus A24minus = false then some none else
  let R := ladder3pt pk.P pk.Q pk.R m (cfg.bobBits - 1) A
  match walkB cfg.toEnv A24minus A24plus R [] with
  | none => none
  | some ((A24minus, A24plus), _) =>
    let A := A24plus + A24minus
    let A := A + A
    let A24plus := A24plus - A24minus
    some (some (jInv A A24plus))

end exchange

/-! ### The parameter sets -/

open Secuer.Field Secuer.Word Secuer.Text Secuer.Protocol Secuer.Scalar

/-- `A_gen` (`P434/P434.c:43-54`) -/
def aGen434 : List (List Digit) := [
  [0x05ADF455C5C345BF, 0x91935C5CC767AC2B, 0xAFE4E879951F0257, 0x70E792DC89FA27B1, 0xF797F526BB48C8CD,
   0x2181DB6131AF621F, 0x00000A1C08B1ECC4],
  [0x74840EB87CDA7788, 0x2971AA0ECF9F9D0B, 0xCB5732BDF41715D5, 0x8CD8E51F7AACFFAA, 0xA7F424730D7E419F,
   0xD671EB919A179E8C, 0x0000FFA26C5A924A],
  [0xFEC6E64588B7273B, 0xD2A626D74CBBF1C6, 0xF8F58F07A78098C7, 0xE23941F470841B03, 0x1B63EDA2045538DD,
   0x735CFEB0FFD49215, 0x0001C4CB77542876],
  [0xADB0F733C17FFDD6, 0x6AFFBD037DA0A050, 0x680EC43DB144E02F, 0x1E2E5D5FF524E374, 0xE2DDA115260E2995,
   0xA6E4B552E2EDE508, 0x00018ECCDDF4B53E],
  [0x01BA4DB518CD6C7D, 0x2CB0251FE3CC0611, 0x259B0C6949A9121B, 0x60E17AC16D2F82AD, 0x3AA41F1CE175D92D,
   0x413FBE6A9B9BC4F3, 0x00022A81D8D55643],
  [0xB8ADBC70FC82E54A, 0xEF9CDDB0D5FADDED, 0x5820C734C80096A0, 0x7799994BAA96E0E4, 0x044961599E379AF8,
   0xDB2B94FBF09F27E2, 0x0000B87FC716C0C6]]

/-- `B_gen` (`P434/P434.c:56-67`) -/
def bGen434 : List (List Digit) := [
  [0x6E5497556EDD48A3, 0x2A61B501546F1C05, 0xEB919446D049887D, 0x5864A4A69D450C4F, 0xB883F276A6490D2B,
   0x22CC287022D5F5B9, 0x0001BED4772E551F],
  [0x0000000000000000, 0x0000000000000000, 0x0000000000000000, 0x0000000000000000, 0x0000000000000000,
   0x0000000000000000, 0x0000000000000000],
  [0xFAE2A3F93D8B6B8E, 0x494871F51700FE1C, 0xEF1A94228413C27C, 0x498FF4A4AF60BD62, 0xB00AD2A708267E8A,
   0xF4328294E017837F, 0x000034080181D8AE],
  [0x0000000000000000, 0x0000000000000000, 0x0000000000000000, 0x0000000000000000, 0x0000000000000000,
   0x0000000000000000, 0x0000000000000000],
  [0x283B34FAFEFDC8E4, 0x9208F44977C3E647, 0x7DEAE962816F4E9A, 0x68A2BA8AA262EC9D, 0x8176F112EA43F45B,
   0x02106D022634F504, 0x00007E8A50F02E37],
  [0xB378B7C1DA22CCB1, 0x6D089C99AD1D9230, 0xEBE15711813E2369, 0x2B35A68239D48A53, 0x445F6FD138407C93,
   0xBEF93B29A3F6B54B, 0x000173FA910377D3]]

/-- `A_gen` (`P503/P503.c:43-54`) -/
def aGen503 : List (List Digit) := [
  [0x5D083011589AD893, 0xADFD8D2CB67D0637, 0x330C9AC34FFB6361, 0xF0D47489A2E805A2, 0x27E2789259C6B8DC,
   0x63866A2C121931B9, 0x8D4C65A7137DCF44, 0x003A183AE5967B3F],
  [0x7E3541B8C96D1519, 0xD3ADAEEC0D61A26C, 0xC0A2219CE7703DD9, 0xFF3E46658FCDBC52, 0xD5B38DEAE6E196FF,
   0x1AAC826364956D58, 0xEC9F4875B9A5F27A, 0x001B0B475AB99843],
  [0x4D83695107D03BAD, 0x221F3299005E2FCF, 0x78E6AE22F30DECF2, 0x6D982DB5111253E4, 0x504C80A8AB4526A8,
   0xEFD0C3AA210BB024, 0xCB77483501DC6FCF, 0x001052544A96BDF3],
  [0x0D74FE3402BCAE47, 0xDF5B8CDA832D8AED, 0xB86BCF06E4BD837E, 0x892A2933A0FA1F63, 0x9F88FC67B6CCB461,
   0x822926EA9DDA3AC8, 0xEAC8DDE5855425ED, 0x000618FE6DA37A80],
  [0x1D9D32D2DC877C17, 0x5517CD8F71D5B02B, 0x395AFB8F6B60C117, 0x3AE31AC85F9098C8, 0x5F5341C198450848,
   0xF8C609DBEA435C6A, 0xD832BC7EDC7BA5E4, 0x002AD98AA6968BF5],
  [0xC466CAB0F73C2E5B, 0x7B1817148FB2CF9C, 0x873E87C099E470A0, 0xBB17AC6D17A7BAC1, 0xA146FDCD0F2E2A58,
   0x88B311E9CEAB6201, 0x37604CF5C7951757, 0x0006804071C74BF9]]

/-- `B_gen` (`P503/P503.c:56-67`) -/
def bGen503 : List (List Digit) := [
  [0xDF630FC5FB2468DB, 0xC30C5541C102040E, 0x3CDC9987B76511FC, 0xF54B5A09353D0CDD, 0x3ADBA8E00703C42F,
   0x8253F9303DDC95D0, 0x62D30778763ABFD7, 0x001CD00FB581CD55],
  [0x0000000000000000, 0x0000000000000000, 0x0000000000000000, 0x0000000000000000, 0x0000000000000000,
   0x0000000000000000, 0x0000000000000000, 0x0000000000000000],
  [0x2E3457A12B429261, 0x311F94E89627DCF8, 0x5B71C98FD1DB73F6, 0x3671DB7DCFC21541, 0xB6D1484C9FE0CF4F,
   0x19CD110717356E35, 0xF4F9FB00AC9919DF, 0x0035BC124D38A70B],
  [0x0000000000000000, 0x0000000000000000, 0x0000000000000000, 0x0000000000000000, 0x0000000000000000,
   0x0000000000000000, 0x0000000000000000, 0x0000000000000000],
  [0x2E08BB99413D2952, 0xD3021467CD088D72, 0x21017AF859752245, 0x26314ED8FFD9DE5C, 0x4AF43C73344B6686,
   0xCFA1F91149DF0993, 0xF327A95365587A89, 0x000DBF54E03D3906],
  [0x03E03FF342F5F304, 0x993D604D7B4B6E56, 0x80412F4D9280E71F, 0x0FFDC9EF990B3982, 0xE584E64C51604931,
   0x1374F42AC8B0BBD7, 0x07D5BC37DFA41A5F, 0x00396CCFD61FD34C]]

/-- `A_gen` (`P610/P610.c:43-54`) -/
def aGen610 : List (List Digit) := [
  [0x5019EC96A75AC57A, 0x8AEA0E717712C6F1, 0x03C067C819D29E5E, 0x59F454425FE307D9, 0x6D29215D9AD5E6D4,
   0xD8C5A27CDC9DD34A, 0x972DC274DAB435B3, 0x82A597C70A80E10F, 0x48175986EFED547F, 0x00000000671A3592],
  [0xE4BA9CC3EEEC53F4, 0xBD34E4FEDB0132D3, 0x1B7125C87BEE960C, 0x25D615BF3CFAA355, 0xFC8EC20DC367D66A,
   0xB44F3FD1CC73289C, 0xD84BF51195C2E012, 0x38D7C756EB370F48, 0xBBC236249F94F72A, 0x000000013020CC63],
  [0x1D7C945D3DBCC38C, 0x9A5F7C12CA8BA5B9, 0x1E8F87985B01CBE3, 0xD2CABF82F5BC5235, 0x3BDE474ECCA9FAA2,
   0xB98CD975DF9FB0A8, 0x444E4464B9C67790, 0xCB2E888565CE6AD9, 0xDB64FFE2A1C350E2, 0x00000001D7532756],
  [0x1E8B3AA2382C9079, 0x28CB31E08A943C00, 0xE04D02266E8A63E1, 0x84A2D260214EF65F, 0xD5933DA25018E226,
   0xBC8BF038928C4BA9, 0x91E9D0CB7EAF58A9, 0x04A4627B75E008E1, 0x58CEF27583E50C2E, 0x00000002170DDF44],
  [0x261DD0782CEC958D, 0xC25B3AE64BBC0311, 0x9F21B8A8981B15FE, 0xA3C0B52CD5FFC45B, 0x5D2E65A016702C6A,
   0x8C5586CA98722EDE, 0x61490A967A6B4B1A, 0xFA64E30231F719AF, 0x9CEAB8B6301BB2DF, 0x00000000CF5AEA7D],
  [0xB980435A77B912C0, 0x2B4A97F70E0FC873, 0x415C7FA4DE96F43C, 0xE5EED95643E443FD, 0xCBE18DB57C51B354,
   0x51C96C3FFABD2D46, 0x5C14637B9A5765D6, 0x45D2369C4D0199A5, 0x25A1F9C5BBF1E683, 0x000000025AD7A11B]]

/-- `B_gen` (`P610/P610.c:56-67`) -/
def bGen610 : List (List Digit) := [
  [0xC6C8E180E41884BA, 0x2161D2F4FBC32B95, 0xCBF83091BDB34092, 0xD742CC0AD4CC7E38, 0x61A1FA7E1B14FBD7,
   0xF0E5FC70137597C4, 0x1F0C8F2585E20B1F, 0xC68E44A1C032A4C2, 0xE3C65FB8AF155A0D, 0x00000001409EE8D5],
  [0x0000000000000000, 0x0000000000000000, 0x0000000000000000, 0x0000000000000000, 0x0000000000000000,
   0x0000000000000000, 0x0000000000000000, 0x0000000000000000, 0x0000000000000000, 0x0000000000000000],
  [0xF586DB4A16BE1880, 0x712F10D95E6C65A9, 0x9D5AAC3B83584B87, 0x4ECDAA98182C8261, 0xAD7D4C15588FD230,
   0x4197C54E96B7D926, 0xED15BB13E8C588ED, 0x3E299AEAD5AAD7C7, 0xF36B25F1BD579F79, 0x000000021CE65B5B],
  [0x0000000000000000, 0x0000000000000000, 0x0000000000000000, 0x0000000000000000, 0x0000000000000000,
   0x0000000000000000, 0x0000000000000000, 0x0000000000000000, 0x0000000000000000, 0x0000000000000000],
  [0x7A87897A0C4C3FD7, 0x3C1879ECD4D33D76, 0x595C28A36FFBA1A0, 0xF53FF66A2A7FD0FB, 0xB39F5A91230E56FA,
   0x81F21610DA3EA8B5, 0xEBB3B9A627428A90, 0x8661123B35748010, 0xE196173B9C48781D, 0x00000002198166AC],
  [0x5E3CC79B37006D6A, 0xE0358A9AB2EA7923, 0x3B725CB595180951, 0x0724637F1DD0C191, 0x7BB031B67DAB9D19,
   0x53CCB8BECEDD3435, 0xEE5DF7FFEBFA7A0A, 0x899EDB7D8B9694C4, 0x0CA38EB4AE5506B6, 0x00000001489DE1CD]]

/-- `A_gen` (`P751/P751.c:41-52`) -/
def aGen751 : List (List Digit) := [
  [0x884F46B74000BAA8, 0xBA52630F939DEC20, 0xC16FB97BA714A04D, 0x082536745B1AB3DB, 0x1117157F446F9E82,
   0xD2F27D621A018490, 0x6B24AB523D544BCD, 0x9307D6AA2EA85C94, 0xE1A096729528F20F, 0x896446F868F3255C,
   0x2401D996B1BFF8A5, 0x00000EF8786A5C0A],
  [0xAEB78B3B96F59394, 0xAB26681E29C90B74, 0xE520AC30FDC4ACF1, 0x870AAAE3A4B8111B, 0xF875BDB738D64EFF,
   0x50109A7ECD7ED6BC, 0x4CC64848FF0C56FB, 0xE617CB6C519102C9, 0x9C74B3835921E609, 0xC91DDAE4A35A7146,
   0x7FC82A155C1B9129, 0x0000214FA6B980B3],
  [0x0F93CC38680A8CA9, 0x762E733822E7FED7, 0xE549F005AC0ADB67, 0x94A71FDD2C43A4ED, 0xD48645C2B04721C5,
   0x432DA1FE4D4CA4DC, 0xBC99655FAA7A80E8, 0xB2C6D502BCFD4823, 0xEE92F40CA2EC8BDB, 0x7B074132EFB6D16C,
   0x3340B46FA38A7633, 0x0000215749657F6C],
  [0xECFF375BF3079F4C, 0xFBFE74B043E80EF3, 0x17376CBE3C5C7AD1, 0xC06327A7E29CDBF2, 0x2111649C438BF3D4,
   0xC1F9298261BA2E97, 0x1F9FECE869CFD1C2, 0x01A39B4FC9346D62, 0x147CD1D3E82A3C9F, 0xDE84E9D249E533EE,
   0x1C48A5ADFB7C578D, 0x000061ACA0B82E1D],
  [0x1600C525D41059F1, 0xA596899A0A1D83F7, 0x6BFDEED6D2B23F35, 0x5C7E707270C23910, 0x276CA1A4E8369411,
   0xB193651A602925A0, 0x243D239F1CA1F04A, 0x543DC6DA457860AD, 0xCDA590F325181DE9, 0xD3AB7ACFDA80B395,
   0x6C97468580FDDF7B, 0x0000352A3E5C4C77],
  [0x9B794F9FD1CC3EE8, 0xDB32E40A9B2FD23E, 0x26192A2542E42B67, 0xA18E94FCA045BCE7, 0x96DC1BC38E7CDA2D,
   0x9A1D91B752487DE2, 0xCC63763987436DA3, 0x1316717AACCC551D, 0xC4C368A4632AFE72, 0x4B6EA85C9CCD5710,
   0x7A12CAD582C7BC9A, 0x00001C7E240149BF]]

/-- `B_gen` (`P751/P751.c:54-65`) -/
def bGen751 : List (List Digit) := [
  [0x85691AAF4015F88C, 0x7478C5B8C36E9631, 0x7EF2A185DE4DD6E2, 0x943BBEE46BEB9DC7, 0x1A3EC62798792D22,
   0x791BC4B084B31D69, 0x03DBE6522CEA17C4, 0x04749AA65D665D83, 0x3D52B5C45EF450F3, 0x0B4219848E36947D,
   0xA4CF7070466BDE27, 0x0000334B1FA6D193],
  [0x0000000000000000, 0x0000000000000000, 0x0000000000000000, 0x0000000000000000, 0x0000000000000000,
   0x0000000000000000, 0x0000000000000000, 0x0000000000000000, 0x0000000000000000, 0x0000000000000000,
   0x0000000000000000, 0x0000000000000000],
  [0x8E7CB3FA53211340, 0xD67CE54F7A05EEE0, 0xFDDC2C8BCE46FC38, 0x08587FAE3110DF1E, 0xD6B8246FA22B058B,
   0x4DAC3ACC905A5DBD, 0x51D0BF2FADCED3E8, 0xE5A2406DF6484425, 0x907F177584F671B8, 0x4738A2FFCCED051C,
   0x2B0067B4177E4853, 0x00002806AC948D3D],
  [0x0000000000000000, 0x0000000000000000, 0x0000000000000000, 0x0000000000000000, 0x0000000000000000,
   0x0000000000000000, 0x0000000000000000, 0x0000000000000000, 0x0000000000000000, 0x0000000000000000,
   0x0000000000000000, 0x0000000000000000],
  [0xB56457016D1D6D1C, 0x03DECCB38F39C491, 0xDFB910AC8A559452, 0xA9D0F17D1FF24883, 0x8562BBAF515C248C,
   0x249B2A6DDB1CB67D, 0x3131AF96FB46835C, 0xE10258398480C3E1, 0xEAB5E2B872D4FAB1, 0xB71E63875FAEB1DF,
   0xF8384D4F13757CF6, 0x0000361EC9B09912],
  [0x58C967899ED16EF4, 0x81998376DC622A4B, 0x3D1C1DCFE0B12681, 0x9347DEBB953E1730, 0x9ABB344D3A82C2D7,
   0xE4881BD2820552B2, 0x0037247923D90266, 0x2E3156EDB157E5A5, 0xF86A46A7506823F7, 0x8FE5523A7B7F1CFC,
   0xFA3CFFA38372F67B, 0x0000692DCE85FFBD]]
/-- `A_gen` of a level: real and imaginary parts of three elements, in Montgomery form -/
def aGen : Level → List (List Digit)
  | .l434 => aGen434
  | .l503 => aGen503
  | .l610 => aGen610
  | .l751 => aGen751

/-- `B_gen` of a level -/
def bGen : Level → List (List Digit)
  | .l434 => bGen434
  | .l503 => bGen503
  | .l610 => bGen610
  | .l751 => bGen751

/-- `init_basis` (`sidh.c:14-23`) -/
def initBasis (l : Level) : List (List Digit) → Three l.F
  | [a, b, c, d, e, f] => ⟨f2Val (tables l) l.p ⟨a, b⟩, f2Val (tables l) l.p ⟨c, d⟩, f2Val (tables l) l.p ⟨e, f⟩⟩
  | _ => ⟨0, 0, 0⟩

/-- `OBOB_BITS` (`P434_internal.h:39` …) -/
def obobBits : Level → ℕ
  | .l434 => 218
  | .l503 => 253
  | .l610 => 305
  | .l751 => 379

/-- The bytes of a field element in Montgomery representation after `fp2correction`, as they lie in memory: two arrays of
`NWORDS_FIELD` 64-bit words, least significant byte first. -/
def montBytes (l : Level) (x : l.F) : Bytes :=
  leBytes (8 * (tables l).n) (x.re * 2 ^ (64 * (tables l).n)).val ++
    leBytes (8 * (tables l).n) (x.im * 2 ^ (64 * (tables l).n)).val

/-- `memcmp((uint8_t*)x, (uint8_t*)y, 2*NBITS_TO_NBYTES(NBITS_FIELD)) == 0` (`sidh.c:297`, `config.h:123`). The number of bytes
is that of two elements without leading zero bytes, while the elements in memory have them: the most significant bytes of the
imaginary parts are not compared. -/
def sameBytes (l : Level) (x y : l.F) : Bool :=
  (montBytes l x).take (2 * (((tables l).nbits + 7) / 8)) = (montBytes l y).take (2 * (((tables l).nbits + 7) / 8))

/-- `is_sqr_fp2` (`fpx.c:864-890`), return value -/
def isSqrFp2 (l : Level) (a : l.F) : Bool :=
  let a0 := a.re * a.re
  let a1 := a.im * a.im
  let z := a0 + a1
  let s := z
  let s := sqrs (l.iso.e2 - 2) s
  let s := cubes l.iso.e3 s
  let temp := s * s
  temp = z

/-- The configuration of a level -/
def cfg (l : Level) : Cfg l.F where
  toEnv := l.env
  genA := initBasis l (aGen l)
  genB := initBasis l (bGen l)
  bobBits := obobBits l
  same := sameBytes l
  eight := match l with
    | .l610 => true
    | _ => false
  isSqr := isSqrFp2 l

/-- `SECRETKEY_A_BYTES`, `SECRETKEY_B_BYTES` (`P434_internal.h:52-53` …) -/
def skABytes (l : Level) : ℕ := (l.iso.e2 + 7) / 8
def skBBytes (l : Level) : ℕ := (obobBits l - 1 + 7) / 8

/-- `decode_to_digits` of a private key (`fpx.c:63-72`), as an integer -/
def decodeKey (n : ℕ) (k : Bytes) : ℕ := leNat (k.take n)

/-- A field element at the given offset of a public key -/
def chunk (l : Level) (pk : Bytes) (i : ℕ) : PFp2 :=
  ⟨(pk.drop i).take (params l).fpBytes, (pk.drop (i + (params l).fpBytes)).take (params l).fpBytes⟩

/-- The three calls of `fp2_decode` on a public key (`sidh.c:218-220`, `sidh.c:331-333`); `FP2_ENCODED_BYTES` is twice `fpBytes`. -/
def decodePk (l : Level) (pk : Bytes) : Three l.F :=
  ⟨decode l (chunk l pk 0), decode l (chunk l pk (2 * (params l).fpBytes)), decode l (chunk l pk (2 * (2 * (params l).fpBytes)))⟩

/-- The three calls of `fp2_encode` (`sidh.c:125-127`, `sidh.c:197-199`) -/
def encodePk (l : Level) (t : Three l.F) : Bytes := flat (encode l t.P) ++ flat (encode l t.Q) ++ flat (encode l t.R)

/-- `EphemeralKeyGeneration_A` (`sidh.c:50-130`) -/
def ephGenA (l : Level) (k : Bytes) : Option Bytes := (keyGenA (cfg l) (decodeKey (skABytes l) k)).map (encodePk l)

/-- `EphemeralKeyGeneration_B` (`sidh.c:133-202`) -/
def ephGenB (l : Level) (k : Bytes) : Option Bytes := (keyGenB (cfg l) (decodeKey (skBBytes l) k)).map (encodePk l)

/-- `EphemeralSecretAgreement_A` (`sidh.c:205-271`) -/
def ephAgreeA (l : Level) (k pk : Bytes) : Option Bytes :=
  (secretA (cfg l) (decodeKey (skABytes l) k) (decodePk l pk)).map fun j => flat (encode l j)

/-- `EphemeralSecretAgreement_B_extended` (`sidh.c:318-383`): `some none` if it returns 1 -/
def ephAgreeBExt (l : Level) (sike : ℕ) (k pk : Bytes) : Option (Option Bytes) :=
  (secretB (cfg l) sike (decodeKey (skBBytes l) k) (decodePk l pk)).map fun r => r.map fun j => flat (encode l j)

/-- `EphemeralSecretAgreement_B` (`sidh.c:386-394`) -/
def ephAgreeB (l : Level) (k pk : Bytes) : Option (Option Bytes) := ephAgreeBExt l 0 k pk

end Secuer.Sidh
