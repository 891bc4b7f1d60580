import Verif.Params

/-!
# Text format: model of `poik.c:1508-1673` (`Dump*`, `Parse*`)

Characters and bytes are both `UInt8`. A `FILE*` opened for reading is the list of bytes not
yet read; a `FILE*` opened for writing is a `Sink`: the bytes emitted so far plus an oracle that
says which of the individual stdio calls fail (and after how many characters).
-/

namespace Secuer.Text

open Secuer

abbrev Byte := UInt8
abbrev Bytes := List UInt8

/-! ## Data (`poik.h:49-95`) -/

/-- `packed_fp2` (`poik.h:49-56`): the two halves `real`, `imag` of the byte array. -/
structure PFp2 where
  real : Bytes
  imag : Bytes
deriving DecidableEq, Repr

/-- Contents of `struct response` selected by a legal tag (`poik.h:73-94`).
The C union is modelled by its active member only; bytes of the union outside the active member
are never read for that tag. -/
inductive Resp where
  /-- `RESP_LEFT = -1` -/
  | left (r2 h3 : Bytes) (chain : List PFp2)
  /-- `RESP_BOTTOM = 0` -/
  | bottom (r2 r3 : Bytes) (E2 : PFp2) (chain : List PFp2)
  /-- `RESP_RIGHT = +1` -/
  | right (h2 r3 : Bytes) (chain : List PFp2)
deriving DecidableEq, Repr

/-- The value of the `tag` enumerator (`poik.h:74-78`). -/
def Resp.tag : Resp → Int
  | .left .. => -1
  | .bottom .. => 0
  | .right .. => 1

/-- `struct response` as it lies in memory (`poik.h:73-94`): an `int`-sized tag and a union.
The union is over-approximated by three independent views, so that statements about all
`CResp` cover every real memory content. -/
structure CResp where
  tag : Int
  leftR2 : Bytes
  leftH3 : Bytes
  leftChain : List PFp2
  bottomR2 : Bytes
  bottomR3 : Bytes
  bottomE2 : PFp2
  bottomChain : List PFp2
  rightH2 : Bytes
  rightR3 : Bytes
  rightChain : List PFp2
deriving DecidableEq, Repr

/-- `struct proof` (`poik.h:71-95`), responses restricted to legal tags. -/
structure Proof where
  E0 : PFp2
  E1 : PFp2
  resp : List Resp
deriving DecidableEq, Repr

/-- `struct proof` with unrestricted tags. -/
structure CProof where
  E0 : PFp2
  E1 : PFp2
  resp : List CResp
deriving DecidableEq, Repr

/-- The union member selected by the tag; `none` for a tag outside the enumeration. -/
def CResp.active (r : CResp) : Option Resp :=
  if r.tag = -1 then some (.left r.leftR2 r.leftH3 r.leftChain)
  else if r.tag = 0 then some (.bottom r.bottomR2 r.bottomR3 r.bottomE2 r.bottomChain)
  else if r.tag = 1 then some (.right r.rightH2 r.rightR3 r.rightChain)
  else none

/-! Array sizes of the C structs. -/

def PFp2.WF (P : Params) (v : PFp2) : Prop :=
  v.real.length = P.fpBytes ∧ v.imag.length = P.fpBytes

def Resp.WF (P : Params) : Resp → Prop
  | .left r2 h3 chain =>
      r2.length = P.hide ∧ h3.length = P.hash ∧ chain.length = P.height ∧ ∀ v ∈ chain, v.WF P
  | .bottom r2 r3 E2 chain =>
      r2.length = P.hide ∧ r3.length = P.hide ∧ E2.WF P ∧ chain.length = P.width ∧
        ∀ v ∈ chain, v.WF P
  | .right h2 r3 chain =>
      h2.length = P.hash ∧ r3.length = P.hide ∧ chain.length = P.height ∧ ∀ v ∈ chain, v.WF P

def Proof.WF (P : Params) (p : Proof) : Prop :=
  p.E0.WF P ∧ p.E1.WF P ∧ p.resp.length = P.reps ∧ ∀ r ∈ p.resp, r.WF P

def CResp.WF (P : Params) (r : CResp) : Prop :=
  Resp.WF P (.left r.leftR2 r.leftH3 r.leftChain) ∧
  Resp.WF P (.bottom r.bottomR2 r.bottomR3 r.bottomE2 r.bottomChain) ∧
  Resp.WF P (.right r.rightH2 r.rightR3 r.rightChain) ∧
  -2147483648 ≤ r.tag ∧ r.tag ≤ 2147483647

def CProof.WF (P : Params) (p : CProof) : Prop :=
  p.E0.WF P ∧ p.E1.WF P ∧ p.resp.length = P.reps ∧ ∀ r ∈ p.resp, r.WF P

/-! ## Writing -/

/-- An output stream. `fault n = some k` means that the `n`-th stdio call on it fails after
emitting `k` of its characters; `none` means it succeeds. -/
structure Sink where
  out : Bytes
  calls : Nat
  fault : Nat → Option Nat

/-- One stdio output call (`fprintf`/`fputc`) that tries to emit `s`; the Boolean says whether
the call reported full success. -/
def Sink.put (f : Sink) (s : Bytes) : Bool × Sink :=
  match f.fault f.calls with
  | none => (true, { f with out := f.out ++ s, calls := f.calls + 1 })
  | some k => (false, { f with out := f.out ++ s.take k, calls := f.calls + 1 })

/-- The C idiom `if (!A) return false; B`. -/
def andThen (r : Bool × Sink) (k : Sink → Bool × Sink) : Bool × Sink :=
  if r.1 then k r.2 else (false, r.2)

/-- Lower-case hexadecimal digit as printed by `%x`. -/
def hexDigit (d : Nat) : Byte :=
  if d < 10 then UInt8.ofNat (48 + d) else UInt8.ofNat (87 + d)

/-- `"%02hhx"` applied to a byte. -/
def hex2 (b : Byte) : Bytes := [hexDigit (b.toNat / 16), hexDigit (b.toNat % 16)]

/-- The loop `for (i...) if (2 != fprintf(file, "%02hhx", buf[i])) return false;` shared by
`Dump_Bytes` (`poik.c:1510-1512`) and, on the reversed array, `dump_packed_fp`
(`poik.c:1524-1526`). -/
def dumpHex (f : Sink) : Bytes → Bool × Sink
  | [] => (true, f)
  | b :: bs => andThen (f.put (hex2 b)) fun f => dumpHex f bs

/-- `Dump_Bytes` (`poik.c:1508-1516`). -/
def dumpBytes (f : Sink) (buf : Bytes) : Bool × Sink :=
  andThen (dumpHex f buf) fun f => f.put [10]

/-- `dump_packed_fp` (`poik.c:1520-1528`): `"0x"`, then the bytes from the last to the first. -/
def dumpPackedFp (f : Sink) (v : Bytes) : Bool × Sink :=
  andThen (f.put [48, 120]) fun f => dumpHex f v.reverse

/-- `Dump_Fp2` (`poik.c:1530-1541`). -/
def dumpFp2 (f : Sink) (v : PFp2) : Bool × Sink :=
  andThen (dumpPackedFp f v.real) fun f =>
  andThen (f.put [44]) fun f =>
  andThen (dumpPackedFp f v.imag) fun f => f.put [10]

/-- `for (i...) dump(&chain.x[i]);` (`poik.c:1558-1559, 1565-1566, 1571-1572`). -/
def dumpChain (f : Sink) : List PFp2 → Bool × Sink
  | [] => (true, f)
  | v :: vs => andThen (dumpFp2 f v) fun f => dumpChain f vs

/-- The three legal outputs of `"%d\n"` on a tag. -/
def tagLine : Resp → Bytes
  | .left .. => [45, 49, 10]
  | .bottom .. => [48, 10]
  | .right .. => [49, 10]

/-- Loop body of `Dump` (`poik.c:1550-1576`) for a response with a legal tag. The result of the
`fprintf` that writes the tag (`poik.c:1552`) is ignored, exactly as in the code. -/
def dumpResp (f : Sink) (r : Resp) : Bool × Sink :=
  let f := (f.put (tagLine r)).2
  match r with
  | .left r2 h3 chain =>
    andThen (dumpBytes f r2) fun f =>
    andThen (dumpBytes f h3) fun f => dumpChain f chain
  | .bottom r2 r3 E2 chain =>
    andThen (dumpBytes f r2) fun f =>
    andThen (dumpBytes f r3) fun f =>
    andThen (dumpFp2 f E2) fun f => dumpChain f chain
  | .right h2 r3 chain =>
    andThen (dumpBytes f h2) fun f =>
    andThen (dumpBytes f r3) fun f => dumpChain f chain

/-- The loop over `prf->resp` in `Dump` (`poik.c:1549-1577`). -/
def dumpResps (f : Sink) : List Resp → Bool × Sink
  | [] => (true, f)
  | r :: rs => andThen (dumpResp f r) fun f => dumpResps f rs

/-- `Dump` (`poik.c:1543-1582`) on a proof with legal tags. -/
def dump (f : Sink) (p : Proof) : Bool × Sink :=
  andThen (dumpFp2 f p.E0) fun f =>
  andThen (dumpFp2 f p.E1) fun f => dumpResps f p.resp

/-- `Dump` on an arbitrary in-memory proof: if the first illegal tag is reached, the `switch`
falls into `__builtin_unreachable()` (`poik.c:1574-1575`), i.e. undefined behaviour (`none`).
Simplification: a proof with any illegal tag is `none` even if an earlier write fails first. -/
def dumpC (f : Sink) (p : CProof) : Option (Bool × Sink) :=
  (p.resp.mapM CResp.active).map fun rs => dump f ⟨p.E0, p.E1, rs⟩

/-! ## Reading -/

/-- Outcome of reading from a file: success with a value and the unread rest, failure
(the function returns `false`/`-1`), or undefined behaviour. The contents of the output
parameters after a failure are not modelled. -/
inductive PRes (α : Type) where
  | ok (v : α) (rest : Bytes)
  | fail
  | ub
deriving Repr, DecidableEq

def PRes.bind {α β : Type} (r : PRes α) (k : α → Bytes → PRes β) : PRes β :=
  match r with
  | .ok v rest => k v rest
  | .fail => .fail
  | .ub => .ub

/-- C `isspace` in the "C" locale: space, `\t`, `\n`, `\v`, `\f`, `\r`. -/
def isSpace (c : Byte) : Bool := c == 32 || (9 ≤ c.toNat && c.toNat ≤ 13)

/-- The directive `" "` of `fscanf`: skip any amount of white space. -/
def skipWs : Bytes → Bytes
  | [] => []
  | c :: cs => if isSpace c then skipWs cs else c :: cs

/-- `isxdigit` on a non-negative `char`. -/
def isXDigit (c : Byte) : Bool :=
  (48 ≤ c.toNat && c.toNat ≤ 57) || (65 ≤ c.toNat && c.toNat ≤ 70) ||
    (97 ≤ c.toNat && c.toNat ≤ 102)

/-- Value of a hexadecimal digit as computed by `strtol(.., 16)`. -/
def xDigitVal (c : Byte) : Nat :=
  if c.toNat ≤ 57 then c.toNat - 48
  else if c.toNat ≤ 70 then c.toNat - 55
  else c.toNat - 87

/-- Passing a negative `char` other than `EOF` (= -1, byte 255) to a `<ctype.h>` function is
undefined behaviour (C11 7.4p1); `char` is signed on the platforms supported. -/
def ctypeUB (c : Byte) : Bool := 128 ≤ c.toNat && c.toNat ≤ 254

/-- `parse_hex_byte` (`poik.c:1584-1591`): `fscanf("%c%c")`, `isxdigit` twice with
short-circuit `||`, then `strtol` base 16. -/
def parseHexByte : Bytes → PRes Byte
  | a :: b :: rest =>
    if ctypeUB a then .ub
    else if !isXDigit a then .fail
    else if ctypeUB b then .ub
    else if !isXDigit b then .fail
    else .ok (UInt8.ofNat (16 * xDigitVal a + xDigitVal b)) rest
  | _ => .fail

/-- The byte loop of `Parse_Bytes` (`poik.c:1596-1601`) and, with the result reversed, of
`parse_packed_fp` (`poik.c:1611-1616`). -/
def parseHex : Nat → Bytes → PRes Bytes
  | 0, s => .ok [] s
  | n + 1, s =>
    (parseHexByte s).bind fun b s =>
      (parseHex n s).bind fun bs s => .ok (b :: bs) s

/-- `Parse_Bytes` (`poik.c:1593-1603`). -/
def parseBytes (n : Nat) (s : Bytes) : PRes Bytes := parseHex n (skipWs s)

/-- `parse_packed_fp` (`poik.c:1605-1618`): white space, `0x`, then bytes written from the last
index down to the first. -/
def parsePackedFp (n : Nat) (s : Bytes) : PRes Bytes :=
  match skipWs s with
  | a :: b :: rest =>
    if a == 48 && b == 120 then (parseHex n rest).bind fun bs r => .ok bs.reverse r
    else .fail
  | _ => .fail

/-- `Parse_Fp2` (`poik.c:1620-1630`). -/
def parseFp2 (P : Params) (s : Bytes) : PRes PFp2 :=
  (parsePackedFp P.fpBytes s).bind fun re s =>
    match skipWs s with
    | c :: s =>
      if c == 44 then (parsePackedFp P.fpBytes s).bind fun im s => .ok ⟨re, im⟩ s
      else .fail
    | [] => .fail

/-- `for (i...) parse(&chain.x[i]);` (`poik.c:1649-1650, 1656-1657, 1662-1663`). -/
def parseChain (P : Params) : Nat → Bytes → PRes (List PFp2)
  | 0, s => .ok [] s
  | n + 1, s =>
    (parseFp2 P s).bind fun v s =>
      (parseChain P n s).bind fun vs s => .ok (v :: vs) s

def isDigit (c : Byte) : Bool := 48 ≤ c.toNat && c.toNat ≤ 57

/-- Longest run of decimal digits, accumulated into a number; also the number of digits. -/
def scanDigits : Nat → Nat → Bytes → Nat × Nat × Bytes
  | acc, n, [] => (acc, n, [])
  | acc, n, c :: cs =>
    if isDigit c then scanDigits (10 * acc + (c.toNat - 48)) (n + 1) cs else (acc, n, c :: cs)

/-- Apply the sign and check that the value is representable in `int`. A value that is not is
undefined behaviour (C11 7.21.6.2p10). -/
def intRes (neg : Bool) (v : Nat) (rest : Bytes) : PRes Int :=
  if v ≤ 2147483647 ∨ (neg = true ∧ v = 2147483648) then
    .ok (if neg then -(v : Int) else v) rest
  else .ub

/-- The part of `%d` after the optional sign: at least one digit is required. -/
def scanFin (neg : Bool) (s : Bytes) : PRes Int :=
  match scanDigits 0 0 s with
  | (_, 0, _) => .fail
  | (v, _ + 1, rest) => intRes neg v rest

/-- `fscanf(file, " %d", ..)` (`poik.c:1642`): white space, optional sign, decimal digits. -/
def scanInt (s : Bytes) : PRes Int :=
  match skipWs s with
  | c :: cs =>
    if c == 45 then scanFin true cs else if c == 43 then scanFin false cs
    else scanFin false (c :: cs)
  | [] => .fail

/-- Loop body of `Parse` (`poik.c:1640-1667`). -/
def parseResp (P : Params) (s : Bytes) : PRes Resp :=
  (scanInt s).bind fun tag s =>
    if tag = -1 then
      (parseBytes P.hide s).bind fun r2 s =>
        (parseBytes P.hash s).bind fun h3 s =>
          (parseChain P P.height s).bind fun chain s => .ok (.left r2 h3 chain) s
    else if tag = 0 then
      (parseBytes P.hide s).bind fun r2 s =>
        (parseBytes P.hide s).bind fun r3 s =>
          (parseFp2 P s).bind fun E2 s =>
            (parseChain P P.width s).bind fun chain s => .ok (.bottom r2 r3 E2 chain) s
    else if tag = 1 then
      (parseBytes P.hash s).bind fun h2 s =>
        (parseBytes P.hide s).bind fun r3 s =>
          (parseChain P P.height s).bind fun chain s => .ok (.right h2 r3 chain) s
    else .fail

/-- The loop over repetitions in `Parse` (`poik.c:1639-1668`). -/
def parseResps (P : Params) : Nat → Bytes → PRes (List Resp)
  | 0, s => .ok [] s
  | n + 1, s =>
    (parseResp P s).bind fun r s =>
      (parseResps P n s).bind fun rs s => .ok (r :: rs) s

/-- `Parse` (`poik.c:1632-1673`). -/
def parse (P : Params) (s : Bytes) : PRes Proof :=
  (parseFp2 P s).bind fun E0 s =>
    (parseFp2 P s).bind fun E1 s =>
      (parseResps P P.reps s).bind fun rs s => .ok ⟨E0, E1, rs⟩ s

end Secuer.Text
