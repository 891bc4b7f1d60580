import Verif.Text.Model

/-!
# Specification of the text format

What the file of a proof is supposed to look like, written down as a plain concatenation and
without any of the functions of the model (only the data types are shared).
-/

namespace Secuer.Text.Spec

open Secuer Secuer.Text

/-- ASCII text as bytes. -/
def ascii (s : String) : Bytes := s.toList.map fun c => UInt8.ofNat c.toNat

/-- The sixteen hexadecimal digits in order. -/
def digits : List Char :=
  ['0', '1', '2', '3', '4', '5', '6', '7', '8', '9', 'a', 'b', 'c', 'd', 'e', 'f']

theorem digits_length : digits.length = 16 := rfl

/-- Two hexadecimal digits, most significant first. -/
def byteText (b : UInt8) : Bytes :=
  have h1 : b.toNat / 16 < digits.length := by
    have := b.toNat_lt; rw [digits_length]; omega
  have h2 : b.toNat % 16 < digits.length := Nat.mod_lt _ (by decide)
  [UInt8.ofNat (digits[b.toNat / 16]).toNat, UInt8.ofNat (digits[b.toNat % 16]).toNat]

def bytesText (bs : Bytes) : Bytes := bs.flatMap byteText

/-- One coordinate: `0x` and the big-endian hexadecimal rendering of a little-endian array. -/
def coordText (v : Bytes) : Bytes := ascii "0x" ++ bytesText v.reverse

/-- One field element without its end of line. -/
def fp2Body (v : PFp2) : Bytes := coordText v.real ++ ascii "," ++ coordText v.imag

/-- One field element line. -/
def fp2Line (v : PFp2) : Bytes := fp2Body v ++ ascii "\n"

def bytesLine (bs : Bytes) : Bytes := bytesText bs ++ ascii "\n"

def chainLines (vs : List PFp2) : Bytes := vs.flatMap fp2Line

def respText : Resp → Bytes
  | .left r2 h3 chain => ascii "-1\n" ++ bytesLine r2 ++ bytesLine h3 ++ chainLines chain
  | .bottom r2 r3 E2 chain =>
      ascii "0\n" ++ bytesLine r2 ++ bytesLine r3 ++ fp2Line E2 ++ chainLines chain
  | .right h2 r3 chain => ascii "1\n" ++ bytesLine h2 ++ bytesLine r3 ++ chainLines chain

/-- The complete proof file. -/
def proofText (p : Proof) : Bytes :=
  fp2Line p.E0 ++ fp2Line p.E1 ++ p.resp.flatMap respText

/-- White space characters. -/
def White (c : UInt8) : Prop := c ∈ ascii " \t\n\r" ++ [11, 12]

/-! The individual output calls a complete dump consists of. The Boolean says whether the call
writes anything other than a tag line. -/

def hexWrites (bs : Bytes) : List (Bool × Bytes) := bs.map fun b => (true, byteText b)

def coordWrites (v : Bytes) : List (Bool × Bytes) := (true, ascii "0x") :: hexWrites v.reverse

def fp2Writes (v : PFp2) : List (Bool × Bytes) :=
  coordWrites v.real ++ [(true, ascii ",")] ++ coordWrites v.imag ++ [(true, ascii "\n")]

def bytesWrites (bs : Bytes) : List (Bool × Bytes) := hexWrites bs ++ [(true, ascii "\n")]

def respWrites : Resp → List (Bool × Bytes)
  | .left r2 h3 chain =>
      [(false, ascii "-1\n")] ++ bytesWrites r2 ++ bytesWrites h3 ++ chain.flatMap fp2Writes
  | .bottom r2 r3 E2 chain =>
      [(false, ascii "0\n")] ++ bytesWrites r2 ++ bytesWrites r3 ++ fp2Writes E2 ++
        chain.flatMap fp2Writes
  | .right h2 r3 chain =>
      [(false, ascii "1\n")] ++ bytesWrites h2 ++ bytesWrites r3 ++ chain.flatMap fp2Writes

def proofWrites (p : Proof) : List (Bool × Bytes) :=
  fp2Writes p.E0 ++ fp2Writes p.E1 ++ p.resp.flatMap respWrites

end Secuer.Text.Spec
