import Verif.Sage.Model

/-!
# The Sage verifier: `sage-impl/verify.sage`

The whole script: reading the proof, unpacking the responses, the challenge and the verdict. What it calls in Sage's library
is a parameter `Lib`; `Lib.OK` says what is assumed of it, in terms of Mathlib's group of points.

* `curve` (`39-43`): `set_order` multiplies random points; `lib.order` is its outcome.
* `@parallel` (`198`) runs the responses in any order; here they run one after the other. Only whether `None`, an exception or
  both are met could depend on the order; the proof is accepted only if neither is.
* Standard input is ASCII; Python's limit on the length of decimal numbers (4300 digits) is ignored.
-/

namespace Secuer.Sage

open Secuer.Protocol Secuer.Curve Secuer.Mont Secuer.Field Secuer.Text Secuer.Scalar
open Secuer.CurveProps (jOf IsX)
open Secuer.ChainProps (RightOrder)
open Secuer.Challenge.Spec (firstBlocks)

/-- What a call can come to -/
inductive Res (α : Type) where
  | ok (v : α)
  /-- `raise Invalid`, `return None`, `invalid()` -/
  | invalid
  /-- any other exception, reaching the top level or turning a worker's result into the string `'NO DATA'` -/
  | crash
  /-- the loop of `challenge` needs more bytes than were looked at -/
  | running
deriving DecidableEq

def Res.bind {α β : Type} (r : Res α) (k : α → Res β) : Res β :=
  match r with
  | .ok v => k v
  | .invalid => .invalid
  | .crash => .crash
  | .running => .running

/-! ### Sage's library -/

/-- What is used of Sage. -/
structure Lib (l : Level) where
  /-- do the random points drawn by `set_order` (`verify.sage:42`) have the claimed order? -/
  order : l.F → Bool
  /-- the two points of order `ℓ` found by `verify.sage:75-79` -/
  basis : ℕ → (a : l.F) → (W a).Point × (W a).Point
  /-- `E.lift_x(x)` (`verify.sage:82`); `none` for a `ValueError` -/
  lift : (a x : l.F) → Option (W a).Point
  /-- codomain of `canonical(f.codomain()) * f`, for `f = E.isogeny(K)` (`verify.sage:85-86`, `63-68`), and the map on points -/
  isog : (a : l.F) → (W a).Point → (a' : l.F) × ((W a).Point → (W a').Point)

variable {l : Level}

/-- A point over `GF(p²)`, over the closure. -/
noncomputable def up {a : l.F} (P : (W a).Point) : (W (l.φ a)).Point := (exists_pointMap l.φ a).choose P

variable (l) in
/-- `min(As, key = …)` (`verify.sage:64-67`): the least coefficient with its j-invariant. The roots of the numerator are the
coefficients of nonsingular curves with the j-invariant. -/
def Least (a : l.F) : Prop := a ^ 2 ≠ 4 ∧ ∀ b : l.F, b ^ 2 ≠ 4 → jOf b = jOf a →
  a.re.val < b.re.val ∨ (a.re.val = b.re.val ∧ a.im.val ≤ b.im.val)

/-- `f` is, on the points over `GF(p²)`, an isogeny of degree `d` with kernel generated by `P`. -/
def IsIsogeny (d : ℕ) {a a' : l.F} (P : (W a).Point) (f : (W a).Point → (W a').Point) : Prop :=
  ∃ (ψ : (W (l.φ a)).Point →+ (W (l.φ a')).Point) (N D : MvPolynomial (Fin 2) l.F),
    Function.Surjective ψ ∧ ψ.ker = AddSubgroup.zmultiples (up P) ∧ N.IsHomogeneous d ∧ D.IsHomogeneous d ∧
    (∀ q Q, IsX q Q → IsX ⟨N.eval₂ l.φ ![q.X, q.Z], D.eval₂ l.φ ![q.X, q.Z]⟩ (ψ Q)) ∧
    ∀ R, up (f R) = ψ (up R)

/-- What is assumed of the library, on curves of the right order. -/
structure Lib.OK (lib : Lib l) : Prop where
  order : ∀ a, RightOrder l a → lib.order a = true
  basis : ∀ (a : l.F) (ℓ : ℕ), RightOrder l a → ℓ = 2 ∨ ℓ = 3 →
    ℓ • (lib.basis ℓ a).1 = 0 ∧ ℓ • (lib.basis ℓ a).2 = 0 ∧ (lib.basis ℓ a).1 ≠ 0 ∧
    (lib.basis ℓ a).2 ∉ AddSubgroup.zmultiples (lib.basis ℓ a).1
  lift_some : ∀ (a x : l.F) (P : (W a).Point), RightOrder l a → lib.lift a x = some P → ∃ y h, P = .some x y h
  lift_none : ∀ (a x : l.F), RightOrder l a → lib.lift a x = none → ∀ y, ¬ (W a).Nonsingular x y
  isog : ∀ (a : l.F) (P : (W a).Point) (ℓ e : ℕ), RightOrder l a → (ℓ = 2 ∧ e = l.iso.e2) ∨ (ℓ = 3 ∧ e = l.iso.e3) →
    addOrderOf P = ℓ ^ e → Least l (lib.isog a P).1 ∧ IsIsogeny (ℓ ^ e) P (lib.isog a P).2

/-! ### Curves and chains -/

variable (lib : Lib l)

open Classical in
/-- `curve` (`verify.sage:39-43`): a singular equation and a failed `set_order` are exceptions. -/
noncomputable def curve (a : l.F) : Res Unit :=
  if a ^ 2 = 4 then .crash else if lib.order a then .ok () else .crash

open Classical in
/-- The loop of `unpack_chain` (`verify.sage:81-92`); `ℓ`, `d` are `l` and `deg`. -/
noncomputable def chainLoop (ℓ d : ℕ) : List l.F → (a : l.F) → (W a).Point → (W a).Point → Res l.F
  | [], a, _, _ => .ok a
  | x :: xs, a, P, Q =>
    match lib.lift a x with
    | none => .crash
    | some K =>
      if d • K ≠ 0 ∨ (d / ℓ) • K = 0 then .invalid else
      (curve lib (lib.isog a K).1).bind fun _ =>
      if (lib.isog a K).2 P = 0 ∧ (lib.isog a K).2 Q = 0 then .invalid else
      chainLoop ℓ d xs (lib.isog a K).1 ((lib.isog a K).2 P) ((lib.isog a K).2 Q)

/-- `unpack_chain` (`verify.sage:70-92`) -/
noncomputable def unpackChain (a : l.F) (xs : List l.F) (ℓ d : ℕ) : Res l.F :=
  (curve lib a).bind fun _ => chainLoop lib ℓ d xs a (lib.basis ℓ a).1 (lib.basis ℓ a).2

/-! ### Proofs -/

/-- `Parameters` (`verify.sage:96-101`) -/
structure Parameters where
  a : ℕ
  b : ℕ
  reps : ℕ
  w : ℕ
  h : ℕ

/-- `params` (`verify.sage:221-226`) -/
def parameters : Level → Parameters
  | .l434 => ⟨216, 137, 219, 4, 7⟩
  | .l503 => ⟨250, 159, 219, 4, 7⟩
  | .l610 => ⟨305, 192, 329, 4, 7⟩
  | .l751 => ⟨372, 239, 438, 4, 7⟩

variable (l) in
/-- `LeftResponse`, `BottomResponse`, `RightResponse` (`verify.sage:120-123`, `134-138`, `151-154`) -/
inductive SResp where
  | left (r2 h3 : Bytes) (chain : List l.F)
  | bottom (r2 r3 : Bytes) (E2 : l.F) (chain : List l.F)
  | right (h2 r3 : Bytes) (chain : List l.F)

variable (l) in
/-- `Proof` (`verify.sage:167-172`) -/
structure SProof where
  E0 : l.F
  E1 : l.F
  tags : List Int
  responses : List (SResp l)

/-- The `unpack` methods (`verify.sage:129-132`, `144-149`, `160-163`) -/
noncomputable def unpackResp (H : Hash) (E0 E1 : l.F) : SResp l → Res (Bytes × Bytes)
  | .left r2 h3 chain =>
    (unpackChain lib E0 chain 3 (3 ^ (parameters l).b)).bind fun b => .ok (hashHiding l H r2 (jOf b), h3)
  | .bottom r2 r3 E2 chain =>
    (curve lib E2).bind fun _ =>
    (unpackChain lib E2 chain 2 (2 ^ (parameters l).a)).bind fun b =>
      .ok (hashHiding l H r2 (jOf E2), hashHiding l H r3 (jOf b))
  | .right h2 r3 chain =>
    (unpackChain lib E1 chain 3 (3 ^ (parameters l).b)).bind fun b => .ok (h2, hashHiding l H r3 (jOf b))

/-- The loop over the results (`verify.sage:207-211`) -/
noncomputable def unpackList (H : Hash) (E0 E1 : l.F) : List (SResp l) → Res (List (Bytes × Bytes))
  | [] => .ok []
  | r :: rs => (unpackResp lib H E0 E1 r).bind fun h => (unpackList H E0 E1 rs).bind fun hs => .ok (h :: hs)

/-- `challenge` (`verify.sage:45-61`), on the first `fuel` blocks of output -/
noncomputable def challenge (H : Hash) (fuel : ℕ) (E0 E1 : l.F) (hs : List (Bytes × Bytes)) : Res (List Int) :=
  (curve lib E0).bind fun _ => (curve lib E1).bind fun _ =>
    match sampler hs.length (firstBlocks (H.block (challengeInput l E0 E1 hs)) fuel) [] with
    | none => .running
    | some ts => .ok ts

/-- `verify` (`verify.sage:196-216`) -/
noncomputable def verify (H : Hash) (fuel : ℕ) (prf : SProof l) : Res (l.F × l.F) :=
  (unpackList lib H prf.E0 prf.E1 prf.responses).bind fun hs =>
  (challenge lib H fuel prf.E0 prf.E1 hs).bind fun ts =>
  if ts = prf.tags then .ok (prf.E0, prf.E1) else .invalid

/-! ### Reading -/

/-- The lines that successive calls of `input()` return: universal newlines, and a last line without a newline counts if it is
not empty. -/
def pyLines : Bytes → Bytes → List Bytes
  | acc, [] => if acc = [] then [] else [acc]
  | acc, 13 :: 10 :: s => acc :: pyLines [] s
  | acc, c :: s => if c = 10 ∨ c = 13 then acc :: pyLines [] s else pyLines (acc ++ [c]) s

/-- A call that consumes lines -/
abbrev Rd (α : Type) := List Bytes → Res (α × List Bytes)

/-- `input()`; `EOFError` at the end -/
def readLine : Rd Bytes
  | [] => .crash
  | s :: ss => .ok (s, ss)

/-- Does `[0-9]+$` match? -/
def isDecimal (s : Bytes) : Bool := !s.isEmpty && s.all isDigit

/-- `int` of decimal digits -/
def decimalVal (s : Bytes) : ℕ := s.foldl (fun n c => 10 * n + (c.toNat - 48)) 0

/-- `read_int` (`verify.sage:13-17`) -/
def readInt : Rd Int := fun ss =>
  (readLine ss).bind fun (s, ss) =>
    match s with
    | 45 :: ds => if isDecimal ds then .ok (-(decimalVal ds : Int), ss) else .invalid
    | ds => if isDecimal ds then .ok ((decimalVal ds : Int), ss) else .invalid

/-- `bytes.fromhex` -/
def fromHex : Bytes → Bytes
  | a :: b :: s => UInt8.ofNat (16 * xDigitVal a + xDigitVal b) :: fromHex s
  | _ => []

/-- `read_bytes` (`verify.sage:19-23`) -/
def readBytes : Rd Bytes := fun ss =>
  (readLine ss).bind fun (s, ss) =>
    if s ≠ [] ∧ s.length % 2 = 0 ∧ s.all isXDigit then .ok (fromHex s, ss) else .invalid

/-- `int(…, 0)` of `0x` and hexadecimal digits -/
def hexVal (s : Bytes) : ℕ := s.foldl (fun n c => 16 * n + xDigitVal c) 0

/-- `0x[0-9a-f]+` at the beginning of the line, ignoring case, as long as possible: the digits and the rest -/
def hexPrefix : Bytes → Option (Bytes × Bytes)
  | 48 :: c :: s =>
    if (c = 120 ∨ c = 88) ∧ s.takeWhile isXDigit ≠ [] then some (s.takeWhile isXDigit, s.dropWhile isXDigit) else none
  | _ => none

variable (l) in
/-- `read_element` (`verify.sage:113-118`) -/
def readElement : Rd l.F := fun ss =>
  (readLine ss).bind fun (s, ss) =>
    match hexPrefix s with
    | some (c1, 44 :: s) =>
      match hexPrefix s with
      | some (ci, []) => .ok (⟨(hexVal c1 : ZMod l.p), (hexVal ci : ZMod l.p)⟩, ss)
      | _ => .invalid
    | _ => .invalid

variable (l) in
/-- `[param.read_element() for _ in range(n)]` -/
def readElements : ℕ → Rd (List l.F)
  | 0, ss => .ok ([], ss)
  | n + 1, ss => (readElement l ss).bind fun (v, ss) => (readElements n ss).bind fun (vs, ss) => .ok (v :: vs, ss)

variable (l) in
/-- The `read` methods, selected by the tag (`verify.sage:125-127`, `140-142`, `156-158`, `184-191`) -/
def readResp (tag : Int) : Rd (SResp l) := fun ss =>
  if tag = -1 then
    (readBytes ss).bind fun (r2, ss) => (readBytes ss).bind fun (h3, ss) =>
    (readElements l (parameters l).h ss).bind fun (chain, ss) => .ok (.left r2 h3 chain, ss)
  else if tag = 0 then
    (readBytes ss).bind fun (r2, ss) => (readBytes ss).bind fun (r3, ss) => (readElement l ss).bind fun (E2, ss) =>
    (readElements l (parameters l).w ss).bind fun (chain, ss) => .ok (.bottom r2 r3 E2 chain, ss)
  else if tag = 1 then
    (readBytes ss).bind fun (h2, ss) => (readBytes ss).bind fun (r3, ss) =>
    (readElements l (parameters l).h ss).bind fun (chain, ss) => .ok (.right h2 r3 chain, ss)
  else .invalid

variable (l) in
/-- The loop of `Proof.read` (`verify.sage:181-191`) -/
def readResps : ℕ → Rd (List Int × List (SResp l))
  | 0, ss => .ok (([], []), ss)
  | n + 1, ss =>
    (readInt ss).bind fun (tag, ss) => (readResp l tag ss).bind fun (r, ss) =>
    (readResps n ss).bind fun ((ts, rs), ss) => .ok ((tag :: ts, r :: rs), ss)

variable (l) in
/-- `Proof.read` (`verify.sage:175-194`); lines that are left over are not looked at. -/
def read : Rd (SProof l) := fun ss =>
  (readElement l ss).bind fun (E0, ss) => (readElement l ss).bind fun (E1, ss) =>
  (readResps l (parameters l).reps ss).bind fun ((ts, rs), ss) => .ok (⟨E0, E1, ts, rs⟩, ss)

/-- The main program (`verify.sage:242-253`): `ok` for exit code 0, with what is printed. -/
noncomputable def run (H : Hash) (fuel : ℕ) (stdin : Bytes) : Res (l.F × l.F) :=
  (read l (pyLines [] stdin)).bind fun (prf, _) => verify lib H fuel prf

end Secuer.Sage
