import Verif.Text.Lemmas
import Mathlib.Tactic.ByContra
import Mathlib.Tactic.FinCases
import Mathlib.Data.Fintype.Basic

/-!
# The language accepted by the parser

`Spec.IsProof p t` says, without any function of the model, when the characters `t` are a
rendering of the proof `p` that the reader is supposed to understand (arbitrary white space
between tokens, upper- or lower-case hexadecimal digits, an optional sign and leading zeros in
tags). The lemmas show that `parse` accepts exactly these renderings.
-/

namespace Secuer.Text

namespace Spec

/-- Value of a hexadecimal digit of either case. -/
def HexValue (c : UInt8) (x : Nat) : Prop :=
  (ascii "0123456789abcdef")[x]? = some c ∨ (ascii "0123456789ABCDEF")[x]? = some c

/-- `t` are two hexadecimal digits denoting `b`. -/
def IsByte (b : UInt8) (t : Bytes) : Prop :=
  ∃ h l x y, t = [h, l] ∧ HexValue h x ∧ HexValue l y ∧ b.toNat = 16 * x + y

/-- `t` is a concatenation of renderings of the elements of a list. -/
def IsSeq {α : Type} (G : α → Bytes → Prop) : List α → Bytes → Prop
  | [], t => t = []
  | a :: as, t => ∃ t1 t2, t = t1 ++ t2 ∧ G a t1 ∧ IsSeq G as t2

/-- Optional white space followed by `G`. -/
def Spaced (G : Bytes → Prop) (t : Bytes) : Prop :=
  ∃ w u, t = w ++ u ∧ (∀ c ∈ w, White c) ∧ G u

def IsHex (bs : Bytes) : Bytes → Prop := Spaced (IsSeq IsByte bs)

def IsCoord (v : Bytes) : Bytes → Prop :=
  Spaced fun t => ∃ u, t = ascii "0x" ++ u ∧ IsSeq IsByte v.reverse u

def IsFp2 (v : PFp2) (t : Bytes) : Prop :=
  ∃ t1 t2, t = t1 ++ t2 ∧ IsCoord v.real t1 ∧
    Spaced (fun t => ∃ u, t = ascii "," ++ u ∧ IsCoord v.imag u) t2

def Digit (c : UInt8) : Prop := c ∈ ascii "0123456789"

/-- Value of a decimal digit string. -/
def decimal : Nat → Bytes → Nat
  | acc, [] => acc
  | acc, c :: cs => decimal (10 * acc + (c.toNat - 48)) cs

/-- A decimal integer in the range of `int`. -/
def IsInt (n : Int) : Bytes → Prop :=
  Spaced fun t => -2147483648 ≤ n ∧ n ≤ 2147483647 ∧
    ∃ sgn ds, t = sgn ++ ds ∧ ds ≠ [] ∧ (∀ c ∈ ds, Digit c) ∧
      ((sgn = ascii "-" ∧ n = -(decimal 0 ds : Int)) ∨
       ((sgn = [] ∨ sgn = ascii "+") ∧ n = (decimal 0 ds : Int)))

/-- The fields following the tag. -/
def IsFields : Resp → Bytes → Prop
  | .left r2 h3 chain, t => ∃ t1 t2 t3, t = t1 ++ (t2 ++ t3) ∧ IsHex r2 t1 ∧ IsHex h3 t2 ∧
      IsSeq IsFp2 chain t3
  | .bottom r2 r3 E2 chain, t => ∃ t1 t2 t3 t4, t = t1 ++ (t2 ++ (t3 ++ t4)) ∧ IsHex r2 t1 ∧
      IsHex r3 t2 ∧ IsFp2 E2 t3 ∧ IsSeq IsFp2 chain t4
  | .right h2 r3 chain, t => ∃ t1 t2 t3, t = t1 ++ (t2 ++ t3) ∧ IsHex h2 t1 ∧ IsHex r3 t2 ∧
      IsSeq IsFp2 chain t3

/-- One response: the tag as an integer, not directly followed by a digit, and the fields. -/
def IsResp (r : Resp) (t : Bytes) : Prop :=
  ∃ t0 t1, t = t0 ++ t1 ∧
    IsInt (match r with | .left .. => -1 | .bottom .. => 0 | .right .. => 1) t0 ∧
    (∀ c, t1.head? = some c → ¬ Digit c) ∧ IsFields r t1

def IsProof (p : Proof) (t : Bytes) : Prop :=
  ∃ t0 t1 t2, t = t0 ++ (t1 ++ t2) ∧ IsFp2 p.E0 t0 ∧ IsFp2 p.E1 t1 ∧ IsSeq IsResp p.resp t2

end Spec

open Spec

/-- The parser `p` accepts exactly the texts described by `G`, with no look-ahead. -/
def Reads {α} (p : Bytes → PRes α) (G : α → Bytes → Prop) : Prop :=
  ∀ s v r, p s = .ok v r ↔ ∃ t, s = t ++ r ∧ G v t

theorem Reads.bind {α β} {p : Bytes → PRes α} {k : α → Bytes → PRes β} {G : α → Bytes → Prop}
    {H : α → β → Bytes → Prop} (hp : Reads p G) (hk : ∀ a, Reads (k a) (H a)) :
    Reads (fun s => (p s).bind k) (fun b t => ∃ a t1 t2, t = t1 ++ t2 ∧ G a t1 ∧ H a b t2) := by
  intro s v r
  constructor
  · intro h
    match hps : p s with
    | .ok a s' =>
      simp only [hps, PRes.bind_ok] at h
      obtain ⟨t1, rfl, h1⟩ := (hp s a s').1 hps
      obtain ⟨t2, rfl, h2⟩ := (hk a _ _ _).1 h
      exact ⟨t1 ++ t2, by simp, a, t1, t2, rfl, h1, h2⟩
    | .fail => simp [hps] at h
    | .ub => simp [hps] at h
  · rintro ⟨_, rfl, a, t1, t2, rfl, h1, h2⟩
    have := (hp (t1 ++ (t2 ++ r)) a (t2 ++ r)).2 ⟨t1, rfl, h1⟩
    simp only [List.append_assoc, this, PRes.bind_ok]
    exact (hk a _ _ _).2 ⟨t2, rfl, h2⟩

theorem Reads.ret {α} (a : α) : Reads (fun s => PRes.ok a s) (fun b t => b = a ∧ t = []) := by
  intro s v r
  constructor
  · intro h
    injection h with h1 h2
    exact ⟨[], by simp [h2], h1.symm, rfl⟩
  · rintro ⟨_, rfl, rfl, rfl⟩; rfl

theorem Reads.congr {α} {p : Bytes → PRes α} {G H : α → Bytes → Prop} (hp : Reads p G)
    (h : ∀ v t, G v t ↔ H v t) : Reads p H := by
  intro s v r
  rw [hp s v r]
  simp only [h]

theorem forall_byte {Q : UInt8 → Prop} (h : ∀ n : Fin 256, Q (UInt8.ofNat n.val)) (c : UInt8) : Q c := by
  have := h ⟨c.toNat, c.toNat_lt⟩
  simpa using this

theorem white_iff (c : UInt8) : White c ↔ isSpace c = true := by
  have e : ascii " \t\n\r" ++ [11, 12] = [32, 9, 10, 13, 11, 12] := by decide
  rw [White, e]
  constructor
  · intro h
    simp only [List.mem_cons, List.not_mem_nil, or_false] at h
    rcases h with rfl | rfl | rfl | rfl | rfl | rfl <;> decide
  · intro h
    simp only [isSpace, Bool.or_eq_true, beq_iff_eq, Bool.and_eq_true, decide_eq_true_eq] at h
    rcases h with rfl | h
    · simp
    · have : c.toNat = 9 ∨ c.toNat = 10 ∨ c.toNat = 11 ∨ c.toNat = 12 ∨ c.toNat = 13 := by omega
      have hc : c = UInt8.ofNat c.toNat := by simp
      rcases this with h | h | h | h | h <;> rw [hc, h] <;> decide

/-- Skipping white space in front of a parser that does not itself accept leading white space. -/
theorem Reads.spaced {α} {p : Bytes → PRes α} {G : α → Bytes → Prop} (hp : Reads p G)
    (hne : ∀ v t, G v t → ∃ c u, t = c :: u ∧ ¬ White c) :
    Reads (fun s => p (skipWs s)) (fun v => Spaced (G v)) := by
  intro s v r
  constructor
  · intro h
    obtain ⟨t, ht, hG⟩ := (hp _ _ _).1 h
    have : ∀ s : Bytes, ∃ w, s = w ++ skipWs s ∧ ∀ c ∈ w, White c := by
      intro s
      induction s with
      | nil => exact ⟨[], rfl, by simp⟩
      | cons c cs ih =>
        unfold skipWs
        split
        · rename_i hc
          obtain ⟨w, h1, h2⟩ := ih
          refine ⟨c :: w, by rw [List.cons_append, ← h1], ?_⟩
          intro d hd
          rcases List.mem_cons.1 hd with rfl | hd
          · exact (white_iff _).2 hc
          · exact h2 d hd
        · exact ⟨[], rfl, by simp⟩
    obtain ⟨w, h1, h2⟩ := this s
    exact ⟨w ++ t, by rw [h1, ht, List.append_assoc], w, t, rfl, h2, hG⟩
  · rintro ⟨_, rfl, w, u, rfl, hw, hG⟩
    obtain ⟨c, u', rfl, hc⟩ := hne v u hG
    have : skipWs (w ++ (c :: u') ++ r) = c :: u' ++ r := by
      rw [List.append_assoc, skipWs_white (fun d hd => (white_iff d).1 (hw d hd))]
      rw [white_iff] at hc
      simp [skipWs, hc]
    show p (skipWs (w ++ (c :: u') ++ r)) = _
    rw [this]
    exact (hp _ _ _).2 ⟨_, rfl, hG⟩

theorem hexValue_iff (c : UInt8) (x : Nat) :
    HexValue c x ↔ (isXDigit c = true ∧ xDigitVal c = x) := by
  have e1 : ascii "0123456789abcdef" =
    [48, 49, 50, 51, 52, 53, 54, 55, 56, 57, 97, 98, 99, 100, 101, 102] := by decide
  have e2 : ascii "0123456789ABCDEF" =
    [48, 49, 50, 51, 52, 53, 54, 55, 56, 57, 65, 66, 67, 68, 69, 70] := by decide
  rw [HexValue, e1, e2]
  constructor
  · intro h
    have hx : x < 16 := by
      by_contra hx
      have h1 : ∀ l : List UInt8, l.length = 16 → l[x]? = none := by
        intro l hl; rw [List.getElem?_eq_none]; omega
      rw [h1 _ rfl, h1 _ rfl] at h
      simp at h
    have hall : ∀ l : List UInt8, l.length = 16 →
        (∀ x : Fin 16, isXDigit (l.getD x.val 0) = true ∧ xDigitVal (l.getD x.val 0) = x.val) →
        l[x]? = some c → isXDigit c = true ∧ xDigitVal c = x := by
      intro l _ hl' hc
      have := hl' ⟨x, hx⟩
      simp only [List.getD, hc, Option.getD_some] at this
      exact this
    rcases h with h | h
    · exact hall _ rfl (by decide) h
    · exact hall _ rfl (by decide) h
  · rintro ⟨h, rfl⟩
    simp only [isXDigit, Bool.or_eq_true, Bool.and_eq_true, decide_eq_true_eq] at h
    have hc : c = UInt8.ofNat c.toNat := by simp
    have h' : c.toNat = 48 ∨ c.toNat = 49 ∨ c.toNat = 50 ∨ c.toNat = 51 ∨ c.toNat = 52 ∨
      c.toNat = 53 ∨ c.toNat = 54 ∨ c.toNat = 55 ∨ c.toNat = 56 ∨ c.toNat = 57 ∨ c.toNat = 65 ∨
      c.toNat = 66 ∨ c.toNat = 67 ∨ c.toNat = 68 ∨ c.toNat = 69 ∨ c.toNat = 70 ∨ c.toNat = 97 ∨
      c.toNat = 98 ∨ c.toNat = 99 ∨ c.toNat = 100 ∨ c.toNat = 101 ∨ c.toNat = 102 := by omega
    rcases h' with h | h | h | h | h | h | h | h | h | h | h | h | h | h | h | h | h | h | h | h | h | h <;>
      rw [hc, h] <;> decide

theorem xdigit_facts (c : UInt8) (h : isXDigit c = true) :
    ctypeUB c = false ∧ isSpace c = false ∧ xDigitVal c < 16 := by
  simp only [isXDigit, Bool.or_eq_true, Bool.and_eq_true, decide_eq_true_eq] at h
  refine ⟨?_, ?_, ?_⟩
  · simp only [ctypeUB, Bool.and_eq_false_iff, decide_eq_false_iff_not]; omega
  · simp only [isSpace, Bool.or_eq_false_iff, beq_eq_false_iff_ne, Bool.and_eq_false_iff,
      decide_eq_false_iff_not]
    refine ⟨?_, by omega⟩
    rintro rfl
    simp at h
  · unfold xDigitVal; split
    · omega
    · split <;> omega

theorem reads_byte : Reads parseHexByte IsByte := by
  intro s v r
  constructor
  · intro h
    match s, h with
    | a :: b :: rest, h =>
      simp only [parseHexByte] at h
      split at h
      · cases h
      · split at h
        · cases h
        · split at h
          · cases h
          · split at h
            · cases h
            · rename_i h1 h2 h3 h4
              injection h with h5 h6
              simp only [Bool.not_eq_true', Bool.not_eq_false] at h2 h4
              refine ⟨[a, b], by simp [h6], a, b, _, _, rfl, (hexValue_iff _ _).2 ⟨h2, rfl⟩,
                (hexValue_iff _ _).2 ⟨h4, rfl⟩, ?_⟩
              rw [← h5]
              have := (xdigit_facts a h2).2.2
              have := (xdigit_facts b h4).2.2
              simp only [UInt8.toNat_ofNat']
              omega
    | [], h => simp [parseHexByte] at h
    | [a], h => simp [parseHexByte] at h
  · rintro ⟨_, rfl, h, l, x, y, rfl, hx, hy, hv⟩
    obtain ⟨h1, rfl⟩ := (hexValue_iff _ _).1 hx
    obtain ⟨h2, rfl⟩ := (hexValue_iff _ _).1 hy
    simp only [List.cons_append, List.nil_append, parseHexByte, (xdigit_facts _ h1).1,
      (xdigit_facts _ h2).1, h1, h2, Bool.not_true, Bool.false_eq_true, if_false]
    rw [← hv]; simp

theorem Reads.seq {α} {p : Bytes → PRes α} {G : α → Bytes → Prop} (hp : Reads p G)
    {q : Nat → Bytes → PRes (List α)} (h0 : ∀ s, q 0 s = .ok [] s)
    (h1 : ∀ n s, q (n + 1) s = (p s).bind fun a s => (q n s).bind fun as s => .ok (a :: as) s) :
    ∀ n, Reads (q n) (fun as t => as.length = n ∧ IsSeq G as t)
  | 0 => by
    have := Reads.ret (α := List α) []
    rw [show q 0 = fun s => PRes.ok [] s from funext h0]
    refine this.congr fun v t => ?_
    constructor
    · rintro ⟨rfl, rfl⟩; exact ⟨rfl, rfl⟩
    · rintro ⟨h, h'⟩
      have := List.length_eq_zero_iff.1 h
      subst this
      exact ⟨rfl, h'⟩
  | n + 1 => by
    have ih := Reads.seq hp h0 h1 n
    rw [show q (n + 1) = _ from funext (h1 n)]
    refine (hp.bind fun a => ih.bind fun as => Reads.ret (a :: as)).congr fun v t => ?_
    constructor
    · rintro ⟨a, t1, t2, rfl, ha, as, t3, t4, rfl, ⟨hl, has⟩, rfl, rfl⟩
      exact ⟨by simp [hl], t1, t3, by simp, ha, has⟩
    · rintro ⟨hl, hs⟩
      cases v with
      | nil => simp at hl
      | cons a as =>
        obtain ⟨t1, t2, rfl, ha, has⟩ := hs
        exact ⟨a, t1, t2, rfl, ha, as, t2, [], by simp, ⟨by simpa using hl, has⟩, rfl, rfl⟩

theorem reads_hex (n : Nat) : Reads (parseHex n) (fun bs t => bs.length = n ∧ IsSeq IsByte bs t) :=
  reads_byte.seq (q := parseHex) (fun _ => rfl) (fun _ _ => rfl) n

theorem isByte_head {b t} (h : IsByte b t) : ∃ c u, t = c :: u ∧ ¬ White c := by
  obtain ⟨h, l, x, y, rfl, hx, _, _⟩ := h
  refine ⟨h, [l], rfl, ?_⟩
  rw [white_iff]
  have := (xdigit_facts h ((hexValue_iff _ _).1 hx).1).2.1
  simp [this]

theorem isSeq_head {α} {G : α → Bytes → Prop} (hG : ∀ a t, G a t → ∃ c u, t = c :: u ∧ ¬ White c)
    {as : List α} {t} (hl : 0 < as.length) (h : IsSeq G as t) : ∃ c u, t = c :: u ∧ ¬ White c := by
  cases as with
  | nil => simp at hl
  | cons a as =>
    obtain ⟨t1, t2, rfl, ha, _⟩ := h
    obtain ⟨c, u, rfl, hc⟩ := hG a t1 ha
    exact ⟨c, u ++ t2, rfl, hc⟩

theorem reads_bytes {n : Nat} (hn : 0 < n) :
    Reads (parseBytes n) (fun bs t => bs.length = n ∧ IsHex bs t) := by
  refine ((reads_hex n).spaced ?_).congr ?_
  · rintro v t ⟨hl, h⟩
    exact isSeq_head (fun _ _ => isByte_head) (by omega) h
  · intro v t
    constructor
    · rintro ⟨w, u, rfl, hw, hl, h⟩; exact ⟨hl, w, u, rfl, hw, h⟩
    · rintro ⟨hl, w, u, rfl, hw, h⟩; exact ⟨w, u, rfl, hw, hl, h⟩

/-- A literal string in front of a parser. -/
theorem reads_coord (n : Nat) :
    Reads (parsePackedFp n) (fun v t => v.length = n ∧ IsCoord v t) := by
  have e : ascii "0x" = [48, 120] := by decide
  have h1 : Reads (fun s : Bytes => match s with
      | a :: b :: rest =>
        if a == 48 && b == 120 then (parseHex n rest).bind fun bs r => .ok bs.reverse r else .fail
      | _ => (PRes.fail : PRes Bytes))
      (fun v t => v.length = n ∧ ∃ u, t = ascii "0x" ++ u ∧ IsSeq IsByte v.reverse u) := by
    have h2 := (reads_hex n).bind (k := fun bs r => PRes.ok bs.reverse r) (fun bs => Reads.ret bs.reverse)
    intro s v r
    constructor
    · intro h
      match s, h with
      | [], h => cases h
      | [_], h => cases h
      | a :: b :: rest, h =>
        simp only at h
        split at h
        · rename_i hab
          simp only [Bool.and_eq_true, beq_iff_eq] at hab
          obtain ⟨t, rfl, bs, t1, t2, rfl, ⟨hl, hs⟩, rfl, rfl⟩ := (h2 _ _ _).1 h
          refine ⟨ascii "0x" ++ t1, ?_, by simp [hl], t1, rfl, by simpa using hs⟩
          rw [e, hab.1, hab.2]; simp
        · cases h
    · rintro ⟨_, rfl, hl, u, rfl, hs⟩
      rw [e]
      have := (h2 (u ++ r) v r).2 ⟨u, rfl, v.reverse, u, [], by simp, ⟨by simp [hl], hs⟩, by simp, rfl⟩
      simpa using this
  have h3 := h1.spaced (by
    rintro v t ⟨_, u, rfl, _⟩
    rw [e]
    exact ⟨48, 120 :: u, rfl, by rw [white_iff]; decide⟩)
  refine (show Reads (parsePackedFp n) _ from h3).congr ?_
  intro v t
  constructor
  · rintro ⟨w, u, rfl, hw, hl, h⟩; exact ⟨hl, w, u, rfl, hw, h⟩
  · rintro ⟨hl, w, u, rfl, hw, h⟩; exact ⟨w, u, rfl, hw, hl, h⟩

theorem reads_fp2 (P : Params) : Reads (parseFp2 P) (fun v t => v.WF P ∧ IsFp2 v t) := by
  have e : ascii "," = [44] := by decide
  have h1 : ∀ re, Reads (fun s : Bytes => match s with
      | c :: s =>
        if c == 44 then (parsePackedFp P.fpBytes s).bind fun im s => .ok (⟨re, im⟩ : PFp2) s else .fail
      | [] => (PRes.fail : PRes PFp2))
      (fun v t => v.real = re ∧ v.imag.length = P.fpBytes ∧ ∃ u, t = ascii "," ++ u ∧ IsCoord v.imag u) := by
    intro re
    have h2 := (reads_coord P.fpBytes).bind (k := fun im s => PRes.ok (⟨re, im⟩ : PFp2) s)
      (fun im => Reads.ret _)
    intro s v r
    constructor
    · intro h
      match s, h with
      | [], h => cases h
      | c :: rest, h =>
        simp only at h
        split at h
        · rename_i hab
          simp only [beq_iff_eq] at hab
          obtain ⟨t, rfl, bs, t1, t2, rfl, ⟨hl, hs⟩, rfl, rfl⟩ := (h2 _ _ _).1 h
          refine ⟨ascii "," ++ t1, ?_, rfl, hl, t1, rfl, hs⟩
          rw [e, hab]; simp
        · cases h
    · rintro ⟨_, rfl, rfl, hl, u, rfl, hs⟩
      rw [e]
      have := (h2 (u ++ r) v r).2 ⟨u, rfl, v.imag, u, [], by simp, ⟨hl, hs⟩, rfl, rfl⟩
      simpa using this
  have h3 := fun re => (h1 re).spaced (by
    rintro v t ⟨_, _, u, rfl, _⟩
    rw [e]
    exact ⟨44, u, rfl, by rw [white_iff]; decide⟩)
  have h4 := (reads_coord P.fpBytes).bind h3
  refine (show Reads (parseFp2 P) _ from h4).congr ?_
  intro v t
  constructor
  · rintro ⟨re, t1, t2, rfl, ⟨hl, hc⟩, w, u, rfl, hw, rfl, hl', h⟩
    exact ⟨⟨hl, hl'⟩, t1, w ++ u, rfl, hc, w, u, rfl, hw, h⟩
  · rintro ⟨⟨hl, hl'⟩, t1, _, rfl, hc, w, u, rfl, hw, h⟩
    exact ⟨_, t1, w ++ u, rfl, ⟨hl, hc⟩, w, u, rfl, hw, rfl, hl', h⟩

theorem isSeq_and {α} {G : α → Bytes → Prop} {Q : α → Prop} : ∀ {as : List α} {t : Bytes},
    IsSeq (fun a t => Q a ∧ G a t) as t ↔ (∀ a ∈ as, Q a) ∧ IsSeq G as t
  | [], t => by simp [IsSeq]
  | a :: as, t => by
    simp only [IsSeq, isSeq_and (as := as)]
    constructor
    · rintro ⟨t1, t2, rfl, ⟨hq, hg⟩, hq', hg'⟩
      exact ⟨by simpa using ⟨hq, hq'⟩, t1, t2, rfl, hg, hg'⟩
    · rintro ⟨hq, t1, t2, rfl, hg, hg'⟩
      exact ⟨t1, t2, rfl, ⟨hq a (by simp), hg⟩, fun b hb => hq b (by simp [hb]), hg'⟩

theorem reads_chain (P : Params) (n : Nat) : Reads (parseChain P n)
    (fun vs t => (vs.length = n ∧ ∀ v ∈ vs, v.WF P) ∧ IsSeq IsFp2 vs t) := by
  refine ((reads_fp2 P).seq (q := parseChain P) (fun _ => rfl) (fun _ _ => rfl) n).congr ?_
  intro v t
  rw [isSeq_and, and_assoc]

theorem digit_iff (c : UInt8) : Digit c ↔ isDigit c = true := by
  have e : ascii "0123456789" = [48, 49, 50, 51, 52, 53, 54, 55, 56, 57] := by decide
  rw [Digit, e]
  constructor
  · intro h
    simp only [List.mem_cons, List.not_mem_nil, or_false] at h
    rcases h with rfl | rfl | rfl | rfl | rfl | rfl | rfl | rfl | rfl | rfl <;> decide
  · intro h
    simp only [isDigit, Bool.and_eq_true, decide_eq_true_eq] at h
    have hc : c = UInt8.ofNat c.toNat := by simp
    have h' : c.toNat = 48 ∨ c.toNat = 49 ∨ c.toNat = 50 ∨ c.toNat = 51 ∨ c.toNat = 52 ∨
      c.toNat = 53 ∨ c.toNat = 54 ∨ c.toNat = 55 ∨ c.toNat = 56 ∨ c.toNat = 57 := by omega
    rcases h' with h | h | h | h | h | h | h | h | h | h <;> rw [hc, h] <;> decide

theorem scanDigits_iff : ∀ (s : Bytes) (acc n v m : Nat) (r : Bytes),
    scanDigits acc n s = (v, m, r) ↔ ∃ ds, s = ds ++ r ∧ (∀ c ∈ ds, Digit c) ∧
      (∀ c, r.head? = some c → ¬ Digit c) ∧ v = decimal acc ds ∧ m = n + ds.length
  | [], acc, n, v, m, r => by
    simp only [scanDigits, Prod.mk.injEq]
    constructor
    · rintro ⟨rfl, rfl, rfl⟩; exact ⟨[], by simp, by simp, by simp, rfl, rfl⟩
    · rintro ⟨ds, h, _, _, h1, h2⟩
      have := List.append_eq_nil_iff.1 h.symm
      rw [this.1] at h1 h2
      exact ⟨h1.symm, by simpa using h2.symm, this.2.symm⟩
  | c :: cs, acc, n, v, m, r => by
    unfold scanDigits
    split
    · rename_i hc
      rw [scanDigits_iff cs]
      constructor
      · rintro ⟨ds, rfl, hd, hr, rfl, rfl⟩
        refine ⟨c :: ds, rfl, ?_, hr, rfl, by simp; omega⟩
        intro d hd'
        rcases List.mem_cons.1 hd' with rfl | hd'
        · exact (digit_iff _).2 hc
        · exact hd d hd'
      · rintro ⟨ds, h, hd, hr, rfl, rfl⟩
        cases ds with
        | nil =>
          rw [List.nil_append] at h
          exact absurd ((digit_iff c).2 hc) (hr c (by rw [← h]; rfl))
        | cons d ds =>
          simp only [List.cons_append, List.cons.injEq] at h
          obtain ⟨rfl, rfl⟩ := h
          exact ⟨ds, rfl, fun e he => hd e (by simp [he]), hr, rfl, by simp; omega⟩
    · rename_i hc
      simp only [Prod.mk.injEq]
      constructor
      · rintro ⟨rfl, rfl, rfl⟩
        refine ⟨[], rfl, by simp, ?_, rfl, rfl⟩
        intro d hd
        simp only [List.head?_cons, Option.some.injEq] at hd
        subst hd
        rw [digit_iff]; exact hc
      · rintro ⟨ds, h, hd, hr, rfl, rfl⟩
        cases ds with
        | nil => exact ⟨rfl, rfl, h⟩
        | cons d ds =>
          simp only [List.cons_append, List.cons.injEq] at h
          exact absurd ((digit_iff c).1 (h.1 ▸ hd d (by simp))) hc

theorem scanFin_iff (neg : Bool) (s : Bytes) (v : Int) (r : Bytes) :
    scanFin neg s = .ok v r ↔ ∃ ds, s = ds ++ r ∧ ds ≠ [] ∧ (∀ c ∈ ds, Digit c) ∧
      (∀ c, r.head? = some c → ¬ Digit c) ∧ -2147483648 ≤ v ∧ v ≤ 2147483647 ∧
      v = if neg then -(decimal 0 ds : Int) else decimal 0 ds := by
  constructor
  · intro h
    unfold scanFin at h
    split at h
    · cases h
    · rename_i x n rest heq
      obtain ⟨ds, rfl, hd, hr, rfl, hn⟩ := (scanDigits_iff _ _ _ _ _ _).1 heq
      unfold intRes at h
      split at h
      · rename_i hle
        injection h with h1 h2
        subst h2
        refine ⟨ds, rfl, ?_, hd, hr, ?_, ?_, h1.symm⟩
        · rintro rfl; simp at hn
        · subst h1; split <;> omega
        · subst h1
          split
          · omega
          · rename_i hneg
            simp [hneg] at hle
            omega
      · cases h
  · rintro ⟨ds, rfl, hne, hd, hr, h1, h2, hv⟩
    have := (scanDigits_iff (ds ++ r) 0 0 _ _ r).2 ⟨ds, rfl, hd, hr, rfl, rfl⟩
    obtain ⟨k, hk⟩ : ∃ k, 0 + ds.length = k + 1 :=
      ⟨ds.length - 1, by have := List.length_pos_iff.2 hne; omega⟩
    rw [hk] at this
    simp only [scanFin, this, intRes]
    cases neg
    · simp only [Bool.false_eq_true, if_false] at hv ⊢
      rw [if_pos (by left; omega), hv]
    · simp only [if_true] at hv ⊢
      have hle : decimal 0 ds ≤ 2147483647 ∨ decimal 0 ds = 2147483648 := by omega
      rw [if_pos (by simpa using hle), hv]

theorem scanInt_iff (s : Bytes) (v : Int) (r : Bytes) :
    scanInt s = .ok v r ↔ ∃ t, s = t ++ r ∧ IsInt v t ∧ ∀ c, r.head? = some c → ¬ Digit c := by
  have em : ascii "-" = [45] := by decide
  have ep : ascii "+" = [43] := by decide
  let q : Bytes → PRes Int := fun s => match s with
    | c :: cs =>
      if c == 45 then scanFin true cs else if c == 43 then scanFin false cs
      else scanFin false (c :: cs)
    | [] => .fail
  have hq : ∀ s v r, q s = .ok v r ↔ ∃ t, s = t ++ r ∧ (-2147483648 ≤ v ∧ v ≤ 2147483647 ∧
      ∃ sgn ds, t = sgn ++ ds ∧ ds ≠ [] ∧ (∀ c ∈ ds, Digit c) ∧
      ((sgn = ascii "-" ∧ v = -(decimal 0 ds : Int)) ∨
       ((sgn = [] ∨ sgn = ascii "+") ∧ v = (decimal 0 ds : Int)))) ∧
      ∀ c, r.head? = some c → ¬ Digit c := by
    intro s v r
    constructor
    · intro h
      match s, h with
      | [], h => cases h
      | c :: cs, h =>
        simp only [q] at h
        split at h
        · rename_i hc
          obtain ⟨ds, rfl, hne, hd, hr, h1, h2, hv⟩ := (scanFin_iff _ _ _ _).1 h
          rw [eq_of_beq hc]
          exact ⟨45 :: ds, rfl, ⟨h1, h2, [45], ds, rfl, hne, hd, .inl ⟨em.symm, by simpa using hv⟩⟩, hr⟩
        · split at h
          · rename_i hc
            obtain ⟨ds, rfl, hne, hd, hr, h1, h2, hv⟩ := (scanFin_iff _ _ _ _).1 h
            rw [eq_of_beq hc]
            exact ⟨43 :: ds, rfl, ⟨h1, h2, [43], ds, rfl, hne, hd, .inr ⟨.inr ep.symm, by simpa using hv⟩⟩, hr⟩
          · obtain ⟨ds, h0, hne, hd, hr, h1, h2, hv⟩ := (scanFin_iff _ _ _ _).1 h
            rw [h0]
            exact ⟨ds, rfl, ⟨h1, h2, [], ds, rfl, hne, hd, .inr ⟨.inl rfl, by simpa using hv⟩⟩, hr⟩
    · rintro ⟨_, rfl, ⟨h1, h2, sgn, ds, rfl, hne, hd, hs⟩, hr⟩
      rcases hs with ⟨rfl, hv⟩ | ⟨rfl | rfl, hv⟩
      · rw [em]
        exact (scanFin_iff true (ds ++ r) v r).2 ⟨ds, rfl, hne, hd, hr, h1, h2, by simpa using hv⟩
      · obtain ⟨c, ds', rfl⟩ := List.exists_cons_of_ne_nil hne
        have hc := (digit_iff c).1 (hd c (by simp))
        have hc1 : (c == 45) = false := by
          rw [beq_eq_false_iff_ne]; rintro rfl; revert hc; decide
        have hc2 : (c == 43) = false := by
          rw [beq_eq_false_iff_ne]; rintro rfl; revert hc; decide
        simp only [List.nil_append, List.cons_append, q, hc1, hc2, Bool.false_eq_true, if_false]
        exact (scanFin_iff false (c :: (ds' ++ r)) v r).2 ⟨c :: ds', rfl, hne, hd, hr, h1, h2, by simpa using hv⟩
      · rw [ep]
        exact (scanFin_iff false (ds ++ r) v r).2 ⟨ds, rfl, hne, hd, hr, h1, h2, by simpa using hv⟩
  have hspace : ∀ s : Bytes, ∃ w, s = w ++ skipWs s ∧ ∀ c ∈ w, White c := by
    intro s
    induction s with
    | nil => exact ⟨[], rfl, by simp⟩
    | cons c cs ih =>
      unfold skipWs
      split
      · rename_i hc
        obtain ⟨w, h1, h2⟩ := ih
        refine ⟨c :: w, by rw [List.cons_append, ← h1], ?_⟩
        intro d hd
        rcases List.mem_cons.1 hd with rfl | hd
        · exact (white_iff _).2 hc
        · exact h2 d hd
      · exact ⟨[], rfl, by simp⟩
  have hsc : scanInt s = q (skipWs s) := rfl
  rw [hsc]
  constructor
  · intro h
    obtain ⟨t, ht, hi, hr⟩ := (hq _ _ _).1 h
    obtain ⟨w, h1, h2⟩ := hspace s
    refine ⟨w ++ t, by rw [List.append_assoc, ← ht]; exact h1, ⟨w, t, rfl, h2, hi⟩, hr⟩
  · rintro ⟨_, rfl, ⟨w, u, rfl, hw, hi⟩, hr⟩
    have : skipWs (w ++ u ++ r) = u ++ r := by
      rw [List.append_assoc, skipWs_white (fun d hd => (white_iff d).1 (hw d hd))]
      obtain ⟨_, _, sgn, ds, rfl, hne, hd, hs⟩ := hi
      obtain ⟨c, ds', rfl⟩ := List.exists_cons_of_ne_nil hne
      have hc : isSpace c = false := by
        have := (digit_iff c).1 (hd c (by simp))
        simp only [isDigit, Bool.and_eq_true, decide_eq_true_eq] at this
        simp only [isSpace, Bool.or_eq_false_iff, beq_eq_false_iff_ne, Bool.and_eq_false_iff,
          decide_eq_false_iff_not]
        refine ⟨?_, by omega⟩
        rintro rfl
        simp at this
      have h45 : isSpace 45 = false := by decide
      have h43 : isSpace 43 = false := by decide
      rcases hs with ⟨rfl, _⟩ | ⟨rfl | rfl, _⟩
      · rw [em]; simp [skipWs, h45]
      · simp [skipWs, hc]
      · rw [ep]; simp [skipWs, h43]
    rw [this]
    exact (hq _ _ _).2 ⟨u, rfl, hi, hr⟩

/-- The fields after a tag are not empty. -/
theorem isHex_ne {bs t} (hl : 0 < bs.length) (h : IsHex bs t) : t ≠ [] := by
  obtain ⟨w, u, rfl, _, h⟩ := h
  obtain ⟨c, v, rfl, _⟩ := isSeq_head (fun _ _ => isByte_head) hl h
  simp

theorem head?_append_ne {t r : Bytes} (h : t ≠ []) : (t ++ r).head? = t.head? := by
  cases t with
  | nil => exact absurd rfl h
  | cons c t => rfl

theorem reads_resp {P : Params} (hP : P.Pos) :
    Reads (parseResp P) (fun r t => r.WF P ∧ IsResp r t) := by
  have hleft := (reads_bytes hP.hide).bind (k := fun r2 s =>
        (parseBytes P.hash s).bind fun h3 s =>
          (parseChain P P.height s).bind fun chain s => PRes.ok (Resp.left r2 h3 chain) s)
    fun r2 => (reads_bytes hP.hash).bind fun h3 => (reads_chain P P.height).bind fun chain =>
      Reads.ret (Resp.left r2 h3 chain)
  have hbot := (reads_bytes hP.hide).bind (k := fun r2 s =>
        (parseBytes P.hide s).bind fun r3 s =>
          (parseFp2 P s).bind fun E2 s =>
            (parseChain P P.width s).bind fun chain s => PRes.ok (Resp.bottom r2 r3 E2 chain) s)
    fun r2 => (reads_bytes hP.hide).bind fun r3 => (reads_fp2 P).bind fun E2 =>
      (reads_chain P P.width).bind fun chain => Reads.ret (Resp.bottom r2 r3 E2 chain)
  have hright := (reads_bytes hP.hash).bind (k := fun h2 s =>
        (parseBytes P.hide s).bind fun r3 s =>
          (parseChain P P.height s).bind fun chain s => PRes.ok (Resp.right h2 r3 chain) s)
    fun h2 => (reads_bytes hP.hide).bind fun r3 => (reads_chain P P.height).bind fun chain =>
      Reads.ret (Resp.right h2 r3 chain)
  intro s v r
  constructor
  · intro h
    unfold parseResp at h
    match hs : scanInt s with
    | .fail => simp [hs] at h
    | .ub => simp [hs] at h
    | .ok tag s1 =>
      obtain ⟨t0, rfl, hint, hnd⟩ := (scanInt_iff _ _ _).1 hs
      simp only [hs, PRes.bind_ok] at h
      split at h
      · rename_i ht
        obtain ⟨_, rfl, r2, t1, _, rfl, ⟨l1, g1⟩, h3, t2, _, rfl, ⟨l2, g2⟩, ch, t3, _, rfl,
          ⟨l3, g3⟩, rfl, rfl⟩ := (hleft _ _ _).1 h
        refine ⟨t0 ++ (t1 ++ (t2 ++ t3)), by simp, ⟨l1, l2, l3⟩, t0, _, rfl, ht ▸ hint, ?_,
          t1, t2, t3, rfl, g1, g2, g3⟩
        have hne := isHex_ne (by rw [l1]; exact hP.hide) g1
        intro c hc
        rw [head?_append_ne hne] at hc
        refine hnd c ?_
        rw [List.append_assoc, head?_append_ne hne, hc]
      · split at h
        · rename_i ht
          obtain ⟨_, rfl, r2, t1, _, rfl, ⟨l1, g1⟩, h3, t2, _, rfl, ⟨l2, g2⟩, E2, t3, _, rfl,
            ⟨l3, g3⟩, ch, t4, _, rfl, ⟨l4, g4⟩, rfl, rfl⟩ := (hbot _ _ _).1 h
          refine ⟨t0 ++ (t1 ++ (t2 ++ (t3 ++ t4))), by simp, ⟨l1, l2, l3, l4⟩, t0, _, rfl, ht ▸ hint, ?_,
            t1, t2, t3, t4, rfl, g1, g2, g3, g4⟩
          have hne := isHex_ne (by rw [l1]; exact hP.hide) g1
          intro c hc
          rw [head?_append_ne hne] at hc
          refine hnd c ?_
          rw [List.append_assoc, head?_append_ne hne, hc]
        · split at h
          · rename_i ht
            obtain ⟨_, rfl, r2, t1, _, rfl, ⟨l1, g1⟩, h3, t2, _, rfl, ⟨l2, g2⟩, ch, t3, _, rfl,
              ⟨l3, g3⟩, rfl, rfl⟩ := (hright _ _ _).1 h
            refine ⟨t0 ++ (t1 ++ (t2 ++ t3)), by simp, ⟨l1, l2, l3⟩, t0, _, rfl, ht ▸ hint, ?_,
              t1, t2, t3, rfl, g1, g2, g3⟩
            have hne := isHex_ne (by rw [l1]; exact hP.hash) g1
            intro c hc
            rw [head?_append_ne hne] at hc
            refine hnd c ?_
            rw [List.append_assoc, head?_append_ne hne, hc]
          · cases h
  · rintro ⟨_, rfl, hwf, t0, tb, rfl, hint, hnd, hf⟩
    unfold parseResp
    cases v with
    | left r2 h3 ch =>
      obtain ⟨l1, l2, l3⟩ := hwf
      obtain ⟨t1, t2, t3, rfl, g1, g2, g3⟩ := hf
      have hne := isHex_ne (by rw [l1]; exact hP.hide) g1
      have hs := (scanInt_iff (t0 ++ (t1 ++ (t2 ++ t3) ++ r)) (-1) (t1 ++ (t2 ++ t3) ++ r)).2
        ⟨t0, rfl, hint, fun c hc => hnd c (by
          rw [List.append_assoc, head?_append_ne hne] at hc; rw [head?_append_ne hne]; exact hc)⟩
      rw [List.append_assoc t0, hs, PRes.bind_ok, if_pos rfl]
      exact (hleft _ _ _).2 ⟨t1 ++ (t2 ++ t3), rfl, r2, t1, t2 ++ t3, rfl, ⟨l1, g1⟩, h3, t2, t3, rfl,
        ⟨l2, g2⟩, ch, t3, [], by simp, ⟨l3, g3⟩, rfl, rfl⟩
    | bottom r2 r3 E2 ch =>
      obtain ⟨l1, l2, l3, l4⟩ := hwf
      obtain ⟨t1, t2, t3, t4, rfl, g1, g2, g3, g4⟩ := hf
      have hne := isHex_ne (by rw [l1]; exact hP.hide) g1
      have hs := (scanInt_iff (t0 ++ (t1 ++ (t2 ++ (t3 ++ t4)) ++ r)) 0 (t1 ++ (t2 ++ (t3 ++ t4)) ++ r)).2
        ⟨t0, rfl, hint, fun c hc => hnd c (by
          rw [List.append_assoc, head?_append_ne hne] at hc; rw [head?_append_ne hne]; exact hc)⟩
      rw [List.append_assoc t0, hs, PRes.bind_ok, if_neg (by decide), if_pos rfl]
      exact (hbot _ _ _).2 ⟨t1 ++ (t2 ++ (t3 ++ t4)), rfl, r2, t1, t2 ++ (t3 ++ t4), rfl, ⟨l1, g1⟩,
        r3, t2, t3 ++ t4, rfl, ⟨l2, g2⟩, E2, t3, t4, rfl, ⟨l3, g3⟩, ch, t4, [], by simp, ⟨l4, g4⟩, rfl, rfl⟩
    | right h2 r3 ch =>
      obtain ⟨l1, l2, l3⟩ := hwf
      obtain ⟨t1, t2, t3, rfl, g1, g2, g3⟩ := hf
      have hne := isHex_ne (by rw [l1]; exact hP.hash) g1
      have hs := (scanInt_iff (t0 ++ (t1 ++ (t2 ++ t3) ++ r)) 1 (t1 ++ (t2 ++ t3) ++ r)).2
        ⟨t0, rfl, hint, fun c hc => hnd c (by
          rw [List.append_assoc, head?_append_ne hne] at hc; rw [head?_append_ne hne]; exact hc)⟩
      rw [List.append_assoc t0, hs, PRes.bind_ok, if_neg (by decide), if_neg (by decide), if_pos rfl]
      exact (hright _ _ _).2 ⟨t1 ++ (t2 ++ t3), rfl, h2, t1, t2 ++ t3, rfl, ⟨l1, g1⟩, r3, t2, t3, rfl,
        ⟨l2, g2⟩, ch, t3, [], by simp, ⟨l3, g3⟩, rfl, rfl⟩

theorem reads_resps {P : Params} (hP : P.Pos) (n : Nat) : Reads (parseResps P n)
    (fun rs t => (rs.length = n ∧ ∀ r ∈ rs, r.WF P) ∧ IsSeq IsResp rs t) := by
  refine ((reads_resp hP).seq (q := parseResps P) (fun _ => rfl) (fun _ _ => rfl) n).congr ?_
  intro v t
  rw [isSeq_and, and_assoc]

theorem reads_parse {P : Params} (hP : P.Pos) :
    Reads (parse P) (fun p t => p.WF P ∧ IsProof p t) := by
  have h := (reads_fp2 P).bind (k := fun E0 s =>
      (parseFp2 P s).bind fun E1 s =>
      (parseResps P P.reps s).bind fun rs s => PRes.ok (⟨E0, E1, rs⟩ : Proof) s)
    fun E0 => (reads_fp2 P).bind fun E1 => (reads_resps hP P.reps).bind fun rs =>
      Reads.ret (⟨E0, E1, rs⟩ : Proof)
  refine (show Reads (parse P) _ from h).congr ?_
  intro p t
  constructor
  · rintro ⟨E0, t1, _, rfl, ⟨l1, g1⟩, E1, t2, _, rfl, ⟨l2, g2⟩, rs, t3, _, rfl, ⟨l3, g3⟩, rfl, rfl⟩
    exact ⟨⟨l1, l2, l3⟩, t1, t2, t3, by simp, g1, g2, g3⟩
  · rintro ⟨⟨l1, l2, l3⟩, t1, t2, t3, rfl, g1, g2, g3⟩
    exact ⟨_, t1, _, rfl, ⟨l1, g1⟩, _, t2, t3, rfl, ⟨l2, g2⟩, _, t3, [], by simp, ⟨l3, g3⟩, rfl, rfl⟩

end Secuer.Text
