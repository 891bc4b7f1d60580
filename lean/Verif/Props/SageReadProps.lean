import Verif.Props.SageVerifyProps

/-!
# What `verify.sage` refuses to read (C73)

The lines that `read_int`, `read_bytes` and `read_element` accept, as the regular expressions in `verify.sage` say: everything else is refused.
-/

namespace Secuer.SageReadProps

open Secuer.Text Secuer.Field Secuer.Sage

variable {l : Level}

/-! ## Specification -/

/-- `[0-9]+` -/
def Decimal (s : Bytes) : Prop := s ≠ [] ∧ ∀ c ∈ s, 48 ≤ c.toNat ∧ c.toNat ≤ 57

/-- `[0-9a-fA-F]` -/
def Hex (c : UInt8) : Prop := 48 ≤ c.toNat ∧ c.toNat ≤ 57 ∨ 65 ≤ c.toNat ∧ c.toNat ≤ 70 ∨ 97 ≤ c.toNat ∧ c.toNat ≤ 102

/-- `0x[0-9a-f]+`, ignoring case -/
def Hex0x (s : Bytes) : Prop := ∃ x ds, s = 48 :: x :: ds ∧ (x = 120 ∨ x = 88) ∧ ds ≠ [] ∧ ∀ c ∈ ds, Hex c

/-! ## Theorems -/

theorem isDecimal_iff (s : Bytes) : isDecimal s = true ↔ Decimal s := by
  simp [isDecimal, Decimal, isDigit, List.all_eq_true]

theorem isXDigit_iff (c : UInt8) : isXDigit c = true ↔ Hex c := by
  simp [isXDigit, Hex, or_assoc]

/-- `read_int` accepts a line exactly if it matches `-?[0-9]+`. -/
theorem C73_int (s : Bytes) (ss : List Bytes) :
    (readInt (s :: ss) = .invalid ↔ ¬ (Decimal s ∨ ∃ ds, s = 45 :: ds ∧ Decimal ds)) ∧ readInt (s :: ss) ≠ .crash ∧ readInt [] = .crash := by
  have key : ∀ (b : Bool) (v : Int), ((if b then .ok (v, ss) else .invalid : Res (Int × List Bytes)) = .invalid ↔ ¬ b = true) ∧
      (if b then .ok (v, ss) else .invalid : Res (Int × List Bytes)) ≠ .crash := by
    intro b v; cases b <;> simp
  have h45 : ∀ ds, ¬ Decimal (45 :: ds) := fun ds h => by have := (h.2 45 (by simp)).1; revert this; decide
  refine ⟨?_, ?_, rfl⟩
  · by_cases h : ∃ ds, s = 45 :: ds
    · obtain ⟨ds, rfl⟩ := h
      refine ((key (isDecimal ds) _).1).trans (not_congr ?_)
      rw [isDecimal_iff]
      exact ⟨fun h => .inr ⟨ds, rfl, h⟩, fun h => h.elim (fun h => absurd h (h45 ds)) fun ⟨_, e, h⟩ => by cases e; exact h⟩
    · have e : readInt (s :: ss) = if isDecimal s then .ok ((decimalVal s : Int), ss) else .invalid := by
        simp only [readInt, readLine, Res.bind]
        split
        · exact absurd ⟨_, rfl⟩ h
        · rfl
      rw [e, (key _ _).1, isDecimal_iff]
      exact not_congr ⟨.inl, fun h' => h'.elim id fun ⟨ds, e, _⟩ => absurd ⟨ds, e⟩ h⟩
  · simp only [readInt, readLine, Res.bind]
    split
    · exact (key _ _).2
    · exact (key _ _).2

/-- `read_bytes` accepts a line exactly if it matches `([0-9a-f]{2})+`, ignoring case. -/
theorem C73_bytes (s : Bytes) (ss : List Bytes) :
    (readBytes (s :: ss) = .invalid ↔ ¬ (s ≠ [] ∧ s.length % 2 = 0 ∧ ∀ c ∈ s, Hex c)) ∧ readBytes (s :: ss) ≠ .crash ∧ readBytes [] = .crash := by
  have e : readBytes (s :: ss) = if s ≠ [] ∧ s.length % 2 = 0 ∧ s.all isXDigit then .ok (fromHex s, ss) else .invalid := rfl
  have h : (s ≠ [] ∧ s.length % 2 = 0 ∧ s.all isXDigit = true) ↔ (s ≠ [] ∧ s.length % 2 = 0 ∧ ∀ c ∈ s, Hex c) := by
    simp only [List.all_eq_true, isXDigit_iff]
  rw [e, ← h]
  refine ⟨?_, ?_, rfl⟩ <;> split <;> simp_all

theorem hexPrefix_some {s d r : Bytes} (h : hexPrefix s = some (d, r)) : ∃ x, s = 48 :: x :: (d ++ r) ∧ (x = 120 ∨ x = 88) ∧ d ≠ [] ∧ ∀ c ∈ d, Hex c := by
  unfold hexPrefix at h
  split at h
  · rename_i c s
    split at h
    · rename_i hc
      cases h
      refine ⟨c, by rw [List.takeWhile_append_dropWhile], hc.1, hc.2, fun y hy => (isXDigit_iff y).1 ?_⟩
      exact List.all_eq_true.1 (List.all_takeWhile) y hy
    · cases h
  · cases h

theorem hexPrefix_of {x : UInt8} {d r : Bytes} (hx : x = 120 ∨ x = 88) (hd : d ≠ []) (hh : ∀ c ∈ d, Hex c) (hr : ∀ c ∈ r.head?, ¬ Hex c) :
    hexPrefix (48 :: x :: (d ++ r)) = some (d, r) := by
  have hd' : ∀ c ∈ d, isXDigit c = true := fun c hc => (isXDigit_iff c).2 (hh c hc)
  have ht : r.takeWhile isXDigit = [] ∧ r.dropWhile isXDigit = r := by
    cases r with
    | nil => simp
    | cons c r =>
      have : ¬ isXDigit c = true := fun h => hr c (by simp) ((isXDigit_iff c).1 h)
      simp [this]
  have h1 : (d ++ r).takeWhile isXDigit = d := by rw [List.takeWhile_append_of_pos hd', ht.1, List.append_nil]
  have h2 : (d ++ r).dropWhile isXDigit = r := by rw [List.dropWhile_append_of_pos hd', ht.2]
  simp only [hexPrefix, h1, h2]
  rw [if_pos ⟨hx, hd⟩]

/-- `read_element` accepts a line exactly if it consists of two hexadecimal numbers with a comma between them. -/
theorem C73_element (s : Bytes) (ss : List Bytes) : (readElement l (s :: ss) = .invalid ↔ ¬ ∃ a b, s = a ++ 44 :: b ∧ Hex0x a ∧ Hex0x b) ∧
    readElement l (s :: ss) ≠ .crash ∧ readElement l [] = .crash := by
  have e : readElement l (s :: ss) = match hexPrefix s with
    | some (c1, 44 :: s) =>
      match hexPrefix s with
      | some (ci, []) => .ok (⟨(hexVal c1 : ZMod l.p), (hexVal ci : ZMod l.p)⟩, ss)
      | _ => .invalid
    | _ => .invalid := rfl
  by_cases h : ∃ a b, s = a ++ 44 :: b ∧ Hex0x a ∧ Hex0x b
  · obtain ⟨a, b, rfl, ⟨x, d, rfl, hx, hd, hh⟩, ⟨x', d', rfl, hx', hd', hh'⟩⟩ := h
    have h1 : hexPrefix ((48 :: x :: d) ++ 44 :: 48 :: x' :: d') = some (d, 44 :: 48 :: x' :: d') :=
      hexPrefix_of hx hd hh (by intro c hc; cases hc; unfold Hex; decide)
    have h2 := hexPrefix_of (r := []) hx' hd' hh' (by simp)
    rw [List.append_nil] at h2
    simp only [h1, h2] at e
    rw [e]
    refine ⟨⟨fun h => by simp at h, fun h => absurd ⟨_, _, rfl, ⟨x, d, rfl, hx, hd, hh⟩, ⟨x', d', rfl, hx', hd', hh'⟩⟩ h⟩, by simp, rfl⟩
  · have : readElement l (s :: ss) = .invalid := by
      rw [e]
      split
      · rename_i c1 s' h1
        split
        · rename_i ci h2
          obtain ⟨x, rfl, hx, hd, hh⟩ := hexPrefix_some h1
          obtain ⟨x', rfl, hx', hd', hh'⟩ := hexPrefix_some h2
          exact absurd ⟨48 :: x :: c1, 48 :: x' :: ci, by simp, ⟨x, c1, rfl, hx, hd, hh⟩, ⟨x', ci, rfl, hx', hd', hh'⟩⟩ h
        · rfl
      · rfl
    rw [this]
    exact ⟨⟨fun _ => h, fun _ => rfl⟩, by simp, rfl⟩

/-- An empty tag, `--1` and `1 ` are refused. -/
example : readInt [[]] = .invalid ∧ readInt [[45, 45, 49]] = .invalid ∧ readInt [[49, 32]] = .invalid ∧ readInt [[45, 48, 49]] = .ok (-1, []) :=
  ⟨rfl, rfl, rfl, rfl⟩

end Secuer.SageReadProps
