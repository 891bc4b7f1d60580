import Verif.Sage.Verifier
import Verif.Text.Lemmas
import Verif.Word.Encode

/-!
# Reading files in the format of `Dump` with `verify.sage`
-/

namespace Secuer.Sage

open Secuer.Protocol Secuer.Curve Secuer.Mont Secuer.Field Secuer.Text Secuer.Scalar Secuer.Text.Spec

variable {l : Level}

/-- A character that does not end a line -/
def Inline (c : UInt8) : Prop := c ≠ 10 ∧ c ≠ 13

theorem pyLines_line : ∀ (s acc rest : Bytes), (∀ c ∈ s, Inline c) →
    pyLines acc (s ++ (10 :: rest)) = (acc ++ s) :: pyLines [] rest
  | [], acc, rest, _ => by
    rw [List.nil_append, pyLines, if_pos (Or.inl rfl), List.append_nil]
    intro s h; exact absurd h (by decide)
  | c :: s, acc, rest, h => by
    have hc := h c (by simp)
    rw [List.cons_append, pyLines, if_neg (by rintro (h | h); exacts [hc.1 h, hc.2 h]),
      pyLines_line s _ rest fun d hd => h d (by simp [hd])]
    · simp
    · intro s' h'; exact absurd h' hc.2

theorem hex_inline : ∀ d : Fin 16, hexDigit d.val ≠ 10 ∧ hexDigit d.val ≠ 13 := by decide

theorem byteText_digits (b : UInt8) : ∃ x y : UInt8, byteText b = [x, y] ∧ isXDigit x = true ∧ isXDigit y = true ∧
    xDigitVal x = b.toNat / 16 ∧ xDigitVal y = b.toNat % 16 ∧ Inline x ∧ Inline y := by
  have hb := b.toNat_lt
  obtain ⟨_, a2, a3, _⟩ := hexDigit_facts ⟨b.toNat / 16, by omega⟩
  obtain ⟨_, c2, c3, _⟩ := hexDigit_facts ⟨b.toNat % 16, by omega⟩
  exact ⟨_, _, (hex2_eq b).symm, a2, c2, a3, c3, hex_inline ⟨b.toNat / 16, by omega⟩, hex_inline ⟨b.toNat % 16, by omega⟩⟩

theorem bytesText_cons (b : UInt8) (bs : Bytes) : bytesText (b :: bs) = byteText b ++ bytesText bs := rfl

theorem bytesText_facts : ∀ bs : Bytes, fromHex (bytesText bs) = bs ∧ (bytesText bs).length = 2 * bs.length ∧
    (bytesText bs).all isXDigit = true ∧ ∀ c ∈ bytesText bs, Inline c
  | [] => ⟨rfl, rfl, rfl, by simp [bytesText]⟩
  | b :: bs => by
    obtain ⟨h1, h2, h3, h4⟩ := bytesText_facts bs
    obtain ⟨x, y, e, ex, ey, vx, vy, ix, iy⟩ := byteText_digits b
    rw [bytesText_cons, e]
    refine ⟨?_, ?_, ?_, ?_⟩
    · simp only [List.cons_append, List.nil_append, fromHex, vx, vy, Nat.div_add_mod, UInt8.ofNat_toNat, h1]
    · simp only [List.cons_append, List.nil_append, List.length_cons, h2]; ring
    · simp [ex, ey, h3]
    · intro c hc
      simp only [List.cons_append, List.nil_append, List.mem_cons] at hc
      rcases hc with rfl | rfl | hc
      exacts [ix, iy, h4 c hc]

theorem hexVal_bytesText : ∀ (bs : Bytes) (n : ℕ),
    (bytesText bs).foldl (fun n c => 16 * n + xDigitVal c) n = 256 ^ bs.length * n + leNat bs.reverse
  | [], n => by simp [bytesText, leNat]
  | b :: bs, n => by
    obtain ⟨x, y, e, ex, ey, vx, vy, ix, iy⟩ := byteText_digits b
    rw [bytesText_cons, e, List.cons_append, List.cons_append, List.nil_append, List.foldl_cons, List.foldl_cons,
      hexVal_bytesText bs, vx, vy, List.reverse_cons, Word.leNat_append, List.length_reverse, List.length_cons]
    have : leNat [b] = b.toNat := by simp [leNat]
    rw [this, pow_succ]
    have := Nat.div_add_mod b.toNat 16
    calc 256 ^ bs.length * (16 * (16 * n + b.toNat / 16) + b.toNat % 16) + leNat bs.reverse
        = 256 ^ bs.length * (256 * n + (16 * (b.toNat / 16) + b.toNat % 16)) + leNat bs.reverse := by ring
      _ = _ := by rw [this]; ring

theorem hexVal_text (v : Bytes) : hexVal (bytesText v.reverse) = leNat v := by
  unfold hexVal
  rw [hexVal_bytesText, mul_zero, zero_add, List.reverse_reverse]

theorem takeWhile_text {bs rest : Bytes} (hr : ∀ c ∈ rest.head?, isXDigit c = false) :
    (bytesText bs ++ rest).takeWhile isXDigit = bytesText bs ∧ (bytesText bs ++ rest).dropWhile isXDigit = rest := by
  have h := (bytesText_facts bs).2.2.1
  rw [List.all_eq_true] at h
  constructor
  · rw [List.takeWhile_append_of_pos h]
    cases rest with
    | nil => simp
    | cons c rest => rw [List.takeWhile_cons_of_neg (by rw [hr c rfl]; simp), List.append_nil]
  · rw [List.dropWhile_append_of_pos h]
    cases rest with
    | nil => rfl
    | cons c rest => rw [List.dropWhile_cons_of_neg (by rw [hr c rfl]; simp)]

theorem ascii_0x : ascii "0x" = [48, 120] := by decide
theorem ascii_comma : ascii "," = [44] := by decide
theorem ascii_nl : ascii "\n" = [10] := by decide

theorem hexPrefix_text {v rest : Bytes} (hv : v ≠ []) (hr : ∀ c ∈ rest.head?, isXDigit c = false) :
    hexPrefix (coordText v ++ rest) = some (bytesText v.reverse, rest) := by
  obtain ⟨h1, h2⟩ := takeWhile_text (bs := v.reverse) hr
  have hne : bytesText v.reverse ≠ [] := fun h => by
    have := congrArg List.length h
    rw [(bytesText_facts _).2.1, List.length_reverse, List.length_nil] at this
    exact hv (List.eq_nil_of_length_eq_zero (by omega))
  rw [coordText, ascii_0x, List.append_assoc, List.cons_append, List.cons_append, List.nil_append, hexPrefix, h1, h2,
    if_pos ⟨Or.inl rfl, hne⟩]

theorem coord_inline (v : Bytes) : ∀ c ∈ coordText v, Inline c := by
  intro c hc
  rw [coordText, ascii_0x, List.mem_append] at hc
  rcases hc with hc | hc
  · simp only [List.mem_cons, List.not_mem_nil, or_false] at hc
    rcases hc with rfl | rfl <;> exact ⟨by decide, by decide⟩
  · exact (bytesText_facts _).2.2.2 c hc

/-- Both coordinates have at least one byte. -/
def PNe (v : PFp2) : Prop := v.real ≠ [] ∧ v.imag ≠ []

theorem readElement_text {v : PFp2} (hv : PNe v) (rest : Bytes) :
    readElement l (pyLines [] (fp2Line v ++ rest)) = .ok (decode l v, pyLines [] rest) := by
  have hi : ∀ c ∈ fp2Body v, Inline c := by
    intro c hc
    rw [fp2Body, ascii_comma, List.mem_append, List.mem_append] at hc
    rcases hc with (hc | hc) | hc
    · exact coord_inline _ c hc
    · simp only [List.mem_cons, List.not_mem_nil, or_false] at hc
      subst hc
      exact ⟨by decide, by decide⟩
    · exact coord_inline _ c hc
  have e : fp2Line v ++ rest = fp2Body v ++ (10 :: rest) := by rw [fp2Line, ascii_nl]; simp
  rw [e, pyLines_line _ _ _ hi, List.nil_append]
  unfold readElement
  simp only [readLine, Res.bind]
  rw [fp2Body, ascii_comma, List.append_assoc, hexPrefix_text hv.1 (by
    intro c hc
    simp only [List.cons_append, List.head?_cons, Option.mem_some_iff] at hc
    subst hc
    decide)]
  simp only [List.cons_append, List.nil_append]
  have h2 := hexPrefix_text (rest := []) hv.2 (by simp)
  rw [List.append_nil] at h2
  rw [h2]
  simp only [hexVal_text]
  rfl

theorem readBytes_text {bs : Bytes} (hb : bs ≠ []) (rest : Bytes) :
    readBytes (pyLines [] (bytesLine bs ++ rest)) = .ok (bs, pyLines [] rest) := by
  obtain ⟨h1, h2, h3, h4⟩ := bytesText_facts bs
  have e : bytesLine bs ++ rest = bytesText bs ++ (10 :: rest) := by rw [bytesLine, ascii_nl]; simp
  rw [e, pyLines_line _ _ _ h4, List.nil_append]
  unfold readBytes
  simp only [readLine, Res.bind]
  have hne : bytesText bs ≠ [] := fun h => by
    have := congrArg List.length h
    rw [h2, List.length_nil] at this
    exact hb (List.eq_nil_of_length_eq_zero (by omega))
  rw [if_pos ⟨hne, by omega, h3⟩, h1]

theorem readElements_text : ∀ {vs : List PFp2}, (∀ v ∈ vs, PNe v) → ∀ rest : Bytes,
    readElements l vs.length (pyLines [] (chainLines vs ++ rest)) = .ok (vs.map (decode l), pyLines [] rest)
  | [], _, rest => rfl
  | v :: vs, h, rest => by
    have e : chainLines (v :: vs) ++ rest = fp2Line v ++ (chainLines vs ++ rest) := by
      simp [chainLines]
    rw [e, List.length_cons, readElements, readElement_text (h v (by simp))]
    simp only [Res.bind]
    rw [readElements_text fun w hw => h w (by simp [hw])]
    rfl

variable (l) in
/-- A response with its elements decoded -/
def sresp : Resp → SResp l
  | .left r2 h3 chain => .left r2 h3 (chain.map (decode l))
  | .bottom r2 r3 E2 chain => .bottom r2 r3 (decode l E2) (chain.map (decode l))
  | .right h2 r3 chain => .right h2 r3 (chain.map (decode l))

variable (l) in
/-- A proof with its elements decoded -/
def sproof (p : Proof) : SProof l := ⟨decode l p.E0, decode l p.E1, p.resp.map Resp.tag, p.resp.map (sresp l)⟩

variable (l) in
/-- What `verify.sage` requires of the lengths: nothing is empty, the chains have the right length. -/
def SResp.Readable : Resp → Prop
  | .left r2 h3 chain => r2 ≠ [] ∧ h3 ≠ [] ∧ chain.length = (parameters l).h ∧ ∀ v ∈ chain, PNe v
  | .bottom r2 r3 E2 chain => r2 ≠ [] ∧ r3 ≠ [] ∧ PNe E2 ∧ chain.length = (parameters l).w ∧ ∀ v ∈ chain, PNe v
  | .right h2 r3 chain => h2 ≠ [] ∧ r3 ≠ [] ∧ chain.length = (parameters l).h ∧ ∀ v ∈ chain, PNe v

variable (l) in
def SProof.Readable (p : Proof) : Prop :=
  PNe p.E0 ∧ PNe p.E1 ∧ p.resp.length = (parameters l).reps ∧ ∀ r ∈ p.resp, SResp.Readable l r

theorem readInt_line {s : Bytes} {t : Int} (hs : ∀ c ∈ s, Inline c) (rest : Bytes)
    (h : ∀ ss, readInt (s :: ss) = .ok (t, ss)) : readInt (pyLines [] (s ++ (10 :: rest))) = .ok (t, pyLines [] rest) := by
  rw [pyLines_line _ _ _ hs, List.nil_append, h]

theorem readInt_left (rest : Bytes) : readInt (pyLines [] (ascii "-1\n" ++ rest)) = .ok (-1, pyLines [] rest) :=
  readInt_line (s := [45, 49]) (by intro c hc; simp at hc; rcases hc with rfl | rfl <;> exact ⟨by decide, by decide⟩) rest
    fun _ => rfl

theorem readInt_bottom (rest : Bytes) : readInt (pyLines [] (ascii "0\n" ++ rest)) = .ok (0, pyLines [] rest) :=
  readInt_line (s := [48]) (by intro c hc; simp at hc; subst hc; exact ⟨by decide, by decide⟩) rest fun _ => rfl

theorem readInt_right (rest : Bytes) : readInt (pyLines [] (ascii "1\n" ++ rest)) = .ok (1, pyLines [] rest) :=
  readInt_line (s := [49]) (by intro c hc; simp at hc; subst hc; exact ⟨by decide, by decide⟩) rest fun _ => rfl

theorem readResps_text : ∀ {rs : List Resp}, (∀ r ∈ rs, SResp.Readable l r) → ∀ rest : Bytes,
    readResps l rs.length (pyLines [] (rs.flatMap respText ++ rest)) =
      .ok ((rs.map Resp.tag, rs.map (sresp l)), pyLines [] rest)
  | [], _, rest => rfl
  | r :: rs, h, rest => by
    have ih := readResps_text (rs := rs) (fun q hq => h q (by simp [hq])) rest
    have hr := h r (by simp)
    rw [List.flatMap_cons, List.append_assoc, List.length_cons, readResps]
    cases r with
    | left r2 h3 chain =>
      obtain ⟨h1, h2, h3, h4⟩ := hr
      simp only [respText, List.append_assoc]
      rw [readInt_left]
      simp only [Res.bind, readResp, if_true]
      rw [readBytes_text h1]
      simp only
      rw [readBytes_text h2]
      simp only
      rw [← h3, readElements_text h4]
      simp only
      rw [ih]
      rfl
    | bottom r2 r3 E2 chain =>
      obtain ⟨h1, h2, h5, h3, h4⟩ := hr
      simp only [respText, List.append_assoc]
      rw [readInt_bottom]
      simp only [Res.bind, readResp, if_true, show ¬ (0 : Int) = -1 by decide, if_false]
      rw [readBytes_text h1]
      simp only
      rw [readBytes_text h2]
      simp only
      rw [readElement_text h5]
      simp only
      rw [← h3, readElements_text h4]
      simp only
      rw [ih]
      rfl
    | right h2 r3 chain =>
      obtain ⟨h1, h2, h3, h4⟩ := hr
      simp only [respText, List.append_assoc]
      rw [readInt_right]
      simp only [Res.bind, readResp, if_true, show ¬ (1 : Int) = -1 by decide, show ¬ (1 : Int) = 0 by decide, if_false]
      rw [readBytes_text h1]
      simp only
      rw [readBytes_text h2]
      simp only
      rw [← h3, readElements_text h4]
      simp only
      rw [ih]
      rfl

/-- `verify.sage` reads a file in the format of `Dump`, whatever follows. -/
theorem read_text {p : Proof} (h : SProof.Readable l p) (rest : Bytes) :
    read l (pyLines [] (proofText p ++ rest)) = .ok (sproof l p, pyLines [] rest) := by
  obtain ⟨h0, h1, hn, hr⟩ := h
  unfold read proofText
  rw [List.append_assoc, List.append_assoc, readElement_text h0]
  simp only [Res.bind]
  rw [readElement_text h1]
  simp only
  rw [← hn, readResps_text hr]
  rfl

/-- Proofs that `Parse` returns are readable. -/
theorem readable_of_wf {p : Proof} (h : p.WF (params l)) : SProof.Readable l p := by
  have e1 : (parameters l).h = (params l).height := by cases l <;> rfl
  have e2 : (parameters l).w = (params l).width := by cases l <;> rfl
  have e3 : (parameters l).reps = (params l).reps := by cases l <;> rfl
  have p1 : 0 < (params l).fpBytes := by cases l <;> decide
  have p2 : 0 < (params l).hide := by cases l <;> decide
  have p3 : 0 < (params l).hash := by cases l <;> decide
  have ne : ∀ {b : Bytes} {n : ℕ}, b.length = n → 0 < n → b ≠ [] := by rintro b n rfl h0 rfl; simp at h0
  have pn : ∀ {v : PFp2}, v.WF (params l) → PNe v := fun hv => ⟨ne hv.1 p1, ne hv.2 p1⟩
  obtain ⟨h0, h1, hn, hr⟩ := h
  refine ⟨pn h0, pn h1, by rw [e3, hn], fun r hq => ?_⟩
  have := hr r hq
  cases r with
  | left r2 h3 chain => exact ⟨ne this.1 p2, ne this.2.1 p3, by rw [e1]; exact this.2.2.1, fun v hv => pn (this.2.2.2 v hv)⟩
  | bottom r2 r3 E2 chain =>
    exact ⟨ne this.1 p2, ne this.2.1 p2, pn this.2.2.1, by rw [e2]; exact this.2.2.2.1, fun v hv => pn (this.2.2.2.2 v hv)⟩
  | right h2 r3 chain => exact ⟨ne this.1 p3, ne this.2.1 p2, by rw [e1]; exact this.2.2.1, fun v hv => pn (this.2.2.2 v hv)⟩

end Secuer.Sage
