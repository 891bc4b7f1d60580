import Verif.Text.Spec

namespace Secuer.Text

open Secuer Spec

/-! ## Writing without faults -/

def Sink.Clean (f : Sink) : Prop := ∀ n, f.fault n = none

theorem Sink.put_clean {f : Sink} (h : f.Clean) (s : Bytes) :
    f.put s = (true, { f with out := f.out ++ s, calls := f.calls + 1 }) := by
  simp [Sink.put, h f.calls]

/-- "The call returned true and appended exactly `t`". -/
def Wrote (f : Sink) (t : Bytes) (r : Bool × Sink) : Prop :=
  r.1 = true ∧ r.2.out = f.out ++ t ∧ r.2.fault = f.fault

theorem Wrote.clean {f t r} (h : Wrote f t r) (hf : f.Clean) : r.2.Clean := by
  intro n; rw [h.2.2]; exact hf n

theorem wrote_put {f : Sink} (h : f.Clean) (s : Bytes) : Wrote f s (f.put s) := by
  rw [Sink.put_clean h]; exact ⟨rfl, rfl, rfl⟩

theorem Wrote.seq {f t u} {r : Bool × Sink} {k : Sink → Bool × Sink}
    (h : Wrote f t r) (hk : Wrote r.2 u (k r.2)) : Wrote f (t ++ u) (andThen r k) := by
  obtain ⟨h1, h2, h3⟩ := h
  obtain ⟨k1, k2, k3⟩ := hk
  simp only [andThen, h1, if_true]
  refine ⟨k1, ?_, ?_⟩
  · rw [k2, h2, List.append_assoc]
  · rw [k3, h3]

theorem hex2_eq (b : UInt8) : hex2 b = byteText b := by
  have : ∀ n : Fin 16, hexDigit n.val = UInt8.ofNat (digits[n.val]'(by rw [digits_length]; exact n.isLt)).toNat := by
    decide
  have hb := b.toNat_lt
  have h1 := this ⟨b.toNat / 16, by omega⟩
  have h2 := this ⟨b.toNat % 16, by omega⟩
  simp only at h1 h2
  rw [hex2, h1, h2]
  rfl

theorem wrote_hex : ∀ (bs : Bytes) {f : Sink}, f.Clean → Wrote f (bytesText bs) (dumpHex f bs)
  | [], f, _ => ⟨rfl, by simp [dumpHex, bytesText], rfl⟩
  | b :: bs, f, h => by
    have h1 := wrote_put h (hex2 b)
    have := h1.seq (k := fun g => dumpHex g bs) (wrote_hex bs (h1.clean h))
    rw [hex2_eq] at this
    rw [dumpHex, hex2_eq]; exact this

theorem wrote_bytes (bs : Bytes) {f : Sink} (h : f.Clean) :
    Wrote f (bytesLine bs) (dumpBytes f bs) := by
  have h1 := wrote_hex bs h
  exact h1.seq (wrote_put (h1.clean h) _)

theorem wrote_coord (v : Bytes) {f : Sink} (h : f.Clean) :
    Wrote f (coordText v) (dumpPackedFp f v) := by
  have h1 := wrote_put h [48, 120]
  exact h1.seq (wrote_hex _ (h1.clean h))

theorem wrote_fp2 (v : PFp2) {f : Sink} (h : f.Clean) :
    Wrote f (fp2Line v) (dumpFp2 f v) := by
  have h1 := wrote_coord v.real h
  have c1 := h1.clean h
  have h2 := wrote_put c1 [44]
  have c2 := h2.clean c1
  have h3 := wrote_coord v.imag c2
  have h4 := wrote_put (h3.clean c2) [10]
  have := h1.seq (k := fun f => andThen (f.put [44]) fun f =>
    andThen (dumpPackedFp f v.imag) fun f => f.put [10])
    (h2.seq (k := fun f => andThen (dumpPackedFp f v.imag) fun f => f.put [10]) (h3.seq h4))
  rw [dumpFp2]
  have e : fp2Line v = coordText v.real ++ ([44] ++ (coordText v.imag ++ [10])) := by
    simp [fp2Line, fp2Body, List.append_assoc, show ascii "," = [44] by decide,
      show ascii "\n" = [10] by decide]
  rw [e]; exact this

theorem wrote_chain : ∀ (vs : List PFp2) {f : Sink}, f.Clean →
    Wrote f (chainLines vs) (dumpChain f vs)
  | [], f, _ => ⟨rfl, by simp [dumpChain, chainLines], rfl⟩
  | v :: vs, f, h => by
    have h1 := wrote_fp2 v h
    exact h1.seq (k := fun g => dumpChain g vs) (wrote_chain vs (h1.clean h))

theorem Wrote.prepend {f t u r} {s : Bool × Sink} (h : Wrote f t s) (hr : Wrote s.2 u r) :
    Wrote f (t ++ u) r := by
  obtain ⟨h1, h2, h3⟩ := h
  obtain ⟨k1, k2, k3⟩ := hr
  exact ⟨k1, by rw [k2, h2, List.append_assoc], by rw [k3, h3]⟩

theorem wrote_resp (r : Resp) {f : Sink} (h : f.Clean) :
    Wrote f (respText r) (dumpResp f r) := by
  have h0 := wrote_put h (tagLine r)
  have c0 := h0.clean h
  cases r with
  | left r2 h3 chain =>
    have h1 := wrote_bytes r2 c0
    have c1 := h1.clean c0
    have h2 := wrote_bytes h3 c1
    have h3' := wrote_chain chain (h2.clean c1)
    have := h0.prepend (h1.seq (k := fun f => andThen (dumpBytes f h3) fun f => dumpChain f chain)
      (h2.seq (k := fun f => dumpChain f chain) h3'))
    have e : respText (.left r2 h3 chain) = tagLine (.left r2 h3 chain) ++
        (bytesLine r2 ++ (bytesLine h3 ++ chainLines chain)) := by
      simp [respText, tagLine, List.append_assoc, show ascii "-1\n" = [45, 49, 10] by decide]
    rw [e]; exact this
  | bottom r2 r3 E2 chain =>
    have h1 := wrote_bytes r2 c0
    have c1 := h1.clean c0
    have h2 := wrote_bytes r3 c1
    have c2 := h2.clean c1
    have h3 := wrote_fp2 E2 c2
    have h4 := wrote_chain chain (h3.clean c2)
    have := h0.prepend (h1.seq (k := fun f => andThen (dumpBytes f r3) fun f =>
        andThen (dumpFp2 f E2) fun f => dumpChain f chain)
      (h2.seq (k := fun f => andThen (dumpFp2 f E2) fun f => dumpChain f chain)
      (h3.seq (k := fun f => dumpChain f chain) h4)))
    have e : respText (.bottom r2 r3 E2 chain) = tagLine (.bottom r2 r3 E2 chain) ++
        (bytesLine r2 ++ (bytesLine r3 ++ (fp2Line E2 ++ chainLines chain))) := by
      simp [respText, tagLine, List.append_assoc, show ascii "0\n" = [48, 10] by decide]
    rw [e]; exact this
  | right h2 r3 chain =>
    have h1 := wrote_bytes h2 c0
    have c1 := h1.clean c0
    have h2' := wrote_bytes r3 c1
    have h3' := wrote_chain chain (h2'.clean c1)
    have := h0.prepend (h1.seq (k := fun f => andThen (dumpBytes f r3) fun f => dumpChain f chain)
      (h2'.seq (k := fun f => dumpChain f chain) h3'))
    have e : respText (.right h2 r3 chain) = tagLine (.right h2 r3 chain) ++
        (bytesLine h2 ++ (bytesLine r3 ++ chainLines chain)) := by
      simp [respText, tagLine, List.append_assoc, show ascii "1\n" = [49, 10] by decide]
    rw [e]; exact this

theorem wrote_resps : ∀ (rs : List Resp) {f : Sink}, f.Clean →
    Wrote f (rs.flatMap respText) (dumpResps f rs)
  | [], f, _ => ⟨rfl, by simp [dumpResps], rfl⟩
  | r :: rs, f, h => by
    have h1 := wrote_resp r h
    exact h1.seq (k := fun g => dumpResps g rs) (wrote_resps rs (h1.clean h))

theorem wrote_dump (p : Proof) {f : Sink} (h : f.Clean) :
    Wrote f (proofText p) (dump f p) := by
  have h1 := wrote_fp2 p.E0 h
  have c1 := h1.clean h
  have h2 := wrote_fp2 p.E1 c1
  have h3 := wrote_resps p.resp (h2.clean c1)
  have := h1.seq (k := fun f => andThen (dumpFp2 f p.E1) fun f => dumpResps f p.resp)
    (h2.seq (k := fun f => dumpResps f p.resp) h3)
  rw [proofText, List.append_assoc]; exact this

/-! ## Reading what was written -/

@[simp] theorem PRes.bind_ok {α β} (v : α) (r : Bytes) (k : α → Bytes → PRes β) :
    (PRes.ok v r).bind k = k v r := rfl
@[simp] theorem PRes.bind_fail {α β} (k : α → Bytes → PRes β) :
    (PRes.fail : PRes α).bind k = .fail := rfl
@[simp] theorem PRes.bind_ub {α β} (k : α → Bytes → PRes β) :
    (PRes.ub : PRes α).bind k = .ub := rfl

theorem skipWs_white : ∀ {w : Bytes}, (∀ c ∈ w, isSpace c = true) → ∀ s, skipWs (w ++ s) = skipWs s
  | [], _, s => rfl
  | c :: cs, h, s => by
    have hc := h c (by simp)
    simp only [List.cons_append, skipWs, hc, if_true]
    exact skipWs_white (fun d hd => h d (by simp [hd])) s

theorem hexDigit_facts : ∀ d : Fin 16, ctypeUB (hexDigit d.val) = false ∧
    isXDigit (hexDigit d.val) = true ∧ xDigitVal (hexDigit d.val) = d.val ∧
    isSpace (hexDigit d.val) = false := by decide

theorem parseHexByte_hex2 (b : UInt8) (s : Bytes) : parseHexByte (hex2 b ++ s) = .ok b s := by
  have hb := b.toNat_lt
  obtain ⟨a1, a2, a3, _⟩ := hexDigit_facts ⟨b.toNat / 16, by omega⟩
  obtain ⟨c1, c2, c3, _⟩ := hexDigit_facts ⟨b.toNat % 16, by omega⟩
  simp only at a1 a2 a3 c1 c2 c3
  simp only [hex2, List.cons_append, List.nil_append, parseHexByte, a1, a2, a3, c1, c2, c3]
  simp only [Nat.div_add_mod, UInt8.ofNat_toNat]
  rfl

theorem parseHex_bytesText : ∀ (bs : Bytes) (s : Bytes),
    parseHex bs.length (bytesText bs ++ s) = .ok bs s
  | [], s => rfl
  | b :: bs, s => by
    have ih := parseHex_bytesText bs s
    simp only [bytesText, List.flatMap_cons, List.append_assoc, List.length_cons, parseHex] at *
    rw [← hex2_eq, parseHexByte_hex2]
    simp only [PRes.bind_ok, ih]

theorem skipWs_bytesText {bs : Bytes} (h : 0 < bs.length) (s : Bytes) :
    skipWs (bytesText bs ++ s) = bytesText bs ++ s := by
  cases bs with
  | nil => simp at h
  | cons b bs =>
    have hb := b.toNat_lt
    obtain ⟨_, _, _, a4⟩ := hexDigit_facts ⟨b.toNat / 16, by omega⟩
    simp only at a4
    simp only [bytesText, List.flatMap_cons, ← hex2_eq, hex2, List.cons_append, skipWs, a4]
    simp

theorem parseBytes_line {bs w : Bytes} {n : Nat} (hn : bs.length = n) (h : 0 < n)
    (hw : ∀ c ∈ w, isSpace c = true) (s : Bytes) :
    parseBytes n (w ++ (bytesText bs ++ s)) = .ok bs s := by
  subst hn
  rw [parseBytes, skipWs_white hw, skipWs_bytesText h, parseHex_bytesText]

theorem parsePackedFp_coord {v w : Bytes} {n : Nat} (hn : v.length = n)
    (hw : ∀ c ∈ w, isSpace c = true) (s : Bytes) :
    parsePackedFp n (w ++ (coordText v ++ s)) = .ok v s := by
  subst hn
  rw [parsePackedFp, skipWs_white hw]
  have : skipWs (coordText v ++ s) = 48 :: 120 :: (bytesText v.reverse ++ s) := by
    have : ascii "0x" = [48, 120] := by decide
    rw [coordText, this]
    simp only [List.cons_append, List.nil_append, skipWs]
    rw [if_neg (by decide)]
  rw [this]
  have h := parseHex_bytesText v.reverse s
  rw [List.length_reverse] at h
  simp [h]

theorem parseFp2_body {P : Params} {v : PFp2} (hv : v.WF P) {w : Bytes}
    (hw : ∀ c ∈ w, isSpace c = true) (s : Bytes) :
    parseFp2 P (w ++ (fp2Body v ++ s)) = .ok v s := by
  have hc : ascii "," = [44] := by decide
  rw [parseFp2, fp2Body, List.append_assoc, List.append_assoc, parsePackedFp_coord hv.1 hw, hc]
  simp only [PRes.bind_ok, List.cons_append, List.nil_append, skipWs]
  rw [if_neg (by decide)]
  have := parsePackedFp_coord (w := []) hv.2 (by simp) s
  simp only [List.nil_append] at this
  simp [this]

theorem nl_white : ∀ c ∈ ([10] : Bytes), isSpace c = true := by decide

theorem parseFp2_line {P : Params} {v : PFp2} (hv : v.WF P) {w : Bytes}
    (hw : ∀ c ∈ w, isSpace c = true) (s : Bytes) :
    parseFp2 P (w ++ (fp2Line v ++ s)) = .ok v (10 :: s) := by
  rw [fp2Line, List.append_assoc, parseFp2_body hv hw]; rfl

/-- The lines of a chain without the last end of line. -/
def chainBody : List PFp2 → Bytes
  | [] => []
  | [v] => fp2Body v
  | v :: vs => fp2Line v ++ chainBody vs

theorem chainLines_body : ∀ {vs : List PFp2}, 0 < vs.length → chainLines vs = chainBody vs ++ [10]
  | [], h => by simp at h
  | [v], _ => by
    simp only [chainLines, chainBody, List.flatMap_cons, List.flatMap_nil, List.append_nil, fp2Line]
    rfl
  | v :: v' :: vs, _ => by
    have := chainLines_body (vs := v' :: vs) (by simp)
    rw [show chainLines (v :: v' :: vs) = fp2Line v ++ chainLines (v' :: vs) from rfl, this]
    simp [chainBody, List.append_assoc]

theorem parseChain_body {P : Params} : ∀ {vs : List PFp2}, (∀ v ∈ vs, v.WF P) → 0 < vs.length →
    ∀ {w : Bytes}, (∀ c ∈ w, isSpace c = true) → ∀ s,
    parseChain P vs.length (w ++ (chainBody vs ++ s)) = .ok vs s
  | [], _, h, _, _, _ => by simp at h
  | [v], hv, _, w, hw, s => by
    have := parseFp2_body (hv v (by simp)) hw s
    simp [chainBody, parseChain, this]
  | v :: v' :: vs, hv, _, w, hw, s => by
    have h1 := parseFp2_line (hv v (by simp)) hw (chainBody (v' :: vs) ++ s)
    have h2 := parseChain_body (P := P) (vs := v' :: vs) (fun u hu => hv u (by simp [hu])) (by simp)
      nl_white s
    have e : chainBody (v :: v' :: vs) = fp2Line v ++ chainBody (v' :: vs) := rfl
    rw [e, List.append_assoc, List.length_cons, parseChain, h1]
    simp only [PRes.bind_ok]
    rw [show (10 : UInt8) :: (chainBody (v' :: vs) ++ s) = [10] ++ (chainBody (v' :: vs) ++ s) from rfl,
      h2]
    rfl

theorem scanInt_tag (r : Resp) {w : Bytes} (hw : ∀ c ∈ w, isSpace c = true) (s : Bytes) :
    scanInt (w ++ (tagLine r ++ s)) = .ok r.tag (10 :: s) := by
  rw [scanInt, skipWs_white hw]
  cases r <;> simp [tagLine, Resp.tag, skipWs, isSpace, scanFin, scanDigits, isDigit, intRes]

/-- The text of a response without the last end of line. -/
def respBody : Resp → Bytes
  | .left r2 h3 chain => ascii "-1\n" ++ bytesLine r2 ++ bytesLine h3 ++ chainBody chain
  | .bottom r2 r3 E2 chain =>
      ascii "0\n" ++ bytesLine r2 ++ bytesLine r3 ++ fp2Line E2 ++ chainBody chain
  | .right h2 r3 chain => ascii "1\n" ++ bytesLine h2 ++ bytesLine r3 ++ chainBody chain

theorem respText_body {P : Params} (hP : P.Pos) {r : Resp} (hr : r.WF P) :
    respText r = respBody r ++ [10] := by
  cases r with
  | left r2 h3 chain =>
    simp [respText, respBody, chainLines_body (vs := chain) (by rw [hr.2.2.1]; exact hP.height)]
  | bottom r2 r3 E2 chain =>
    simp [respText, respBody, chainLines_body (vs := chain) (by rw [hr.2.2.2.1]; exact hP.width)]
  | right r2 h3 chain =>
    simp [respText, respBody, chainLines_body (vs := chain) (by rw [hr.2.2.1]; exact hP.height)]

theorem parseResp_body {P : Params} (hP : P.Pos) {r : Resp} (hr : r.WF P) {w : Bytes}
    (hw : ∀ c ∈ w, isSpace c = true) (s : Bytes) :
    parseResp P (w ++ (respBody r ++ s)) = .ok r s := by
  have nl : ascii "\n" = [10] := by decide
  have cons : ∀ t : Bytes, (10 : UInt8) :: t = [10] ++ t := fun _ => rfl
  cases r with
  | left r2 h3 chain =>
    obtain ⟨l1, l2, l3, l4⟩ := hr
    have t : respBody (.left r2 h3 chain) ++ s =
      tagLine (.left r2 h3 chain) ++ (bytesText r2 ++ ([10] ++ (bytesText h3 ++ ([10] ++
        (chainBody chain ++ s))))) := by
      simp [respBody, tagLine, bytesLine, nl, List.append_assoc, show ascii "-1\n" = [45,49,10] by decide]
    rw [t, parseResp, scanInt_tag _ hw]
    simp only [PRes.bind_ok, Resp.tag, if_true]
    rw [cons, parseBytes_line l1 hP.hide nl_white]
    simp only [PRes.bind_ok]
    rw [parseBytes_line l2 hP.hash nl_white]
    simp only [PRes.bind_ok]
    rw [← l3, parseChain_body l4 (by rw [l3]; exact hP.height) nl_white]
    rfl
  | bottom r2 r3 E2 chain =>
    obtain ⟨l1, l2, l3, l4, l5⟩ := hr
    have t : respBody (.bottom r2 r3 E2 chain) ++ s =
      tagLine (.bottom r2 r3 E2 chain) ++ (bytesText r2 ++ ([10] ++ (bytesText r3 ++ ([10] ++
        (fp2Line E2 ++ (chainBody chain ++ s)))))) := by
      simp [respBody, tagLine, bytesLine, nl, List.append_assoc, show ascii "0\n" = [48,10] by decide]
    rw [t, parseResp, scanInt_tag _ hw]
    simp only [PRes.bind_ok, Resp.tag, if_true]
    rw [if_neg (by decide)]
    rw [cons, parseBytes_line l1 hP.hide nl_white]
    simp only [PRes.bind_ok]
    rw [parseBytes_line l2 hP.hide nl_white]
    simp only [PRes.bind_ok]
    rw [parseFp2_line l3 nl_white]
    simp only [PRes.bind_ok]
    rw [cons, ← l4, parseChain_body l5 (by rw [l4]; exact hP.width) nl_white]
    rfl
  | right h2 r3 chain =>
    obtain ⟨l1, l2, l3, l4⟩ := hr
    have t : respBody (.right h2 r3 chain) ++ s =
      tagLine (.right h2 r3 chain) ++ (bytesText h2 ++ ([10] ++ (bytesText r3 ++ ([10] ++
        (chainBody chain ++ s))))) := by
      simp [respBody, tagLine, bytesLine, nl, List.append_assoc, show ascii "1\n" = [49,10] by decide]
    rw [t, parseResp, scanInt_tag _ hw]
    simp only [PRes.bind_ok, Resp.tag, if_true]
    rw [if_neg (by decide), if_neg (by decide)]
    rw [cons, parseBytes_line l1 hP.hash nl_white]
    simp only [PRes.bind_ok]
    rw [parseBytes_line l2 hP.hide nl_white]
    simp only [PRes.bind_ok]
    rw [← l3, parseChain_body l4 (by rw [l3]; exact hP.height) nl_white]
    rfl

def respsBody : List Resp → Bytes
  | [] => []
  | [r] => respBody r
  | r :: rs => respText r ++ respsBody rs

theorem respsText_body {P : Params} (hP : P.Pos) : ∀ {rs : List Resp}, (∀ r ∈ rs, r.WF P) →
    0 < rs.length → rs.flatMap respText = respsBody rs ++ [10]
  | [], _, h => by simp at h
  | [r], hr, _ => by simp [respsBody, respText_body hP (hr r (by simp))]
  | r :: r' :: rs, hr, _ => by
    rw [List.flatMap_cons,
      respsText_body hP (rs := r' :: rs) (fun u hu => hr u (by simp [hu])) (by simp)]
    simp [respsBody, List.append_assoc]

theorem parseResps_body {P : Params} (hP : P.Pos) : ∀ {rs : List Resp}, (∀ r ∈ rs, r.WF P) →
    0 < rs.length → ∀ {w : Bytes}, (∀ c ∈ w, isSpace c = true) → ∀ s,
    parseResps P rs.length (w ++ (respsBody rs ++ s)) = .ok rs s
  | [], _, h, _, _, _ => by simp at h
  | [r], hr, _, w, hw, s => by
    have := parseResp_body hP (hr r (by simp)) hw s
    simp [parseResps, respsBody, this]
  | r :: r' :: rs, hr, _, w, hw, s => by
    have h1 := parseResp_body hP (hr r (by simp)) hw ([10] ++ (respsBody (r' :: rs) ++ s))
    have h2 := parseResps_body hP (rs := r' :: rs) (fun u hu => hr u (by simp [hu])) (by simp)
      nl_white s
    have e : respsBody (r :: r' :: rs) ++ s = respBody r ++ ([10] ++ (respsBody (r' :: rs) ++ s)) := by
      rw [show respsBody (r :: r' :: rs) = respText r ++ respsBody (r' :: rs) from rfl,
        respText_body hP (hr r (by simp))]
      simp [List.append_assoc]
    rw [e, List.length_cons, parseResps, h1]
    simp only [PRes.bind_ok]
    rw [h2]
    rfl

/-- The text of a proof without the last end of line. -/
def proofBody (p : Proof) : Bytes := fp2Line p.E0 ++ fp2Line p.E1 ++ respsBody p.resp

theorem proofText_body {P : Params} (hP : P.Pos) {p : Proof} (hp : p.WF P) :
    proofText p = proofBody p ++ [10] := by
  obtain ⟨_, _, h2, h3⟩ := hp
  rw [proofText, proofBody, respsText_body hP h3 (by rw [h2]; exact hP.reps)]
  simp [List.append_assoc]

theorem parse_body {P : Params} (hP : P.Pos) {p : Proof} (hp : p.WF P) {w : Bytes}
    (hw : ∀ c ∈ w, isSpace c = true) (s : Bytes) :
    parse P (w ++ (proofBody p ++ s)) = .ok p s := by
  obtain ⟨h0, h1, h2, h3⟩ := hp
  rw [proofBody, List.append_assoc, List.append_assoc, parse, parseFp2_line h0 hw]
  simp only [PRes.bind_ok]
  rw [show ∀ t : Bytes, (10 : UInt8) :: t = [10] ++ t from fun _ => rfl, parseFp2_line h1 nl_white]
  simp only [PRes.bind_ok]
  rw [show ∀ t : Bytes, (10 : UInt8) :: t = [10] ++ t from fun _ => rfl, ← h2,
    parseResps_body hP h3 (by rw [h2]; exact hP.reps) nl_white]
  rfl

theorem parse_text {P : Params} (hP : P.Pos) {p : Proof} (hp : p.WF P) {w : Bytes}
    (hw : ∀ c ∈ w, isSpace c = true) (s : Bytes) :
    parse P (w ++ (proofText p ++ s)) = .ok p (10 :: s) := by
  rw [proofText_body hP hp, List.append_assoc, parse_body hP hp hw]
  rfl

/-! ## Monotonicity: parsers never look past what they consume -/

/-- A reader is monotone: success and undefined behaviour are stable under appending data. -/
def Mono {α} (p : Bytes → PRes α) : Prop :=
  (∀ s v r, p s = .ok v r → ∀ u, p (s ++ u) = .ok v (r ++ u)) ∧
  (∀ s, p s = .ub → ∀ u, p (s ++ u) = .ub)

theorem Mono.bind {α β} {p : Bytes → PRes α} {k : α → Bytes → PRes β} (hp : Mono p)
    (hk : ∀ a, Mono (k a)) : Mono (fun s => (p s).bind k) := by
  constructor
  · intro s v r h u
    simp only at h ⊢
    match hps : p s, h with
    | .ok a t, h => rw [hp.1 s a t hps u]; exact (hk a).1 t v r h u
    | .fail, h => simp at h
    | .ub, h => simp at h
  · intro s h u
    simp only at h ⊢
    match hps : p s, h with
    | .ok a t, h => rw [hp.1 s a t hps u]; exact (hk a).2 t h u
    | .fail, h => simp at h
    | .ub, _ => rw [hp.2 s hps u]; rfl

theorem Mono.ret {α} (f : Bytes → α) (hf : ∀ s u, f (s ++ u) = f s) :
    Mono (fun s => PRes.ok (f s) s) := by
  constructor
  · intro s v r h u
    injection h with h1 h2
    subst h1; subst h2; simp [hf]
  · intro s h; cases h

theorem Mono.const {α} (a : α) : Mono (fun s => PRes.ok a s) := Mono.ret (fun _ => a) (by simp)

theorem mono_parseHexByte : Mono parseHexByte := by
  constructor
  · intro s v r h u
    match s, h with
    | a :: b :: rest, h =>
      simp only [parseHexByte, List.cons_append] at *
      split at h <;> try contradiction
      split at h <;> try contradiction
      split at h <;> try contradiction
      split at h <;> try contradiction
      simp_all
  · intro s h u
    match s, h with
    | a :: b :: rest, h =>
      simp only [parseHexByte, List.cons_append] at *
      split at h
      · simp_all
      · split at h
        · simp_all
        · split at h
          · simp_all
          · split at h <;> simp_all

theorem mono_parseHex : ∀ n, Mono (parseHex n)
  | 0 => Mono.const _
  | n + 1 => mono_parseHexByte.bind fun _ => (mono_parseHex n).bind fun _ => Mono.const _

theorem skipWs_append {s : Bytes} (h : skipWs s ≠ []) (u : Bytes) :
    skipWs (s ++ u) = skipWs s ++ u := by
  induction s with
  | nil => simp [skipWs] at h
  | cons c cs ih =>
    simp only [skipWs, List.cons_append] at *
    split
    · rename_i hc; simp only [hc, if_true] at h; exact ih h
    · rfl

theorem mono_skip {α} {p : Bytes → PRes α} (hp : Mono p) (hnil : p [] = .fail) :
    Mono (fun s => p (skipWs s)) := by
  constructor
  · intro s v r h u
    have : skipWs s ≠ [] := by
      intro e; simp only [e, hnil] at h; cases h
    simp only [skipWs_append this]
    exact hp.1 _ _ _ h u
  · intro s h u
    have : skipWs s ≠ [] := by
      intro e; simp only [e, hnil] at h; cases h
    simp only [skipWs_append this]
    exact hp.2 _ h u

theorem mono_parseBytes {n : Nat} (hn : 0 < n) : Mono (parseBytes n) := by
  apply mono_skip (mono_parseHex n)
  cases n with
  | zero => simp at hn
  | succ n => simp [parseHex, parseHexByte]

theorem mono_parsePackedFp (n : Nat) : Mono (parsePackedFp n) := by
  have h : Mono (fun s => match s with
      | a :: b :: rest =>
        if a == 48 && b == 120 then (parseHex n rest).bind fun bs r => .ok bs.reverse r
        else .fail
      | _ => PRes.fail) := by
    constructor
    · intro s v r h u
      match s, h with
      | a :: b :: rest, h =>
        simp only [List.cons_append] at *
        split at h
        · rename_i hc
          simp only [hc, if_true]
          exact ((mono_parseHex n).bind fun bs => Mono.const bs.reverse).1 rest v r h u
        · cases h
    · intro s h u
      match s, h with
      | a :: b :: rest, h =>
        simp only [List.cons_append] at *
        split at h
        · rename_i hc
          simp only [hc, if_true]
          exact ((mono_parseHex n).bind fun bs => Mono.const bs.reverse).2 rest h u
        · cases h
  exact mono_skip h rfl

theorem mono_parseFp2 (P : Params) : Mono (parseFp2 P) := by
  refine (mono_parsePackedFp P.fpBytes).bind fun re => ?_
  refine mono_skip (p := fun s => match s with
    | c :: s =>
      if c == 44 then (parsePackedFp P.fpBytes s).bind fun im s => .ok (PFp2.mk re im) s
      else .fail
    | [] => .fail) ?_ rfl
  have hm := (mono_parsePackedFp P.fpBytes).bind fun im => Mono.const (PFp2.mk re im)
  constructor
  · intro s v r h u
    match s, h with
    | c :: s, h =>
      simp only [List.cons_append] at *
      split at h
      · rename_i hc; simp only [hc, if_true]; exact hm.1 s v r h u
      · cases h
  · intro s h u
    match s, h with
    | c :: s, h =>
      simp only [List.cons_append] at *
      split at h
      · rename_i hc; simp only [hc, if_true]; exact hm.2 s h u
      · cases h

theorem mono_parseChain (P : Params) : ∀ n, Mono (parseChain P n)
  | 0 => Mono.const _
  | n + 1 => (mono_parseFp2 P).bind fun _ => (mono_parseChain P n).bind fun _ => Mono.const _

/-! `%d` is monotone only when something follows the digits. -/

theorem scanDigits_append : ∀ (s : Bytes) (acc n : Nat) (u : Bytes),
    (scanDigits acc n s).2.2 ≠ [] →
    scanDigits acc n (s ++ u) =
      ((scanDigits acc n s).1, (scanDigits acc n s).2.1, (scanDigits acc n s).2.2 ++ u)
  | [], acc, n, u, h => by simp [scanDigits] at h
  | c :: cs, acc, n, u, h => by
    simp only [scanDigits, List.cons_append] at *
    split
    · rename_i hc; simp only [hc, if_true] at h; exact scanDigits_append cs _ _ u h
    · rfl

theorem scanDigits_mono : ∀ (s : Bytes) (acc n : Nat),
    acc ≤ (scanDigits acc n s).1 ∧ n ≤ (scanDigits acc n s).2.1
  | [], acc, n => by simp [scanDigits]
  | c :: cs, acc, n => by
    simp only [scanDigits]
    split
    · have := scanDigits_mono cs (10 * acc + (c.toNat - 48)) (n + 1)
      omega
    · simp

/-- If the digits run to the end of the input, appending can only increase the value. -/
theorem scanDigits_append_nil : ∀ (s : Bytes) (acc n : Nat) (u : Bytes),
    (scanDigits acc n s).2.2 = [] →
    scanDigits acc n (s ++ u) = scanDigits (scanDigits acc n s).1 (scanDigits acc n s).2.1 u
  | [], acc, n, u, h => by simp [scanDigits]
  | c :: cs, acc, n, u, h => by
    simp only [scanDigits, List.cons_append] at *
    split
    · rename_i hc; simp only [hc, if_true] at h; exact scanDigits_append_nil cs _ _ u h
    · rename_i hc; simp [hc] at h

theorem scanInt_eq (s : Bytes) : scanInt s = match skipWs s with
  | c :: cs => if c == 45 then scanFin true cs else if c == 43 then scanFin false cs
      else scanFin false (c :: cs)
  | [] => .fail := rfl

theorem intRes_ok {neg a t v r} (h : intRes neg a t = .ok v r) :
    t = r ∧ ∀ u, intRes neg a u = .ok v u := by
  unfold intRes at *
  by_cases hc : a ≤ 2147483647 ∨ (neg = true ∧ a = 2147483648)
  · rw [if_pos hc] at h
    injection h with h1 h2
    exact ⟨h2, fun u => by rw [if_pos hc, h1]⟩
  · rw [if_neg hc] at h; cases h

theorem intRes_ub {neg a t} (h : intRes neg a t = .ub) {b : Nat} (hb : a ≤ b) (u : Bytes) :
    intRes neg b u = .ub := by
  unfold intRes at *
  by_cases hc : a ≤ 2147483647 ∨ (neg = true ∧ a = 2147483648)
  · rw [if_pos hc] at h; cases h
  · rw [if_neg]
    rintro (h1 | ⟨h1, h2⟩)
    · omega
    · rcases Nat.lt_or_ge a 2147483648 with h3 | h3
      · omega
      · exact hc (.inr ⟨h1, by omega⟩)

theorem scanFin_ok {neg s v r} (h : scanFin neg s = .ok v r) (hr : r ≠ []) (u : Bytes) :
    scanFin neg (s ++ u) = .ok v (r ++ u) := by
  unfold scanFin at *
  match hd : scanDigits 0 0 s, h with
  | (a, 0, t), h => simp at h
  | (a, m + 1, t), h =>
    simp only at h
    obtain ⟨rfl, h2⟩ := intRes_ok h
    have := scanDigits_append s 0 0 u (by rw [hd]; exact hr)
    rw [this, hd]
    exact h2 _

theorem scanFin_ub {neg s} (h : scanFin neg s = .ub) (u : Bytes) :
    scanFin neg (s ++ u) = .ub := by
  unfold scanFin at *
  match hd : scanDigits 0 0 s, h with
  | (a, 0, t), h => simp at h
  | (a, m + 1, t), h =>
    simp only at h
    by_cases ht : t = []
    · subst ht
      have h1 := scanDigits_append_nil s 0 0 u (by rw [hd])
      rw [h1, hd]
      have h2 := scanDigits_mono u a (m + 1)
      match he : scanDigits a (m + 1) u, h2 with
      | (b, 0, t'), h2 => simp at h2
      | (b, k + 1, t'), h2 => exact intRes_ub h h2.1 _
    · have := scanDigits_append s 0 0 u (by rw [hd]; exact ht)
      rw [this, hd]
      exact intRes_ub h (Nat.le_refl _) _

theorem scanInt_ok {s v r} (h : scanInt s = .ok v r) (hr : r ≠ []) (u : Bytes) :
    scanInt (s ++ u) = .ok v (r ++ u) := by
  rw [scanInt_eq] at *
  match hs : skipWs s, h with
  | [], h => simp at h
  | c :: cs, h =>
    have : skipWs s ≠ [] := by simp [hs]
    rw [skipWs_append this, hs]
    simp only [List.cons_append] at *
    split
    · rename_i hc; simp only [hc, if_true] at h; exact scanFin_ok h hr u
    · rename_i hc; simp only [hc] at h
      split
      · rename_i hc'; simp only [hc'] at h; exact scanFin_ok h hr u
      · rename_i hc'; simp only [hc'] at h; exact scanFin_ok h hr u

theorem scanInt_ub {s} (h : scanInt s = .ub) (u : Bytes) : scanInt (s ++ u) = .ub := by
  rw [scanInt_eq] at *
  match hs : skipWs s, h with
  | [], h => simp at h
  | c :: cs, h =>
    have : skipWs s ≠ [] := by simp [hs]
    rw [skipWs_append this, hs]
    simp only [List.cons_append] at *
    split
    · rename_i hc; simp only [hc, if_true] at h; exact scanFin_ub h u
    · rename_i hc; simp only [hc] at h
      split
      · rename_i hc'; simp only [hc'] at h; exact scanFin_ub h u
      · rename_i hc'; simp only [hc'] at h; exact scanFin_ub h u

theorem Mono.afterInt {β} {k : Int → Bytes → PRes β} (hk : ∀ a, Mono (k a))
    (hnil : ∀ a, k a [] = .fail) : Mono (fun s => (scanInt s).bind k) := by
  constructor
  · intro s v r h u
    simp only at h ⊢
    match hps : scanInt s, h with
    | .ok a t, h =>
      have ht : t ≠ [] := by rintro rfl; simp [hnil] at h
      rw [scanInt_ok hps ht u]; exact (hk a).1 t v r h u
    | .fail, h => simp at h
    | .ub, h => simp at h
  · intro s h u
    simp only at h ⊢
    match hps : scanInt s, h with
    | .ok a t, h =>
      have ht : t ≠ [] := by rintro rfl; simp [hnil] at h
      rw [scanInt_ok hps ht u]; exact (hk a).2 t h u
    | .fail, h => simp at h
    | .ub, _ => rw [scanInt_ub hps u]; rfl

theorem Mono.failing {α} : Mono (fun _ => (PRes.fail : PRes α)) :=
  ⟨by intro _ _ _ h; simp at h, by intro _ h; simp at h⟩

theorem parseBytes_nil {n : Nat} (hn : 0 < n) : parseBytes n [] = .fail := by
  cases n with
  | zero => simp at hn
  | succ n => simp [parseBytes, skipWs, parseHex, parseHexByte]

theorem mono_parseResp {P : Params} (hP : P.Pos) : Mono (parseResp P) := by
  refine Mono.afterInt (fun tag => ?_) (fun tag => ?_)
  · split
    · exact (mono_parseBytes hP.hide).bind fun _ => (mono_parseBytes hP.hash).bind fun _ =>
        (mono_parseChain P _).bind fun _ => Mono.const _
    · split
      · exact (mono_parseBytes hP.hide).bind fun _ => (mono_parseBytes hP.hide).bind fun _ =>
          (mono_parseFp2 P).bind fun _ => (mono_parseChain P _).bind fun _ => Mono.const _
      · split
        · exact (mono_parseBytes hP.hash).bind fun _ => (mono_parseBytes hP.hide).bind fun _ =>
            (mono_parseChain P _).bind fun _ => Mono.const _
        · exact Mono.failing
  · split
    · rw [parseBytes_nil hP.hide]; rfl
    · split
      · rw [parseBytes_nil hP.hide]; rfl
      · split
        · rw [parseBytes_nil hP.hash]; rfl
        · rfl

theorem mono_parseResps {P : Params} (hP : P.Pos) : ∀ n, Mono (parseResps P n)
  | 0 => Mono.const _
  | n + 1 => (mono_parseResp hP).bind fun _ => (mono_parseResps hP n).bind fun _ => Mono.const _

theorem mono_parse {P : Params} (hP : P.Pos) : Mono (parse P) :=
  (mono_parseFp2 P).bind fun _ => (mono_parseFp2 P).bind fun _ =>
    (mono_parseResps hP _).bind fun _ => Mono.const _

/-! ## Shape of what is parsed -/

/-- Every successfully read value satisfies `Q`. -/
def Yields {α} (p : Bytes → PRes α) (Q : α → Prop) : Prop :=
  ∀ s v r, p s = .ok v r → Q v

theorem Yields.bind {α β} {p : Bytes → PRes α} {k : α → Bytes → PRes β} {Q R}
    (hp : Yields p Q) (hk : ∀ a, Q a → Yields (k a) R) : Yields (fun s => (p s).bind k) R := by
  intro s v r h
  simp only at h
  match hps : p s, h with
  | .ok a t, h => exact hk a (hp s a t hps) t v r h
  | .fail, h => simp at h
  | .ub, h => simp at h

theorem Yields.const {α} (a : α) {Q : α → Prop} (h : Q a) : Yields (fun s => PRes.ok a s) Q := by
  intro s v r e
  injection e with e1 _
  subst e1; exact h

theorem yields_parseHex : ∀ n, Yields (parseHex n) (fun bs => bs.length = n)
  | 0 => Yields.const _ rfl
  | n + 1 => Yields.bind (Q := fun _ => True) (fun _ _ _ _ => trivial) fun _ _ =>
      (yields_parseHex n).bind fun bs hbs => Yields.const _ (by simp [hbs])

theorem yields_parseBytes (n : Nat) : Yields (parseBytes n) (fun bs => bs.length = n) :=
  fun s v r h => yields_parseHex n (skipWs s) v r h

theorem yields_parsePackedFp (n : Nat) : Yields (parsePackedFp n) (fun bs => bs.length = n) := by
  intro s v r h
  unfold parsePackedFp at h
  split at h
  · split at h
    · rename_i rest _ _
      exact ((yields_parseHex n).bind fun bs hbs =>
        Yields.const (Q := fun bs => bs.length = n) bs.reverse (by simp [hbs])) rest v r h
    · cases h
  · cases h

theorem yields_parseFp2 (P : Params) : Yields (parseFp2 P) (fun v => v.WF P) := by
  refine (yields_parsePackedFp P.fpBytes).bind fun re hre => ?_
  intro s v r h
  simp only at h
  split at h
  · split at h
    · exact ((yields_parsePackedFp P.fpBytes).bind fun im him =>
        Yields.const (Q := fun v => PFp2.WF P v) ⟨re, im⟩ ⟨hre, him⟩) _ v r h
    · cases h
  · cases h

theorem yields_parseChain (P : Params) : ∀ n, Yields (parseChain P n)
    (fun vs => vs.length = n ∧ ∀ v ∈ vs, v.WF P)
  | 0 => Yields.const _ (by simp)
  | n + 1 => (yields_parseFp2 P).bind fun v hv => (yields_parseChain P n).bind fun vs hvs =>
      Yields.const _ ⟨by simp [hvs.1], by
        intro u hu
        rcases List.mem_cons.1 hu with rfl | hu
        · exact hv
        · exact hvs.2 u hu⟩

theorem yields_parseResp (P : Params) : Yields (parseResp P) (fun r => r.WF P) := by
  refine Yields.bind (Q := fun _ => True) (fun _ _ _ _ => trivial) fun tag _ => ?_
  split
  · exact (yields_parseBytes _).bind fun _ h1 => (yields_parseBytes _).bind fun _ h2 =>
      (yields_parseChain P _).bind fun _ h3 => Yields.const _ ⟨h1, h2, h3.1, h3.2⟩
  · split
    · exact (yields_parseBytes _).bind fun _ h1 => (yields_parseBytes _).bind fun _ h2 =>
        (yields_parseFp2 P).bind fun _ h3 =>
        (yields_parseChain P _).bind fun _ h4 => Yields.const _ ⟨h1, h2, h3, h4.1, h4.2⟩
    · split
      · exact (yields_parseBytes _).bind fun _ h1 => (yields_parseBytes _).bind fun _ h2 =>
          (yields_parseChain P _).bind fun _ h3 => Yields.const _ ⟨h1, h2, h3.1, h3.2⟩
      · intro s v r h; cases h

theorem yields_parseResps (P : Params) : ∀ n, Yields (parseResps P n)
    (fun vs => vs.length = n ∧ ∀ v ∈ vs, v.WF P)
  | 0 => Yields.const _ (by simp)
  | n + 1 => (yields_parseResp P).bind fun v hv => (yields_parseResps P n).bind fun vs hvs =>
      Yields.const _ ⟨by simp [hvs.1], by
        intro u hu
        rcases List.mem_cons.1 hu with rfl | hu
        · exact hv
        · exact hvs.2 u hu⟩

theorem yields_parse (P : Params) : Yields (parse P) (fun p => p.WF P) :=
  (yields_parseFp2 P).bind fun _ h0 => (yields_parseFp2 P).bind fun _ h1 =>
    (yields_parseResps P _).bind fun _ h2 => Yields.const _ ⟨h0, h1, h2.1, h2.2⟩

end Secuer.Text
