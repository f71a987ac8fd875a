import Verif.Proof.TlpPack

/-!
# PCIe TLP packing (pcie.py `TLP.pack`, `TLP.unpack`)
-/

namespace Corundum.Pcie

/-! ## C51 -/

/-- Fields of a completion in range; fields a completion does not carry at their defaults. -/
structure CplFields (t : Tlp) : Prop where
  head : HeadOk t
  kind : isCpl t = true
  len : if t.fmt = 2 then 1 ≤ t.length ∧ t.length ≤ 1024 else t.length < 1024
  status : t.status < 8
  bcm : t.bcm < 2
  byteCount : 1 ≤ t.byteCount ∧ t.byteCount ≤ 4096
  tag : t.tag < 256
  lower : t.lowerAddress < 128
  requester : t.requester.Ok
  completer : t.completer.Ok
  noData : t.fmt ≠ 2 → t.data = []
  unused : t.dest = {} ∧ t.firstBe = 0 ∧ t.lastBe = 0 ∧ t.address = 0 ∧ t.registerNumber = 0

theorem cpl_cases {t : Tlp} (h : isCpl t = true) : (t.fmt = 0 ∨ t.fmt = 2) ∧ (t.typ = 0xA ∨ t.typ = 0xB) := by
  unfold isCpl at h
  simp only [Bool.or_eq_true, beq_iff_eq, Prod.mk.injEq] at h
  omega

/-- **C51 (partial).** Every completion survives `pack` followed by `unpack`. The same fails for requests: see the counterexamples below. -/
theorem C51_completion_partial (t : Tlp) (h : CplFields t) : (pack t).bind unpack = some t := by
  obtain ⟨h1, h2, h3, h4, h5, h6, h7, h8, h9, h10, h11, h12, h13, h14, h15, h16⟩ := h
  obtain ⟨hf, ht⟩ := cpl_cases h2
  have c1 : isCfg t = false := by unfold isCfg; rcases hf with hf | hf <;> rcases ht with ht | ht <;> rw [hf, ht] <;> rfl
  have c2 : isMemReq t = false := by unfold isMemReq; rcases hf with hf | hf <;> rcases ht with ht | ht <;> rw [hf, ht] <;> rfl
  have c3 : isIo t = false := by unfold isIo; rcases hf with hf | hf <;> rcases ht with ht | ht <;> rw [hf, ht] <;> rfl
  have hlen : t.length = if (t.fmt == 2 || t.fmt == 3) && t.length % 1024 == 0 then 1024 else t.length % 1024 := by
    rcases hf with hf | hf
    · rw [hf] at h3 ⊢
      simp at h3 ⊢; omega
    · rw [hf] at h3 ⊢
      simp at h3 ⊢
      split <;> omega
  have hu := unpackHead_pack t h1 t.length hlen
  have w1 : (t.byteCount &&& 0xfff) ||| ((t.bcm &&& 1) <<< 12) ||| ((t.status &&& 7) <<< 13) ||| (t.completer.toInt <<< 16) =
      t.completer.toInt * 2 ^ 16 + (t.status * 2 ^ 13 + (t.bcm * 2 ^ 12 + t.byteCount % 4096)) := by
    rw [show t.byteCount &&& 0xfff = t.byteCount % 4096 from and_p _ 12, show t.bcm &&& 1 = t.bcm % 2 from and_p _ 1,
      show t.status &&& 7 = t.status % 8 from and_p _ 3, Nat.mod_eq_of_lt h5, Nat.mod_eq_of_lt h4]
    exact word3 _ _ _ _ 12 13 (by omega) (by omega) (by omega)
  have w2 : (t.lowerAddress &&& 0x7f) ||| ((t.tag &&& 0xff) <<< 8) ||| (t.requester.toInt <<< 16) =
      t.requester.toInt * 2 ^ 16 + (t.tag * 2 ^ 8 + t.lowerAddress) := by
    rw [show t.lowerAddress &&& 0x7f = t.lowerAddress % 128 from and_p _ 7, show t.tag &&& 0xff = t.tag % 256 from and_p _ 8,
      Nat.mod_eq_of_lt h7, Nat.mod_eq_of_lt h8, or_up (k := 8) (by omega), or_up (k := 16) (by omega)]
  have hp : pack t = some ([packHead t, t.completer.toInt * 2 ^ 16 + (t.status * 2 ^ 13 + (t.bcm * 2 ^ 12 + t.byteCount % 4096)),
      t.requester.toInt * 2 ^ 16 + (t.tag * 2 ^ 8 + t.lowerAddress)] ++ t.data) := by
    unfold pack
    rw [c1, c2, c3, h2, w1, w2]
    rcases hf with hf | hf
    · rw [hf, h11 (by omega)]; rfl
    · rw [hf]; rfl
  rw [hp, Option.bind_some]
  obtain ⟨W1, hW1⟩ : ∃ W, W = t.completer.toInt * 2 ^ 16 + (t.status * 2 ^ 13 + (t.bcm * 2 ^ 12 + t.byteCount % 4096)) := ⟨_, rfl⟩
  obtain ⟨W2, hW2⟩ : ∃ W, W = t.requester.toInt * 2 ^ 16 + (t.tag * 2 ^ 8 + t.lowerAddress) := ⟨_, rfl⟩
  rw [← hW1, ← hW2]
  have hi1 := id_lt t.completer
  have hi2 := id_lt t.requester
  have e1 : W1 &&& 0xfff = t.byteCount % 4096 := by rw [show W1 &&& 0xfff = W1 % 4096 from and_p _ 12]; omega
  have e2 : (W1 >>> 12) &&& 1 = t.bcm := by
    rw [show (W1 >>> 12) &&& 1 = (W1 >>> 12) % 2 from and_p _ 1, Nat.shiftRight_eq_div_pow]; omega
  have e3 : (W1 >>> 13) &&& 7 = t.status := by
    rw [show (W1 >>> 13) &&& 7 = (W1 >>> 13) % 8 from and_p _ 3, Nat.shiftRight_eq_div_pow]; omega
  have e4 : W1 >>> 16 = t.completer.toInt := by rw [Nat.shiftRight_eq_div_pow]; omega
  have e5 : W2 &&& 0x7f = t.lowerAddress := by rw [show W2 &&& 0x7f = W2 % 128 from and_p _ 7]; omega
  have e6 : (W2 >>> 8) &&& 0xff = t.tag := by
    rw [show (W2 >>> 8) &&& 0xff = (W2 >>> 8) % 256 from and_p _ 8, Nat.shiftRight_eq_div_pow]; omega
  have e7 : W2 >>> 16 = t.requester.toInt := by rw [Nat.shiftRight_eq_div_pow]; omega
  have e8 : (if t.byteCount % 4096 == 0 then 4096 else t.byteCount % 4096) = t.byteCount := by
    by_cases hb : t.byteCount % 4096 = 0
    · rw [hb]; simp; omega
    · rw [if_neg (by simpa using hb)]; omega
  unfold unpack
  simp only [List.cons_append, List.nil_append, List.getElem?_cons_zero, List.getElem?_cons_succ, bind, Option.bind, hu]
  have d1 : ∀ u : Tlp, u.fmt = t.fmt → u.typ = t.typ → (isCfg u || isMemReq u || isIo u) = false ∧ isCpl u = true := by
    intro u hfu htu
    have a1 : isCfg u = isCfg t := by unfold isCfg; rw [hfu, htu]
    have a2 : isMemReq u = isMemReq t := by unfold isMemReq; rw [hfu, htu]
    have a3 : isIo u = isIo t := by unfold isIo; rw [hfu, htu]
    have a4 : isCpl u = isCpl t := by unfold isCpl; rw [hfu, htu]
    rw [a1, a2, a3, a4, c1, c2, c3, h2]
    exact ⟨rfl, rfl⟩
  obtain ⟨d2, d3⟩ := d1 { fmt := t.fmt, typ := t.typ, tc := t.tc, th := t.th, td := t.td, ep := t.ep, attr := t.attr, at' := t.at', length := t.length } rfl rfl
  rw [d2, d3]
  simp only [e1, e2, e3, e4, e5, e6, e7, e8, id_round _ h9, id_round _ h10, pure]
  unfold unpackData
  rcases hf with hf | hf
  · have hd := h11 (by omega)
    obtain ⟨⟩ := t
    simp only at *
    subst hf hd h12 h13 h14 h15 h16
    rfl
  · obtain ⟨⟩ := t
    simp only at *
    subst hf h12 h13 h14 h15 h16
    rfl

example : CplFields { fmt := 2, typ := 0xA, length := 1024, byteCount := 4096, tag := 200, attr := 5, tc := 3, lowerAddress := 0x7f, requester := ⟨3, 31, 7⟩, completer := ⟨255, 1, 2⟩, data := List.replicate 1024 9 } := by
  constructor <;> first | decide | (constructor <;> decide) | simp

/-- **C51.** The common header of every TLP (format, type, traffic class, attributes, length) survives, for every kind of TLP; a length of
1024 is restored only for TLPs with data. -/
theorem C51_header (t : Tlp) (h : HeadOk t) (hl : t.length < 1024 ∨ (t.length = 1024 ∧ (t.fmt = 2 ∨ t.fmt = 3)))
    (h0 : t.length = 0 → t.fmt ≠ 2 ∧ t.fmt ≠ 3) :
    unpackHead (packHead t) =
      { fmt := t.fmt, typ := t.typ, tc := t.tc, th := t.th, td := t.td, ep := t.ep, attr := t.attr, at' := t.at', length := t.length } := by
  refine unpackHead_pack t h t.length ?_
  by_cases hz : t.length % 1024 = 0
  · by_cases hf : t.fmt = 2 ∨ t.fmt = 3
    · rw [hz]; rcases hf with hf | hf <;> rw [hf] <;> simp <;> omega
    · rw [hz, if_neg (by simp; omega)]
      omega
  · rw [if_neg (by simp [hz])]; omega

/-- **C51, counterexample.** A packed memory or IO read request cannot be unpacked: `unpack` reads the address past the end of the
packet (`pkt[3]`, `pkt[4]`). -/
theorem C51_read_request_counterexample (t : Tlp) (h : HeadOk t) (hk : isMemReq t = true ∨ isIo t = true) (hf : t.fmt = 0 ∨ t.fmt = 1) :
    (∃ p, pack t = some p) ∧ (pack t).bind unpack = none := by
  have hty : t.typ = 0 ∨ t.typ = 1 ∨ t.typ = 2 := by
    unfold isMemReq isIo at hk
    simp only [Bool.or_eq_true, beq_iff_eq, Prod.mk.injEq] at hk
    omega
  have c1 : ∀ u : Tlp, u.fmt = t.fmt → u.typ = t.typ → isCfg u = false := by
    intro u h1 h2
    unfold isCfg; rw [h1, h2]
    rcases hf with hf | hf <;> rcases hty with ht | ht | ht <;> rw [hf, ht] <;> rfl
  have c1' : ∀ u : Tlp, isCfg u = true → u.fmt = t.fmt → u.typ = t.typ → False := by
    intro u hx h1 h2
    rw [c1 u h1 h2] at hx; cases hx
  have c2 : ∀ u : Tlp, u.fmt = t.fmt → u.typ = t.typ → (isMemReq u || isIo u) = true := by
    intro u h1 h2
    have a2 : isMemReq u = isMemReq t := by unfold isMemReq; rw [h1, h2]
    have a3 : isIo u = isIo t := by unfold isIo; rw [h1, h2]
    rw [a2, a3]
    rcases hk with hk | hk <;> simp [hk]
  have hu := unpackHead_pack t h _ rfl
  have key2 : ∀ len : Nat, (isMemReq { fmt := t.fmt, typ := t.typ, tc := t.tc, th := t.th, td := t.td, ep := t.ep, attr := t.attr, at' := t.at', length := len } ||
      isIo { fmt := t.fmt, typ := t.typ, tc := t.tc, th := t.th, td := t.td, ep := t.ep, attr := t.attr, at' := t.at', length := len }) = true :=
    fun len => c2 _ rfl rfl
  have key : ∀ len : Nat, isCfg { fmt := t.fmt, typ := t.typ, tc := t.tc, th := t.th, td := t.td, ep := t.ep, attr := t.attr, at' := t.at', length := len } = false :=
    fun len => c1 _ rfl rfl
  have m1 := c1 t rfl rfl
  have m2 := c2 t rfl rfl
  unfold pack
  rw [m1, Bool.false_or, m2]
  simp only [if_true, Bool.false_eq_true, if_false]
  rcases hf with hf | hf
  · have : (t.fmt == 1 || t.fmt == 3) = false := by rw [hf]; rfl
    rw [this]
    simp only [Bool.false_eq_true, if_false]
    refine ⟨⟨_, rfl⟩, ?_⟩
    have hpl : (t.fmt == 2 || t.fmt == 3) = false := by rw [hf]; rfl
    rw [hpl]
    show unpack _ = none
    unfold unpack
    simp only [List.cons_append, List.nil_append, List.getElem?_cons_zero, List.getElem?_cons_succ, bind, Option.bind, hu, key, Bool.false_or]
    rw [key2]
    simp only [if_true, Bool.false_eq_true, if_false]
    refine (if_neg (fun hx => c1' _ hx rfl rfl)).trans ?_
    simp only [hf]
    rfl
  · have : (t.fmt == 1 || t.fmt == 3) = true := by rw [hf]; rfl
    rw [this]
    simp only [if_true]
    refine ⟨⟨_, rfl⟩, ?_⟩
    have hpl : (t.fmt == 2 || t.fmt == 3) = false := by rw [hf]; rfl
    rw [hpl]
    show unpack _ = none
    unfold unpack
    simp only [List.cons_append, List.nil_append, List.getElem?_cons_zero, List.getElem?_cons_succ, bind, Option.bind, hu, key, Bool.false_or]
    rw [key2]
    simp only [if_true, Bool.false_eq_true, if_false]
    refine (if_neg (fun hx => c1' _ hx rfl rfl)).trans ?_
    simp only [hf]
    rfl

example : (pack { fmt := 0, typ := 0, length := 1, firstBe := 0xf, address := 0x1000 }).bind unpack = none := by decide

/-- **C51, counterexample.** Requests with a payload are unpacked with a wrong address or register number; a 64-bit address is packed
wrongly (the high word is ORed into the low word). -/
theorem C51_write_request_counterexample :
    (pack { fmt := 2, typ := 0, length := 1, firstBe := 0xf, address := 0x1000, data := [0xdeadbeef] }).bind unpack =
      some { fmt := 2, typ := 0, length := 1, firstBe := 0xf, address := 0xdeadbeec, data := [0xdeadbeef] } ∧
    (pack { fmt := 0, typ := 4, length := 1, firstBe := 0xf, registerNumber := 4 }).bind unpack =
      some { fmt := 0, typ := 4, length := 1, firstBe := 0xf, registerNumber := 0 } ∧
    pack { fmt := 1, typ := 0, length := 1, firstBe := 0xf, address := 0x300001000 } = some [0x20000001, 0xf, 3, 0x1003] := by
  decide

end Corundum.Pcie
