import Verif.Model.UsTlp
import Verif.Proof.TlpPack
import Verif.Proof.Tlp

namespace Corundum.Pcie

theorem addr_lo (a : Nat) : a &&& 0xfffffffc = a % 2 ^ 32 - a % 4 := by
  have h : a &&& 0xfffffffc = ((a >>> 2) % 2 ^ 30) <<< 2 := by
    apply Nat.eq_of_testBit_eq
    intro i
    rw [Nat.testBit_and, Nat.testBit_shiftLeft, Nat.testBit_mod_two_pow, Nat.testBit_shiftRight]
    have : (0xfffffffc : Nat) = (2 ^ 30 - 1) <<< 2 := by decide
    rw [this, Nat.testBit_shiftLeft, Nat.testBit_two_pow_sub_one]
    by_cases h2 : 2 ≤ i
    · rw [show 2 + (i - 2) = i by omega]; simp [h2, Bool.and_comm]
    · simp [h2]
  rw [h, Nat.shiftLeft_eq, Nat.shiftRight_eq_div_pow]
  omega

theorem addr_hi (a : Nat) : (a &&& 0xffffffff00000000) >>> 32 = a / 2 ^ 32 % 2 ^ 32 := by
  rw [← Nat.shiftRight_eq_div_pow, ← and_p (a >>> 32) 32, Nat.shiftRight_and_distrib]
  rfl

/-- address word 0 -/
theorem word0_eq (at' a : Nat) (h : a % 4 = 0) : (at' &&& 3) ||| (a &&& 0xfffffffc) = a % 2 ^ 32 + at' % 4 := by
  rw [addr_lo, show at' &&& 3 = at' % 4 from and_p _ 2, show a % 2 ^ 32 - a % 4 = (a % 2 ^ 32 / 4) <<< 2 by rw [Nat.shiftLeft_eq]; omega,
    or_up (by omega)]
  omega

theorem word0_at (at' a : Nat) (h : a % 4 = 0) (h2 : at' < 4) : ((at' &&& 3) ||| (a &&& 0xfffffffc)) &&& 3 = at' := by
  rw [word0_eq _ _ h, show ∀ x : Nat, x &&& 3 = x % 4 from fun x => and_p x 2]; omega

theorem addr_round (at' a : Nat) (h : a % 4 = 0) (hl : a < 2 ^ 64) :
    (((a &&& 0xffffffff00000000) >>> 32) <<< 32) ||| (((at' &&& 3) ||| (a &&& 0xfffffffc)) &&& 0xfffffffc) = a := by
  rw [word0_eq _ _ h, addr_hi, addr_lo, Nat.or_comm, or_up (by omega)]
  omega

/-- length, request type or status, requester -/
theorem word2_eq (len rt : Nat) (i : Id) (hrt : rt < 32) :
    (len &&& 0x7ff) ||| (rt <<< 11) ||| (i.toInt <<< 16) = i.toInt * 65536 + rt * 2048 + len % 2048 := by
  rw [show len &&& 0x7ff = len % 2048 from and_p _ 11, or_up (k := 11) (by omega), or_up (k := 16) (by omega)]
  omega

theorem word2_len (len rt : Nat) (i : Id) (hrt : rt < 32) (h : len < 2048) :
    ((len &&& 0x7ff) ||| (rt <<< 11) ||| (i.toInt <<< 16)) &&& 0x7ff = len := by
  rw [word2_eq _ _ _ hrt, show ∀ x : Nat, x &&& 0x7ff = x % 2048 from fun x => and_p x 11]; omega

theorem word2_id (len rt : Nat) (i : Id) (hrt : rt < 32) (hi : i.Ok) :
    Id.ofInt (((len &&& 0x7ff) ||| (rt <<< 11) ||| (i.toInt <<< 16)) >>> 16) = i := by
  rw [word2_eq _ _ _ hrt, Nat.shiftRight_eq_div_pow, show (i.toInt * 65536 + rt * 2048 + len % 2048) / 2 ^ 16 = i.toInt by omega, id_round i hi]

theorem word2_req (len rt : Nat) (i : Id) (hrt : rt < 16) :
    (((len &&& 0x7ff) ||| (rt <<< 11) ||| (i.toInt <<< 16)) >>> 11) &&& 0xf = rt := by
  rw [word2_eq _ _ _ (by omega), Nat.shiftRight_eq_div_pow, show ∀ x : Nat, x &&& 0xf = x % 16 from fun x => and_p x 4]; omega

theorem word2_status (len st : Nat) (i : Id) (hst : st < 8) :
    (((len &&& 0x7ff) ||| (st <<< 11) ||| (i.toInt <<< 16)) >>> 11) &&& 7 = st := by
  rw [word2_eq _ _ _ (by omega), Nat.shiftRight_eq_div_pow, show ∀ x : Nat, x &&& 7 = x % 8 from fun x => and_p x 3]; omega

/-- tag, 17 middle bits, traffic class, attributes -/
theorem word3_eq (tag m tc attr : Nat) (hm : m < 2 ^ 17) :
    (tag &&& 0xff) ||| (m <<< 8) ||| ((tc &&& 7) <<< 25) ||| ((attr &&& 7) <<< 28) =
      (attr % 8) * 2 ^ 28 + (tc % 8) * 2 ^ 25 + m * 256 + tag % 256 := by
  rw [show tag &&& 0xff = tag % 256 from and_p _ 8, show tc &&& 7 = tc % 8 from and_p _ 3, show attr &&& 7 = attr % 8 from and_p _ 3,
    or_up (k := 8) (by omega), or_up (k := 25) (by omega), or_up (k := 28) (by omega)]
  omega

theorem mid_cq (fn bar ap : Nat) (tag : Nat) :
    (tag &&& 0xff) ||| ((fn &&& 0xff) <<< 8) ||| ((bar &&& 7) <<< 16) ||| ((ap &&& 0x3f) <<< 19) =
      (tag &&& 0xff) ||| (((ap % 64) * 2048 + (bar % 8) * 256 + fn % 256) <<< 8) := by
  rw [show tag &&& 0xff = tag % 256 from and_p _ 8, show fn &&& 0xff = fn % 256 from and_p _ 8, show bar &&& 7 = bar % 8 from and_p _ 3,
    show ap &&& 0x3f = ap % 64 from and_p _ 6, or_up (k := 8) (by omega), or_up (k := 16) (by omega), or_up (k := 19) (by omega),
    or_up (k := 8) (by omega)]
  omega

theorem flag_eq (b : Bool) (k : Nat) : flag b k = b.toNat <<< k := by
  cases b <;> simp [flag]

theorem mid_id (i : Id) (b : Bool) (tag : Nat) :
    (tag &&& 0xff) ||| (i.toInt <<< 8) ||| flag b 24 = (tag &&& 0xff) ||| ((b.toNat * 65536 + i.toInt) <<< 8) := by
  have := id_lt i
  rw [show tag &&& 0xff = tag % 256 from and_p _ 8, flag_eq, or_up (k := 8) (by omega), or_up (k := 24) (by omega), or_up (k := 8) (by omega)]
  omega

theorem w3_tag (tag m tc attr : Nat) (h : tag < 256) :
    ((attr % 8) * 2 ^ 28 + (tc % 8) * 2 ^ 25 + m * 256 + tag % 256) &&& 0xff = tag := by
  rw [show ∀ x : Nat, x &&& 0xff = x % 256 from fun x => and_p x 8]; omega

theorem w3_tc (tag m tc attr : Nat) (hm : m < 2 ^ 17) (h : tc < 8) :
    (((attr % 8) * 2 ^ 28 + (tc % 8) * 2 ^ 25 + m * 256 + tag % 256) >>> 25) &&& 7 = tc := by
  rw [Nat.shiftRight_eq_div_pow, show ∀ x : Nat, x &&& 7 = x % 8 from fun x => and_p x 3]; omega

theorem w3_attr (tag m tc attr : Nat) (hm : m < 2 ^ 17) (h : attr < 8) :
    (((attr % 8) * 2 ^ 28 + (tc % 8) * 2 ^ 25 + m * 256 + tag % 256) >>> 28) &&& 7 = attr := by
  rw [Nat.shiftRight_eq_div_pow, show ∀ x : Nat, x &&& 7 = x % 8 from fun x => and_p x 3]; omega

theorem w3_mid (tag m tc attr : Nat) :
    ((attr % 8) * 2 ^ 28 + (tc % 8) * 2 ^ 25 + m * 256 + tag % 256) >>> 8 = (attr % 8) * 2 ^ 20 + (tc % 8) * 2 ^ 17 + m := by
  rw [Nat.shiftRight_eq_div_pow]; omega

/-! ### Requests -/

/-- request fields in range -/
structure ReqOk (t : Tlp) : Prop where
  tc : t.tc < 8
  attr : t.attr < 8
  at' : t.at' < 4
  length : t.length < 2048
  requester : t.requester.Ok
  tag : t.tag < 256
  address : t.address < 2 ^ 64
  aligned : t.address % 4 = 0

theorem checkParity_update (f : Frame) : f.updateParity.checkParity = true := by simp [Frame.checkParity, Frame.updateParity]

theorem cq_types (t : Tlp) (h : isCqType t = true) :
    (t.fmt = 0 ∧ t.typ = 2) ∨ (t.fmt = 2 ∧ t.typ = 2) ∨ (t.fmt = 0 ∧ t.typ = 0) ∨ (t.fmt = 1 ∧ t.typ = 0) ∨ (t.fmt = 2 ∧ t.typ = 0) ∨
      (t.fmt = 3 ∧ t.typ = 0) := by
  simp only [isCqType, Bool.or_eq_true, beq_iff_eq, Prod.mk.injEq] at h
  omega

theorem cfg_types (t : Tlp) (h : isCfg t = true) :
    (t.fmt = 0 ∧ t.typ = 4) ∨ (t.fmt = 2 ∧ t.typ = 4) ∨ (t.fmt = 0 ∧ t.typ = 5) ∨ (t.fmt = 2 ∧ t.typ = 5) := by
  simp only [isCfg, Bool.or_eq_true, beq_iff_eq, Prod.mk.injEq] at h
  omega

/-- 3 or 4 double word header by address, with data iff before -/
def fmtOf (t : Tlp) : Nat := (if t.address < 2 ^ 32 then 0 else 1) + (if t.fmt = 2 ∨ t.fmt = 3 then 2 else 0)

theorem cq_req (t : Tlp) (h : isCqType t = true) : ∃ b, reqFmtType (reqType t) = some (b, t.typ) ∧ reqType t < 8 ∧ widen b t.address = fmtOf t := by
  unfold widen fmtOf
  rcases cq_types t h with ⟨h1, h2⟩ | ⟨h1, h2⟩ | ⟨h1, h2⟩ | ⟨h1, h2⟩ | ⟨h1, h2⟩ | ⟨h1, h2⟩ <;>
    (rw [reqType, h1, h2]; refine ⟨_, rfl, by decide, ?_⟩; by_cases ha : t.address < 2 ^ 32
     · rw [if_neg (show ¬t.address > 0xffffffff by omega), if_pos ha]; rfl
     · rw [if_pos (show t.address > 0xffffffff by omega), if_neg ha]; rfl)

theorem cfg_req (t : Tlp) (h : isCfg t = true) : reqFmtType (reqType t) = some (t.fmt, t.typ) ∧ ¬reqType t < 8 ∧ reqType t < 16 := by
  rcases cfg_types t h with ⟨h1, h2⟩ | ⟨h1, h2⟩ | ⟨h1, h2⟩ | ⟨h1, h2⟩ <;>
    (rw [reqType, h1, h2]; refine ⟨rfl, by decide, by decide⟩)

theorem cq_round (t : UsTlp) (h : ReqOk t.toTlp) (hty : isCqType t.toTlp = true) (hfn : t.completer.fn < 256) (hb : t.barId < 8)
    (ha : t.barAperture < 64) (chk : Bool) :
    ∃ f, packCq t = some f ∧ unpackCq f chk = some
      { fmt := fmtOf t.toTlp, typ := t.typ, tc := t.tc, attr := t.attr, at' := t.at', length := t.length, requester := t.requester
        tag := t.tag, firstBe := t.firstBe, lastBe := t.lastBe, address := t.address, data := t.data
        completer := ⟨0, 0, t.completer.fn⟩, barId := t.barId, barAperture := t.barAperture, discontinue := t.discontinue } := by
  obtain ⟨b, e1, e2, e3⟩ := cq_req t.toTlp hty
  refine ⟨_, by rw [packCq, if_pos hty], ?_⟩
  unfold unpackCq
  rw [checkParity_update]
  simp only [Frame.updateParity, List.cons_append, List.nil_append, List.getElem?_cons_succ, List.getElem?_cons_zero, Option.bind_eq_bind,
    Option.bind_some, List.drop_succ_cons, List.drop_zero, bne_self_eq_false, Bool.not_true, Bool.and_false, if_false, Bool.false_eq_true]
  rw [word2_req _ _ _ (by omega), if_neg (by omega), e1]
  simp only [Option.bind_some, Option.pure_def]
  have hm : (t.barAperture % 64) * 2048 + (t.barId % 8) * 256 + t.completer.fn % 256 < 2 ^ 17 := by omega
  rw [word2_len _ _ _ (by omega) h.length, word2_id _ _ _ (by omega) h.requester, addr_round _ _ h.aligned h.address,
    word0_at _ _ h.aligned h.at', e3, mid_cq, word3_eq _ _ _ _ hm, w3_tag _ _ _ _ h.tag, w3_tc _ _ _ _ hm h.tc, w3_attr _ _ _ _ hm h.attr,
    w3_mid]
  have q1 : ((t.attr % 8) * 2 ^ 20 + (t.tc % 8) * 2 ^ 17 + ((t.barAperture % 64) * 2048 + (t.barId % 8) * 256 + t.completer.fn % 256)) &&& 0xff
      = t.completer.fn := by
    rw [show ∀ x : Nat, x &&& 0xff = x % 256 from fun x => and_p x 8]; omega
  have q2 : (((t.attr % 8) * 2 ^ 28 + (t.tc % 8) * 2 ^ 25 + ((t.barAperture % 64) * 2048 + (t.barId % 8) * 256 + t.completer.fn % 256) * 256
      + t.tag % 256) >>> 16) &&& 7 = t.barId := by
    rw [Nat.shiftRight_eq_div_pow, show ∀ x : Nat, x &&& 7 = x % 8 from fun x => and_p x 3]; omega
  have q3 : (((t.attr % 8) * 2 ^ 28 + (t.tc % 8) * 2 ^ 25 + ((t.barAperture % 64) * 2048 + (t.barId % 8) * 256 + t.completer.fn % 256) * 256
      + t.tag % 256) >>> 19) &&& 0x3f = t.barAperture := by
    rw [Nat.shiftRight_eq_div_pow, show ∀ x : Nat, x &&& 0x3f = x % 64 from fun x => and_p x 6]; omega
  rw [q1, q2, q3]

theorem w3_id (tag tc attr : Nat) (i : Id) (hi : i.Ok) (b : Bool) :
    Id.ofInt ((attr % 8) * 2 ^ 20 + (tc % 8) * 2 ^ 17 + (b.toNat * 65536 + i.toInt)) = i := by
  have h1 := id_lt i
  have : Id.ofInt ((attr % 8) * 2 ^ 20 + (tc % 8) * 2 ^ 17 + (b.toNat * 65536 + i.toInt)) = Id.ofInt i.toInt := by
    rw [id_ofInt, id_ofInt]
    congr 1 <;> omega
  rw [this, id_round i hi]

theorem w3_flag (tag tc attr : Nat) (i : Id) (b : Bool) :
    (((attr % 8) * 2 ^ 28 + (tc % 8) * 2 ^ 25 + (b.toNat * 65536 + i.toInt) * 256 + tag % 256) >>> 24 &&& 1 != 0) = b := by
  have h1 := id_lt i
  rw [Nat.shiftRight_eq_div_pow, show ∀ x : Nat, x &&& 1 = x % 2 from fun x => and_p x 1]
  have : ((attr % 8) * 2 ^ 28 + (tc % 8) * 2 ^ 25 + (b.toNat * 65536 + i.toInt) * 256 + tag % 256) / 2 ^ 24 % 2 = b.toNat := by
    have := Bool.toNat_lt b
    omega
  rw [this]; cases b <;> rfl

theorem rq_round (t : UsTlp) (h : ReqOk t.toTlp) (hc : t.completer.Ok) (hty : isCqType t.toTlp = true) (chk : Bool) :
    ∃ f, packRq t = some f ∧ unpackRq f chk = some
      { fmt := fmtOf t.toTlp, typ := t.typ, tc := t.tc, attr := t.attr, at' := t.at', length := t.length, requester := t.requester
        tag := t.tag, firstBe := t.firstBe, lastBe := t.lastBe, address := t.address, data := t.data
        completer := t.completer, requesterIdEnable := t.requesterIdEnable, discontinue := t.discontinue, seqNum := t.seqNum } := by
  obtain ⟨b, e1, e2, e3⟩ := cq_req t.toTlp hty
  refine ⟨_, by rw [packRq, if_pos (by rw [hty]; rfl)], ?_⟩
  unfold unpackRq
  rw [checkParity_update]
  simp only [Frame.updateParity, hty, if_true, List.cons_append, List.nil_append, List.getElem?_cons_succ, List.getElem?_cons_zero,
    Option.bind_eq_bind, Option.bind_some, List.drop_succ_cons, List.drop_zero, Bool.not_true, Bool.and_false, if_false, Bool.false_eq_true]
  rw [word2_req _ _ _ (by omega), e1]
  simp only [Option.bind_some, Option.pure_def]
  have hm : t.requesterIdEnable.toNat * 65536 + t.completer.toInt < 2 ^ 17 := by
    have := id_lt t.completer
    have := Bool.toNat_lt t.requesterIdEnable
    omega
  rw [if_pos e2, word2_len _ _ _ (by omega) h.length, word2_id _ _ _ (by omega) h.requester, addr_round _ _ h.aligned h.address,
    word0_at _ _ h.aligned h.at', e3, mid_id, word3_eq _ _ _ _ hm, w3_tag _ _ _ _ h.tag, w3_tc _ _ _ _ hm h.tc, w3_attr _ _ _ _ hm h.attr,
    w3_mid, w3_id t.tag _ _ _ hc, w3_flag]

theorem rq_round_cfg (t : UsTlp) (h : ReqOk t.toTlp) (hc : t.completer.Ok) (hr : t.registerNumber < 1024) (hty : isCfg t.toTlp = true)
    (chk : Bool) :
    ∃ f, packRq t = some f ∧ unpackRq f chk = some
      { fmt := t.fmt, typ := t.typ, tc := t.tc, attr := t.attr, length := t.length, requester := t.requester
        tag := t.tag, firstBe := t.firstBe, lastBe := t.lastBe, registerNumber := t.registerNumber, data := t.data
        completer := t.completer, requesterIdEnable := t.requesterIdEnable, discontinue := t.discontinue, seqNum := t.seqNum } := by
  obtain ⟨e1, e2, e3⟩ := cfg_req t.toTlp hty
  have hn : isCqType t.toTlp = false := by
    rcases cfg_types t.toTlp hty with ⟨h1, h2⟩ | ⟨h1, h2⟩ | ⟨h1, h2⟩ | ⟨h1, h2⟩ <;> (rw [isCqType, h1, h2]; rfl)
  refine ⟨_, by rw [packRq, if_pos (by rw [hty, Bool.or_true])], ?_⟩
  unfold unpackRq
  rw [checkParity_update]
  simp only [Frame.updateParity, hn, List.cons_append, List.nil_append, List.getElem?_cons_succ, List.getElem?_cons_zero,
    Option.bind_eq_bind, Option.bind_some, List.drop_succ_cons, List.drop_zero, Bool.not_true, Bool.and_false, if_false, Bool.false_eq_true]
  rw [word2_req _ _ _ (by omega), e1]
  simp only [Option.bind_some, Option.pure_def]
  have hm : t.requesterIdEnable.toNat * 65536 + t.completer.toInt < 2 ^ 17 := by
    have := id_lt t.completer
    have := Bool.toNat_lt t.requesterIdEnable
    omega
  have q : (((t.registerNumber &&& 0x3ff) <<< 2) >>> 2) &&& 0x3ff = t.registerNumber := by
    rw [Nat.shiftLeft_shiftRight]
    rw [show ∀ x : Nat, x &&& 0x3ff = x % 1024 from fun x => and_p x 10, show ∀ x : Nat, x &&& 0x3ff = x % 1024 from fun x => and_p x 10]
    omega
  rw [if_neg e2, word2_len _ _ _ (by omega) h.length, word2_id _ _ _ (by omega) h.requester, q, mid_id, word3_eq _ _ _ _ hm,
    w3_tag _ _ _ _ h.tag, w3_tc _ _ _ _ hm h.tc, w3_attr _ _ _ _ hm h.attr, w3_mid, w3_id t.tag _ _ _ hc, w3_flag]

/-! ### Completions -/

/-- completion fields in range -/
structure CplFieldsOk (t : Tlp) : Prop where
  tc : t.tc < 8
  attr : t.attr < 8
  length : t.length < 2048
  status : t.status < 8
  byteCount : t.byteCount < 8192
  requester : t.requester.Ok
  completer : t.completer.Ok
  tag : t.tag < 256

theorem cpl_types (t : Tlp) (h : isCpl t = true) :
    (t.fmt = 0 ∧ t.typ = 10) ∨ (t.fmt = 2 ∧ t.typ = 10) ∨ (t.fmt = 0 ∧ t.typ = 11) ∨ (t.fmt = 2 ∧ t.typ = 11) := by
  simp only [isCpl, Bool.or_eq_true, beq_iff_eq, Prod.mk.injEq] at h
  omega

theorem and_bit (w k : Nat) : (w &&& (1 <<< k) != 0) = w.testBit k := by
  rw [Nat.testBit_eq_decide_div_mod_eq]
  have e : w &&& (1 <<< k) = (w / 2 ^ k % 2) * 2 ^ k := by
    have : w &&& (1 <<< k) = ((w >>> k) &&& 1) <<< k := by
      apply Nat.eq_of_testBit_eq
      intro i
      rw [Nat.testBit_and, Nat.testBit_shiftLeft, Nat.testBit_shiftLeft, Nat.testBit_and, Nat.testBit_shiftRight]
      by_cases hi : k ≤ i
      · rw [show k + (i - k) = i by omega]; simp [hi]
      · simp [hi]
    rw [this, Nat.shiftLeft_eq, show ∀ x : Nat, x &&& 1 = x % 2 from fun x => and_p x 1, Nat.shiftRight_eq_div_pow]
  rw [e]
  have h2 : w / 2 ^ k % 2 = 0 ∨ w / 2 ^ k % 2 = 1 := by omega
  have hp : 2 ^ k ≠ 0 := Nat.ne_of_gt (Nat.two_pow_pos k)
  rcases h2 with h2 | h2 <;> rw [h2] <;> simp [hp]

theorem locked_typ (t : Tlp) (h : isCpl t = true) : (if (isLocked t) = true then 0xB else 0xA) = t.typ := by
  rcases cpl_types t h with ⟨h1, h2⟩ | ⟨h1, h2⟩ | ⟨h1, h2⟩ | ⟨h1, h2⟩ <;> (rw [isLocked, h1, h2]; rfl)

/-- address, spare, byte count and locked bit of a completion -/
theorem cpl0_eq (a m bc : Nat) (b : Bool) (k : Nat) (hk : k ≤ 16) (ha : a < 2 ^ k) (hm : m <<< k < 2 ^ 16) :
    a ||| (m <<< k) ||| ((bc &&& 0x1fff) <<< 16) ||| flag b 29 = b.toNat * 2 ^ 29 + (bc % 8192) * 2 ^ 16 + (m * 2 ^ k + a) := by
  have h1 : m * 2 ^ k + a < 2 ^ 16 := by
    rw [Nat.shiftLeft_eq] at hm
    have e : (2 : Nat) ^ 16 = 2 ^ (16 - k) * 2 ^ k := by rw [← Nat.pow_add]; congr 1; omega
    rw [e] at hm ⊢
    have h2 : m + 1 ≤ 2 ^ (16 - k) := Nat.lt_of_mul_lt_mul_right hm
    have h3 : (m + 1) * 2 ^ k ≤ 2 ^ (16 - k) * 2 ^ k := Nat.mul_le_mul_right _ h2
    rw [Nat.add_mul, Nat.one_mul] at h3
    omega
  rw [show bc &&& 0x1fff = bc % 8192 from and_p _ 13, flag_eq, or_up ha]
  generalize m * 2 ^ k + a = x at h1 ⊢
  rw [or_up (k := 16) (by omega), or_up (k := 29) (by omega)]
  omega

theorem cpl0_locked (x bc : Nat) (b : Bool) (h : x < 2 ^ 16) :
    ((b.toNat * 2 ^ 29 + (bc % 8192) * 2 ^ 16 + x) &&& (1 <<< 29) != 0) = b := by
  rw [and_bit, Nat.testBit_eq_decide_div_mod_eq]
  have : (b.toNat * 2 ^ 29 + (bc % 8192) * 2 ^ 16 + x) / 2 ^ 29 % 2 = b.toNat := by
    have := Bool.toNat_lt b
    omega
  rw [this]; cases b <;> rfl

theorem cpl0_bc (x bc : Nat) (b : Bool) (h : x < 2 ^ 16) (hb : bc < 8192) :
    ((b.toNat * 2 ^ 29 + (bc % 8192) * 2 ^ 16 + x) >>> 16) &&& 0x1fff = bc := by
  rw [Nat.shiftRight_eq_div_pow, show ∀ x : Nat, x &&& 0x1fff = x % 8192 from fun x => and_p x 13]
  have := Bool.toNat_lt b
  omega

theorem x8 {a b : Nat} (ha : a < 4) (hb : b < 128) : a * 2 ^ 8 + b < 2 ^ 16 := by omega

theorem s8 {a : Nat} (ha : a < 4) : a <<< 8 < 2 ^ 16 := by rw [Nat.shiftLeft_eq]; omega

theorem x12 {a b : Nat} (ha : a < 16) (hb : b < 4096) : a * 2 ^ 12 + b < 2 ^ 16 := by omega

theorem s12 {a : Nat} (ha : a < 16) : a <<< 12 < 2 ^ 16 := by rw [Nat.shiftLeft_eq]; omega

theorem status_lt (st : Nat) : st &&& 7 < 32 := by
  rw [show st &&& 7 = st % 8 from and_p _ 3]; omega

theorem status_mod (st : Nat) (h : st < 8) : st &&& 7 = st := by
  rw [show st &&& 7 = st % 8 from and_p _ 3]; omega

theorem cc_round (t : UsTlp) (h : CplFieldsOk t.toTlp) (hty : isCpl t.toTlp = true) (hl : t.lowerAddress < 128) (ha : t.at' < 4)
    (chk : Bool) :
    ∃ f, packCc t = some f ∧ unpackCc f chk = some
      { fmt := if t.length = 0 then 0 else 2, typ := t.typ, tc := t.tc, attr := t.attr, at' := t.at', length := t.length
        requester := t.requester, completer := t.completer, status := t.status, byteCount := t.byteCount, lowerAddress := t.lowerAddress
        tag := t.tag, data := t.data.take t.length, completerIdEnable := t.completerIdEnable, discontinue := t.discontinue } := by
  refine ⟨_, by rw [packCc, if_pos hty], ?_⟩
  unfold unpackCc
  rw [checkParity_update]
  simp only [Frame.updateParity, List.cons_append, List.nil_append, List.getElem?_cons_succ, List.getElem?_cons_zero,
    Option.bind_eq_bind, Option.bind_some, List.drop_succ_cons, List.drop_zero, Bool.not_true, Bool.and_false, if_false, Bool.false_eq_true,
    Option.pure_def]
  have hm : t.completerIdEnable.toNat * 65536 + t.completer.toInt < 2 ^ 17 := by
    have := id_lt t.completer
    have := Bool.toNat_lt t.completerIdEnable
    omega
  have hx : t.at' * 2 ^ 8 + t.lowerAddress < 2 ^ 16 := x8 ha hl
  have ea : t.lowerAddress &&& 0x7f = t.lowerAddress := by rw [show t.lowerAddress &&& 0x7f = t.lowerAddress % 128 from and_p _ 7]; omega
  have eb : t.at' &&& 3 = t.at' := by rw [show t.at' &&& 3 = t.at' % 4 from and_p _ 2]; omega
  rw [word2_len _ _ _ (status_lt _) h.length, word2_id _ _ _ (status_lt _) h.requester, status_mod _ h.status, word2_status _ _ _ h.status,
    ea, eb, cpl0_eq t.lowerAddress t.at' t.byteCount (isLocked t.toTlp) 8 (by decide) (Nat.lt_trans hl (by decide)) (s8 ha),
    cpl0_locked _ _ _ hx, cpl0_bc _ _ _ hx h.byteCount, locked_typ _ hty,
    mid_id, word3_eq _ _ _ _ hm, w3_tag _ _ _ _ h.tag, w3_tc _ _ _ _ hm h.tc, w3_attr _ _ _ _ hm h.attr, w3_mid,
    w3_id t.tag _ _ _ h.completer, w3_flag]
  have q1 : (t.toTlp |> isLocked).toNat * 2 ^ 29 + (t.byteCount % 8192) * 2 ^ 16 + (t.at' * 2 ^ 8 + t.lowerAddress) &&& 0x7f
      = t.lowerAddress := by
    rw [show ∀ x : Nat, x &&& 0x7f = x % 128 from fun x => and_p x 7]; omega
  have q2 : (((t.toTlp |> isLocked).toNat * 2 ^ 29 + (t.byteCount % 8192) * 2 ^ 16 + (t.at' * 2 ^ 8 + t.lowerAddress)) >>> 8) &&& 3
      = t.at' := by
    rw [Nat.shiftRight_eq_div_pow, show ∀ x : Nat, x &&& 3 = x % 4 from fun x => and_p x 2]; omega
  rw [q1, q2]
  by_cases h0 : t.length = 0
  · simp [h0]
  · rw [if_pos (show t.length > 0 by omega), if_pos (show t.length > 0 by omega), if_neg h0]

theorem cplBe_congr (t u : Tlp) (h1 : t.lowerAddress % 4 = u.lowerAddress % 4) (h2 : t.byteCount = u.byteCount) (h3 : t.length = u.length)
    (h4 : t.data.length = u.data.length) : cplByteEnables t = cplByteEnables u := by
  unfold cplByteEnables
  rw [show ∀ x : Nat, x &&& 3 = x % 4 from fun x => and_p x 2, show ∀ x : Nat, x &&& 3 = x % 4 from fun x => and_p x 2, h1, h2, h3, h4,
    show ((4 - (u.byteCount : Int) - t.lowerAddress) % 4) = ((4 - (u.byteCount : Int) - u.lowerAddress) % 4) by omega]

theorem rc_round (t : UsTlp) (h : CplFieldsOk t.toTlp) (hty : isCpl t.toTlp = true) (hl : t.lowerAddress < 4096) (he : t.errorCode < 16)
    (hd : t.data.length = t.length) (chk : Bool) :
    ∃ f, packRc t = some f ∧ unpackRc f chk = some
      { fmt := if t.length = 0 then 0 else 2, typ := t.typ, tc := t.tc, attr := t.attr, length := t.length
        requester := t.requester, completer := t.completer, status := t.status, byteCount := t.byteCount, lowerAddress := t.lowerAddress
        tag := t.tag, data := t.data, errorCode := t.errorCode, discontinue := t.discontinue } := by
  refine ⟨_, by rw [packRc, if_pos hty], ?_⟩
  unfold unpackRc
  rw [checkParity_update]
  simp only [Frame.updateParity, List.cons_append, List.nil_append, List.getElem?_cons_succ, List.getElem?_cons_zero,
    Option.bind_eq_bind, Option.bind_some, List.drop_succ_cons, List.drop_zero, Bool.not_true, Bool.and_false, if_false, Bool.false_eq_true,
    Option.pure_def]
  have hm : false.toNat * 65536 + t.completer.toInt < 2 ^ 17 := by
    have := id_lt t.completer
    simp; omega
  have hx : t.errorCode * 2 ^ 12 + t.lowerAddress < 2 ^ 16 := x12 he hl
  have ea : t.lowerAddress &&& 0xfff = t.lowerAddress := by rw [show t.lowerAddress &&& 0xfff = t.lowerAddress % 4096 from and_p _ 12]; omega
  have eb : t.errorCode &&& 0xf = t.errorCode := by rw [show t.errorCode &&& 0xf = t.errorCode % 16 from and_p _ 4]; omega
  have em : (t.tag &&& 0xff) ||| (t.completer.toInt <<< 8) = (t.tag &&& 0xff) ||| (t.completer.toInt <<< 8) ||| flag false 24 := by
    simp [flag]
  rw [em]
  rw [word2_len _ _ _ (status_lt _) h.length, word2_id _ _ _ (status_lt _) h.requester, status_mod _ h.status, word2_status _ _ _ h.status,
    ea, eb, cpl0_eq t.lowerAddress t.errorCode t.byteCount (isLocked t.toTlp) 12 (by decide) hl (s12 he),
    cpl0_locked _ _ _ hx, cpl0_bc _ _ _ hx h.byteCount, locked_typ _ hty,
    mid_id, word3_eq _ _ _ _ hm, w3_tag _ _ _ _ h.tag, w3_tc _ _ _ _ hm h.tc, w3_attr _ _ _ _ hm h.attr, w3_mid,
    w3_id t.tag _ _ _ h.completer]
  have q1 : (t.toTlp |> isLocked).toNat * 2 ^ 29 + (t.byteCount % 8192) * 2 ^ 16 + (t.errorCode * 2 ^ 12 + t.lowerAddress) &&& 0xfff
      = t.lowerAddress := by
    rw [show ∀ x : Nat, x &&& 0xfff = x % 4096 from fun x => and_p x 12]; omega
  have q2 : (((t.toTlp |> isLocked).toNat * 2 ^ 29 + (t.byteCount % 8192) * 2 ^ 16 + (t.errorCode * 2 ^ 12 + t.lowerAddress)) >>> 12) &&& 0xf
      = t.errorCode := by
    rw [Nat.shiftRight_eq_div_pow, show ∀ x : Nat, x &&& 0xf = x % 16 from fun x => and_p x 4]; omega
  have q3 : (if t.length > 0 then t.data.take t.length else []) = t.data := by
    by_cases h0 : t.length = 0
    · simp [h0]; rw [h0] at hd; exact List.length_eq_zero_iff.mp hd
    · rw [if_pos (by omega), ← hd, List.take_length]
  have q4 : (if t.length > 0 then 2 else 0) = if t.length = 0 then 0 else 2 := by
    by_cases h0 : t.length = 0
    · simp [h0]
    · rw [if_pos (by omega), if_neg h0]
  rw [q1, q2, q3, q4]
  have q5 : ([0, 0, 0] ++ cplByteEnables t.toTlp != [0, 0, 0] ++ cplByteEnables
      { fmt := if t.length = 0 then 0 else 2, typ := t.typ, tc := t.tc, attr := t.attr, length := t.length,
        completer := t.completer, status := t.status, byteCount := t.byteCount, requester := t.requester, tag := t.tag,
        lowerAddress := t.lowerAddress, data := t.data }) = false := by
    have e := cplBe_congr t.toTlp
      { fmt := if t.length = 0 then 0 else 2, typ := t.typ, tc := t.tc, attr := t.attr, length := t.length,
        completer := t.completer, status := t.status, byteCount := t.byteCount, requester := t.requester, tag := t.tag,
        lowerAddress := t.lowerAddress, data := t.data } rfl rfl rfl rfl
    rw [← e, bne_self_eq_false]
  simp only [List.cons_append, List.nil_append] at q5
  rw [q5]
  rfl

/-! ### Byte enables -/

theorem byteEnables_get (f l n i : Nat) (hi : i < n) :
    (byteEnables f l n)[i]? = some (if i = 0 then f else if i = n - 1 then l else 15) := by
  unfold byteEnables
  rw [if_pos (by omega)]
  by_cases h0 : i = 0
  · subst h0; simp
  · rw [if_neg h0, List.append_assoc, List.getElem?_append_right (by simp; omega), List.length_singleton, if_pos (show n > 1 by omega)]
    by_cases h2 : n > 2
    · rw [if_pos h2]
      by_cases hl : i = n - 1
      · rw [if_pos hl, List.getElem?_append_right (by simp; omega), List.length_replicate, show i - 1 - (n - 2) = 0 by omega]; rfl
      · rw [if_neg hl, List.getElem?_append_left (by simp; omega), List.getElem?_replicate, if_pos (by omega)]
    · rw [if_neg h2, if_pos (by omega), show i - 1 = 0 by omega]; rfl

/-- byte `j` of the payload of a frame whose descriptor has `h` double words is enabled -/
def Frame.on (f : Frame) (h j : Nat) : Bool := ((f.byteEn[h + j / 4]?).getD 0).testBit (j % 4)

theorem cplBe_get (t : Tlp) (n : Nat) (hn : t.data.length = n) (hl : t.length = n) (h1 : 1 ≤ n) (hb : 1 ≤ t.byteCount)
    (hm : 4 * n < t.lowerAddress % 4 + t.byteCount + 4) (j : Nat) (hj : j < 4 * n) :
    (((cplByteEnables t)[j / 4]?).getD 0).testBit (j % 4) =
      decide (t.lowerAddress % 4 ≤ j ∧ j < t.lowerAddress % 4 + t.byteCount) := by
  have hq : j / 4 < n := by omega
  have h4 : t.lowerAddress % 4 < 4 := Nat.mod_lt _ (by omega)
  have e3 : t.lowerAddress &&& 3 = t.lowerAddress % 4 := and_p _ 2
  have hlast : ∀ k, (if t.byteCount + (t.lowerAddress &&& 3) > t.length * 4 then 0xf
      else 0xf >>> ((4 - (t.byteCount : Int) - t.lowerAddress) % 4).toNat : Nat).testBit k =
        decide (k < 4 ∧ 4 * (n - 1) + k < t.lowerAddress % 4 + t.byteCount) := by
    intro k
    rw [e3, hl]
    by_cases hc : t.byteCount + t.lowerAddress % 4 > n * 4
    · rw [if_pos hc, show (0xf : Nat) = 2 ^ 4 - 1 from rfl, Nat.testBit_two_pow_sub_one]
      congr 1; apply propext; omega
    · rw [if_neg hc, shr_mask _ (by omega)]
      congr 1; apply propext; omega
  unfold cplByteEnables
  rw [hn]
  generalize hlv : (if t.byteCount + (t.lowerAddress &&& 3) > t.length * 4 then 0xf
      else 0xf >>> ((4 - (t.byteCount : Int) - t.lowerAddress) % 4).toNat : Nat) = last at hlast
  simp only
  by_cases hn1 : n = 1
  · rw [if_pos hn1]
    subst hn1
    rw [byteEnables_get _ _ _ _ hq, Option.getD_some, if_pos (by omega), Nat.testBit_and, e3, shl_mask _ h4, hlast]
    rw [← Bool.decide_and]
    congr 1; apply propext; omega
  · rw [if_neg hn1, byteEnables_get _ _ _ _ hq, Option.getD_some]
    by_cases h0 : j / 4 = 0
    · rw [if_pos h0, e3, shl_mask _ h4]
      congr 1; apply propext; omega
    · rw [if_neg h0]
      by_cases hL : j / 4 = n - 1
      · rw [if_pos hL, hlast]
        congr 1; apply propext; omega
      · rw [if_neg hL, show (15 : Nat) = 2 ^ 4 - 1 from rfl, Nat.testBit_two_pow_sub_one]
        congr 1; apply propext; omega

theorem packCq_frame (t : UsTlp) (h : isCqType t.toTlp = true) :
    ∃ f, packCq t = some f ∧ f.data.drop 4 = t.data ∧ f.byteEn = [0, 0, 0, 0] ++ byteEnables t.firstBe t.lastBe t.data.length ∧
      f.firstBe = t.firstBe ∧ f.lastBe = t.lastBe :=
  ⟨_, by rw [packCq, if_pos h], rfl, rfl, rfl, rfl⟩

theorem packRc_frame (t : UsTlp) (h : isCpl t.toTlp = true) :
    ∃ f, packRc t = some f ∧ f.data.drop 3 = t.data ∧ f.byteEn = [0, 0, 0] ++ cplByteEnables t.toTlp :=
  ⟨_, by rw [packRc, if_pos h], rfl, rfl⟩

theorem cq_on (f : Frame) (t : Tlp) (hb : f.byteEn = [0, 0, 0, 0] ++ byteEnables t.firstBe t.lastBe t.data.length)
    (hl : t.data.length = t.length) (j : Nat) (hj : j < 4 * t.length) : f.on 4 j = enabled t j := by
  unfold Frame.on
  rw [hb, List.getElem?_append_right (by simp), show 4 + j / 4 - [0, 0, 0, 0].length = j / 4 by simp,
    byteEnables_get _ _ _ _ (by omega), Option.getD_some, hl]
  unfold enabled
  by_cases h0 : j < 4
  · rw [if_pos (by omega), if_pos h0, show j % 4 = j by omega]
  · rw [if_neg (by omega), if_neg h0]
    by_cases h1 : j < 4 * (t.length - 1)
    · rw [if_neg (by omega), if_pos h1, show (15 : Nat) = 2 ^ 4 - 1 from rfl, Nat.testBit_two_pow_sub_one]
      simp; omega
    · rw [if_pos (by omega), if_neg h1, show j % 4 = j - 4 * (t.length - 1) by omega]

/-! ### Parity -/

/-- number of ones in byte `i` of `d` -/
def ones (d i : Nat) : Nat := (List.range 8).countP fun k => d.testBit (8 * i + k)

/-- exclusive or of the bits of byte `i` -/
def xorByte (d i : Nat) : Bool :=
  d.testBit (8 * i) ^^ d.testBit (8 * i + 1) ^^ d.testBit (8 * i + 2) ^^ d.testBit (8 * i + 3) ^^ d.testBit (8 * i + 4) ^^
    d.testBit (8 * i + 5) ^^ d.testBit (8 * i + 6) ^^ d.testBit (8 * i + 7)

theorem ones_xor (d i : Nat) : (ones d i) % 2 = (xorByte d i).toNat := by
  unfold ones xorByte
  rw [show List.range 8 = [0, 1, 2, 3, 4, 5, 6, 7] from rfl]
  simp only [List.countP_cons, List.countP_nil, Nat.add_zero]
  generalize d.testBit (8 * i) = a0
  generalize d.testBit (8 * i + 1) = a1
  generalize d.testBit (8 * i + 2) = a2
  generalize d.testBit (8 * i + 3) = a3
  generalize d.testBit (8 * i + 4) = a4
  generalize d.testBit (8 * i + 5) = a5
  generalize d.testBit (8 * i + 6) = a6
  generalize d.testBit (8 * i + 7) = a7
  revert a0 a1 a2 a3 a4 a5 a6 a7
  decide

/-- the folded word of `dword_parity` -/
def folded (d : Nat) : Nat :=
  let d := d ^^^ (d >>> 4)
  let d := d ^^^ (d >>> 2)
  d ^^^ (d >>> 1)

theorem folded_bit (d i : Nat) : (folded d).testBit (8 * i) = xorByte d i := by
  unfold folded xorByte
  simp only [Nat.testBit_xor, Nat.testBit_shiftRight]
  rw [show 4 + 8 * i = 8 * i + 4 by omega, show 2 + 8 * i = 8 * i + 2 by omega, show 1 + 8 * i = 8 * i + 1 by omega,
    show 4 + (8 * i + 2) = 8 * i + 6 by omega, show 4 + (8 * i + 1) = 8 * i + 5 by omega, show 2 + (8 * i + 1) = 8 * i + 3 by omega,
    show 4 + (8 * i + 3) = 8 * i + 7 by omega]
  generalize d.testBit (8 * i) = a0
  generalize d.testBit (8 * i + 1) = a1
  generalize d.testBit (8 * i + 2) = a2
  generalize d.testBit (8 * i + 3) = a3
  generalize d.testBit (8 * i + 4) = a4
  generalize d.testBit (8 * i + 5) = a5
  generalize d.testBit (8 * i + 6) = a6
  generalize d.testBit (8 * i + 7) = a7
  revert a0 a1 a2 a3 a4 a5 a6 a7
  decide

theorem parity_bit (d i : Nat) (hi : i < 4) : (dwordParity d).testBit i = xorByte d i := by
  have e : dwordParity d = (folded d &&& 0x1) ||| ((folded d &&& 0x100) >>> 7) ||| ((folded d &&& 0x10000) >>> 14) |||
      ((folded d &&& 0x1000000) >>> 21) := rfl
  rw [e, ← folded_bit]
  simp only [Nat.testBit_or, Nat.testBit_shiftRight, Nat.testBit_and]
  have h : i = 0 ∨ i = 1 ∨ i = 2 ∨ i = 3 := by omega
  rcases h with rfl | rfl | rfl | rfl
  · rw [show (1 : Nat).testBit 0 = true from rfl, show (0x100 : Nat).testBit (7 + 0) = false by decide,
      show (0x10000 : Nat).testBit (14 + 0) = false by decide, show (0x1000000 : Nat).testBit (21 + 0) = false by decide]; simp
  · rw [show (1 : Nat).testBit 1 = false from rfl, show (0x100 : Nat).testBit (7 + 1) = true by decide,
      show (0x10000 : Nat).testBit (14 + 1) = false by decide, show (0x1000000 : Nat).testBit (21 + 1) = false by decide]; simp
  · rw [show (1 : Nat).testBit 2 = false from rfl, show (0x100 : Nat).testBit (7 + 2) = false by decide,
      show (0x10000 : Nat).testBit (14 + 2) = true by decide, show (0x1000000 : Nat).testBit (21 + 2) = false by decide]; simp
  · rw [show (1 : Nat).testBit 3 = false from rfl, show (0x100 : Nat).testBit (7 + 3) = false by decide,
      show (0x10000 : Nat).testBit (14 + 3) = false by decide, show (0x1000000 : Nat).testBit (21 + 3) = true by decide]; simp

theorem parity_high (d i : Nat) (hi : 4 ≤ i) : (dwordParity d).testBit i = false := by
  have e : dwordParity d = (folded d &&& 2 ^ 0) ||| ((folded d &&& 2 ^ 8) >>> 7) ||| ((folded d &&& 2 ^ 16) >>> 14) |||
      ((folded d &&& 2 ^ 24) >>> 21) := rfl
  rw [e]
  simp only [Nat.testBit_or, Nat.testBit_shiftRight, Nat.testBit_and, Nat.testBit_two_pow]
  rw [decide_eq_false (show ¬(0 = i) by omega), decide_eq_false (show ¬(8 = 7 + i) by omega), decide_eq_false (show ¬(16 = 14 + i) by omega),
    decide_eq_false (show ¬(24 = 21 + i) by omega)]
  simp

theorem parity_congr (a b : Nat) (h : ∀ i, i < 4 → xorByte a i = xorByte b i) : dwordParity a = dwordParity b := by
  apply Nat.eq_of_testBit_eq
  intro i
  by_cases hi : i < 4
  · rw [parity_bit _ _ hi, parity_bit _ _ hi, h i hi]
  · rw [parity_high _ _ (by omega), parity_high _ _ (by omega)]

theorem xor4 : ∀ a b c d : Bool, ((a ^^ b) ^^ (c ^^ d)) = ((a ^^ c) ^^ (b ^^ d)) := by decide

theorem xorByte_xor (a b i : Nat) : xorByte (a ^^^ b) i = (xorByte a i ^^ xorByte b i) := by
  unfold xorByte
  simp only [Nat.testBit_xor]
  generalize a.testBit (8 * i) = a0
  generalize a.testBit (8 * i + 1) = a1
  generalize a.testBit (8 * i + 2) = a2
  generalize a.testBit (8 * i + 3) = a3
  generalize a.testBit (8 * i + 4) = a4
  generalize a.testBit (8 * i + 5) = a5
  generalize a.testBit (8 * i + 6) = a6
  generalize a.testBit (8 * i + 7) = a7
  generalize b.testBit (8 * i) = b0
  generalize b.testBit (8 * i + 1) = b1
  generalize b.testBit (8 * i + 2) = b2
  generalize b.testBit (8 * i + 3) = b3
  generalize b.testBit (8 * i + 4) = b4
  generalize b.testBit (8 * i + 5) = b5
  generalize b.testBit (8 * i + 6) = b6
  generalize b.testBit (8 * i + 7) = b7
  rw [xor4 a0 b0, xor4 (a0 ^^ a1) (b0 ^^ b1), xor4 (a0 ^^ a1 ^^ a2) (b0 ^^ b1 ^^ b2), xor4 (a0 ^^ a1 ^^ a2 ^^ a3) (b0 ^^ b1 ^^ b2 ^^ b3),
    xor4 (a0 ^^ a1 ^^ a2 ^^ a3 ^^ a4) (b0 ^^ b1 ^^ b2 ^^ b3 ^^ b4), xor4 (a0 ^^ a1 ^^ a2 ^^ a3 ^^ a4 ^^ a5) (b0 ^^ b1 ^^ b2 ^^ b3 ^^ b4 ^^ b5),
    xor4 (a0 ^^ a1 ^^ a2 ^^ a3 ^^ a4 ^^ a5 ^^ a6) (b0 ^^ b1 ^^ b2 ^^ b3 ^^ b4 ^^ b5 ^^ b6)]

theorem parity_detect (a e i : Nat) (hi : i < 4) (ho : ones e i % 2 = 1) : dwordParity (a ^^^ e) ≠ dwordParity a := by
  intro h
  have h2 : (dwordParity (a ^^^ e)).testBit i = (dwordParity a).testBit i := by rw [h]
  rw [parity_bit _ _ hi, parity_bit _ _ hi, xorByte_xor] at h2
  have h3 : xorByte e i = true := by
    rw [ones_xor] at ho; cases h4 : xorByte e i
    · rw [h4] at ho; simp at ho
    · rfl
  rw [h3] at h2
  revert h2
  cases xorByte a i <;> simp

end Corundum.Pcie
