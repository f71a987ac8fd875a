import Verif.Proof.UsTlp

/-! C60-C62: descriptors, byte enables and parity of the UltraScale PCIe streams. -/
namespace Corundum.Pcie

/-- **C60.** Every memory or IO request with fields in range survives the completer request stream: `unpack_us_cq(pack_us_cq(t))` has all
the transported fields of `t` (of the completer ID only the function), with and without parity check. The format comes back as 3 or 4
double words by the address alone. -/
theorem C60_cq_round_trip (t : UsTlp) (h : ReqOk t.toTlp)
    (hty : (t.fmt < 4 ∧ t.typ = 0) ∨ ((t.fmt = 0 ∨ t.fmt = 2) ∧ t.typ = 2)) (hfn : t.completer.fn < 256) (hb : t.barId < 8)
    (ha : t.barAperture < 64) (chk : Bool) :
    ∃ f, packCq t = some f ∧ unpackCq f chk = some
      { fmt := (if t.address < 2 ^ 32 then 0 else 1) + (if t.fmt = 2 ∨ t.fmt = 3 then 2 else 0)
        typ := t.typ, tc := t.tc, attr := t.attr, at' := t.at', length := t.length, requester := t.requester
        tag := t.tag, firstBe := t.firstBe, lastBe := t.lastBe, address := t.address, data := t.data
        completer := ⟨0, 0, t.completer.fn⟩, barId := t.barId, barAperture := t.barAperture, discontinue := t.discontinue } := by
  refine cq_round t h ?_ hfn hb ha chk
  simp only [isCqType, Bool.or_eq_true, beq_iff_eq, Prod.mk.injEq]
  omega

example : ReqOk ({ fmt := 3, address := 0x123456780, length := 1, firstBe := 0xc, requester := ⟨1, 2, 3⟩, data := [5] } : Tlp) :=
  ⟨by decide, by decide, by decide, by decide, ⟨by decide, by decide, by decide⟩, by decide, by decide, by decide⟩

/-- **C60.** The same for memory and IO requests on the requester request stream, which carries the whole completer ID, the requester ID
enable and the sequence number. -/
theorem C60_rq_round_trip (t : UsTlp) (h : ReqOk t.toTlp) (hc : t.completer.Ok)
    (hty : (t.fmt < 4 ∧ t.typ = 0) ∨ ((t.fmt = 0 ∨ t.fmt = 2) ∧ t.typ = 2)) (chk : Bool) :
    ∃ f, packRq t = some f ∧ unpackRq f chk = some
      { fmt := (if t.address < 2 ^ 32 then 0 else 1) + (if t.fmt = 2 ∨ t.fmt = 3 then 2 else 0)
        typ := t.typ, tc := t.tc, attr := t.attr, at' := t.at', length := t.length, requester := t.requester
        tag := t.tag, firstBe := t.firstBe, lastBe := t.lastBe, address := t.address, data := t.data
        completer := t.completer, requesterIdEnable := t.requesterIdEnable, discontinue := t.discontinue, seqNum := t.seqNum } := by
  refine rq_round t h hc ?_ chk
  simp only [isCqType, Bool.or_eq_true, beq_iff_eq, Prod.mk.injEq]
  omega

/-- **C60.** The same for configuration requests of type 0 and 1: format, type and register number are kept. -/
theorem C60_rq_config_round_trip (t : UsTlp) (h : ReqOk t.toTlp) (hc : t.completer.Ok) (hr : t.registerNumber < 1024)
    (hty : (t.fmt = 0 ∨ t.fmt = 2) ∧ (t.typ = 4 ∨ t.typ = 5)) (chk : Bool) :
    ∃ f, packRq t = some f ∧ unpackRq f chk = some
      { fmt := t.fmt, typ := t.typ, tc := t.tc, attr := t.attr, length := t.length, requester := t.requester
        tag := t.tag, firstBe := t.firstBe, lastBe := t.lastBe, registerNumber := t.registerNumber, data := t.data
        completer := t.completer, requesterIdEnable := t.requesterIdEnable, discontinue := t.discontinue, seqNum := t.seqNum } := by
  refine rq_round_cfg t h hc hr ?_ chk
  simp only [isCfg, Bool.or_eq_true, beq_iff_eq, Prod.mk.injEq]
  omega

/-- **C60.** A write built with `set_be_data(addr, bytes)` and sent over the completer request stream enables exactly the bytes
`addr, …, addr + len - 1`, and each enabled byte of the payload is the byte written at that address. -/
theorem C60_cq_write_bytes (t : UsTlp) (addr : Nat) (bs : List Nat) (hb : ∀ b ∈ bs, b < 256) (hn : 1 ≤ bs.length)
    (hty : (t.fmt = 2 ∨ t.fmt = 3) ∧ t.typ = 0) :
    ∃ u f payload, setBeData t.toTlp addr bs = some u ∧ packCq { t with toTlp := u } = some f ∧ toBytes (f.data.drop 4) = some payload ∧
      f.firstBe = u.firstBe ∧ f.lastBe = u.lastBe ∧ payload.length = 4 * u.length ∧
      ∀ j, j < 4 * u.length →
        (f.on 4 j = true ↔ addr ≤ u.address + j ∧ u.address + j < addr + bs.length) ∧
        (f.on 4 j = true → payload[j]? = bs[u.address + j - addr]?) := by
  obtain ⟨ds, e1, e2, e3⟩ := setBeData_spec t.toTlp addr bs hb hn
  obtain ⟨l1, l2, l3⟩ := setBe_len t.toTlp addr bs.length hn
  have hq : isCqType (setBe t.toTlp addr bs.length) = true := by
    have e1 : (setBe t.toTlp addr bs.length).fmt = t.fmt := rfl
    have e2 : (setBe t.toTlp addr bs.length).typ = t.typ := rfl
    simp only [isCqType, e1, e2, Bool.or_eq_true, beq_iff_eq, Prod.mk.injEq]
    omega
  obtain ⟨f, f1, f2, f3, f4, f5⟩ := packCq_frame { t with toTlp := { setBe t.toTlp addr bs.length with data := ds } } (by exact hq)
  refine ⟨_, f, _, e1, f1, by rw [f2]; exact e3, f4, f5, ?_, ?_⟩
  · simp only [List.length_append, List.length_replicate]
    show _ = 4 * (setBe t.toTlp addr bs.length).length
    omega
  · intro j hj
    have hon := cq_on f _ f3 e2 j hj
    replace hj : j < 4 * (setBe t.toTlp addr bs.length).length := hj
    have hen : enabled { setBe t.toTlp addr bs.length with data := ds } j = _ := setBe_enabled t.toTlp addr bs.length hn j hj
    rw [hon, hen]
    show (_ ↔ addr ≤ addr - addr % 4 + j ∧ addr - addr % 4 + j < _) ∧ (_ → _ = bs[addr - addr % 4 + j - addr]?)
    have hm := Nat.mod_le addr 4
    constructor
    · rw [decide_eq_true_iff]; omega
    · rw [decide_eq_true_iff]
      intro hj2
      rw [List.append_assoc, List.getElem?_append_right (by simp; omega), List.getElem?_append_left (by simp; omega), List.length_replicate]
      congr 1; omega

/-- **C60, limitation.** A request in 64-bit format with an address below 4 GB always comes back in 32-bit format, on both streams. -/
theorem C60_format_not_kept (t : UsTlp) (h : ReqOk t.toTlp) (hty : (t.fmt = 1 ∨ t.fmt = 3) ∧ t.typ = 0) (ha : t.address < 2 ^ 32)
    (hc : t.completer.Ok) (hb : t.barId < 8) (hp : t.barAperture < 64) (chk : Bool) :
    (∃ f u, packCq t = some f ∧ unpackCq f chk = some u ∧ u.fmt + 1 = t.fmt ∧ u.address = t.address) ∧
    ∃ f u, packRq t = some f ∧ unpackRq f chk = some u ∧ u.fmt + 1 = t.fmt ∧ u.address = t.address := by
  have hq : (t.fmt < 4 ∧ t.typ = 0) ∨ ((t.fmt = 0 ∨ t.fmt = 2) ∧ t.typ = 2) := Or.inl ⟨by omega, hty.2⟩
  constructor
  · obtain ⟨f, h1, h2⟩ := C60_cq_round_trip t h hq (Nat.lt_trans hc.2.2 (by decide)) hb hp chk
    refine ⟨f, _, h1, h2, ?_, rfl⟩
    simp only [ha, if_true]
    rcases hty.1 with e | e <;> rw [e] <;> rfl
  · obtain ⟨f, h1, h2⟩ := C60_rq_round_trip t h hc hq chk
    refine ⟨f, _, h1, h2, ?_, rfl⟩
    simp only [ha, if_true]
    rcases hty.1 with e | e <;> rw [e] <;> rfl

/-- **C60, limitation.** Atomic operations and locked reads cannot be sent: both pack functions refuse them, though both unpack functions
produce them from a frame with request type 4 to 7. -/
theorem C60_atomics_one_way (t : UsTlp) (hty : ((t.fmt = 2 ∨ t.fmt = 3) ∧ (t.typ = 0xC ∨ t.typ = 0xD ∨ t.typ = 0xE)) ∨
      ((t.fmt = 0 ∨ t.fmt = 1) ∧ t.typ = 1)) :
    packCq t = none ∧ packRq t = none ∧
    ∃ f u, unpackCq f true = some u ∧ unpackRq f true = some { u with completer := { u.completer with fn := 0 } } ∧ u.typ = t.typ := by
  have h1 : isCqType t.toTlp = false := by
    simp only [isCqType, Bool.or_eq_false_iff, beq_eq_false_iff_ne, ne_eq, Prod.mk.injEq]; omega
  have h2 : isCfg t.toTlp = false := by
    simp only [isCfg, Bool.or_eq_false_iff, beq_eq_false_iff_ne, ne_eq, Prod.mk.injEq]; omega
  refine ⟨by rw [packCq, h1]; rfl, by rw [packRq, h1, h2]; rfl, ?_⟩
  rcases hty with ⟨-, h | h | h⟩ | ⟨-, h⟩ <;> rw [h]
  · exact ⟨Frame.updateParity { data := [0, 0, 4 <<< 11, 0], byteEn := [0, 0, 0, 0] }, _, rfl, by decide, by decide⟩
  · exact ⟨Frame.updateParity { data := [0, 0, 5 <<< 11, 0], byteEn := [0, 0, 0, 0] }, _, rfl, by decide, by decide⟩
  · exact ⟨Frame.updateParity { data := [0, 0, 6 <<< 11, 0], byteEn := [0, 0, 0, 0] }, _, rfl, by decide, by decide⟩
  · exact ⟨Frame.updateParity { data := [0, 0, 7 <<< 11, 0], byteEn := [0, 0, 0, 0] }, _, rfl, by decide, by decide⟩

/-- **C61.** Every completion with fields in range survives the completer completion stream; the payload comes back cut to the length
field, and the format says whether there is a payload. -/
theorem C61_cc_round_trip (t : UsTlp) (h : CplFieldsOk t.toTlp) (hty : (t.fmt = 0 ∨ t.fmt = 2) ∧ (t.typ = 10 ∨ t.typ = 11))
    (hl : t.lowerAddress < 128) (ha : t.at' < 4) (chk : Bool) :
    ∃ f, packCc t = some f ∧ unpackCc f chk = some
      { fmt := if t.length = 0 then 0 else 2, typ := t.typ, tc := t.tc, attr := t.attr, at' := t.at', length := t.length
        requester := t.requester, completer := t.completer, status := t.status, byteCount := t.byteCount, lowerAddress := t.lowerAddress
        tag := t.tag, data := t.data.take t.length, completerIdEnable := t.completerIdEnable, discontinue := t.discontinue } := by
  refine cc_round t h ?_ hl ha chk
  simp only [isCpl, Bool.or_eq_true, beq_iff_eq, Prod.mk.injEq]
  omega

example : CplFieldsOk ({ fmt := 2, typ := 10, length := 1024, byteCount := 4096, completer := ⟨3, 1, 2⟩ } : Tlp) :=
  ⟨by decide, by decide, by decide, by decide, by decide, ⟨by decide, by decide, by decide⟩, ⟨by decide, by decide, by decide⟩, by decide⟩

/-- **C61.** Every completion whose payload has the length it claims survives the requester completion stream (12-bit address, error code),
and the byte enables recomputed by the receiver are those sent. -/
theorem C61_rc_round_trip (t : UsTlp) (h : CplFieldsOk t.toTlp) (hty : (t.fmt = 0 ∨ t.fmt = 2) ∧ (t.typ = 10 ∨ t.typ = 11))
    (hl : t.lowerAddress < 4096) (he : t.errorCode < 16) (hd : t.data.length = t.length) (chk : Bool) :
    ∃ f, packRc t = some f ∧ unpackRc f chk = some
      { fmt := if t.length = 0 then 0 else 2, typ := t.typ, tc := t.tc, attr := t.attr, length := t.length
        requester := t.requester, completer := t.completer, status := t.status, byteCount := t.byteCount, lowerAddress := t.lowerAddress
        tag := t.tag, data := t.data, errorCode := t.errorCode, discontinue := t.discontinue } := by
  refine rc_round t h ?_ hl he hd chk
  simp only [isCpl, Bool.or_eq_true, beq_iff_eq, Prod.mk.injEq]
  omega

/-- **C61.** The byte enables of a requester completion mark exactly the bytes it returns: byte `j` of a payload of `n` double words is
enabled iff it lies between the first byte (low address bits) and the last byte of the remaining byte count. This covers completions
which carry all the remaining bytes and completions followed by others. -/
theorem C61_rc_byte_enables (t : UsTlp) (n : Nat) (hty : (t.fmt = 0 ∨ t.fmt = 2) ∧ (t.typ = 10 ∨ t.typ = 11))
    (hn : t.data.length = n) (hl : t.length = n) (h1 : 1 ≤ n) (hb : 1 ≤ t.byteCount)
    (hm : 4 * n < t.lowerAddress % 4 + t.byteCount + 4) :
    ∃ f, packRc t = some f ∧ ∀ j, j < 4 * n →
      (f.on 3 j = true ↔ t.lowerAddress % 4 ≤ j ∧ j < t.lowerAddress % 4 + t.byteCount) := by
  have hq : isCpl t.toTlp = true := by
    simp only [isCpl, Bool.or_eq_true, beq_iff_eq, Prod.mk.injEq]; omega
  obtain ⟨f, f1, -, f3⟩ := packRc_frame t hq
  refine ⟨f, f1, fun j hj => ?_⟩
  have := cplBe_get t.toTlp n hn hl h1 hb hm j hj
  unfold Frame.on
  rw [f3, List.getElem?_append_right (by simp), show 3 + j / 4 - [0, 0, 0].length = j / 4 by simp, this, decide_eq_true_iff]

/-- the first of two completions of a read of 6 bytes from address 2: two of its four bytes -/
example : (packRc { fmt := 2, typ := 10, length := 1, byteCount := 6, lowerAddress := 2, data := [7] }).map Frame.byteEn = some [0, 0, 0, 0xc] := by
  decide

/-- **C62.** The parity sent with every double word of a frame is odd parity per byte: for each of its four bytes, the number of ones
in the byte plus the parity bit is odd. -/
theorem C62_odd_parity (f : Frame) (n d p : Nat) (hd : f.updateParity.data[n]? = some d) (hp : f.updateParity.parity[n]? = some p)
    (i : Nat) (hi : i < 4) : (ones d i + (p.testBit i).toNat) % 2 = 1 := by
  have hd' : f.data[n]? = some d := hd
  have hp' : (f.data.map fun d => dwordParity d ^^^ 0xf)[n]? = some p := hp
  rw [List.getElem?_map, hd', Option.map_some, Option.some.injEq] at hp'
  subst hp'
  rw [Nat.testBit_xor, parity_bit _ _ hi, show (0xf : Nat) = 2 ^ 4 - 1 from rfl, Nat.testBit_two_pow_sub_one, decide_eq_true hi,
    Bool.xor_true]
  have := ones_xor d i
  cases h : xorByte d i <;> rw [h] at this <;> simp at this ⊢ <;> omega

/-- **C62.** If one double word of a frame that passes the parity check is disturbed so that some byte has an odd number of flipped bits
(in particular any single bit of the 32), the frame fails the check, whatever the frame. -/
theorem C62_error_detected (f : Frame) (hc : f.checkParity = true) (n d e i : Nat) (hd : f.data[n]? = some d) (hi : i < 4)
    (ho : ones e i % 2 = 1) : ({ f with data := f.data.set n (d ^^^ e) } : Frame).checkParity = false := by
  simp only [Frame.checkParity, beq_iff_eq] at hc
  simp only [Frame.checkParity, beq_eq_false_iff_ne, ne_eq]
  rw [hc]
  intro h
  have h2 : (f.data.map fun d => dwordParity d ^^^ 0xf)[n]? = ((f.data.set n (d ^^^ e)).map fun d => dwordParity d ^^^ 0xf)[n]? := by rw [h]
  have hn : n < f.data.length := (List.getElem?_eq_some_iff.mp hd).1
  rw [List.getElem?_map, List.getElem?_map, hd, List.getElem?_set_self hn, Option.map_some, Option.map_some, Option.some.injEq] at h2
  refine parity_detect d e i hi ho (Nat.eq_of_testBit_eq fun k => ?_)
  have h3 := congrArg (·.testBit k) h2
  simp only [Nat.testBit_xor] at h3
  revert h3
  generalize (dwordParity d).testBit k = a, (dwordParity (d ^^^ e)).testBit k = b, (0xf : Nat).testBit k = c
  revert a b c
  decide

/-- **C62.** Any single flipped bit is such a disturbance. -/
theorem C62_single_bit (f : Frame) (hc : f.checkParity = true) (n d k : Nat) (hd : f.data[n]? = some d) (hk : k < 32) :
    ({ f with data := f.data.set n (d ^^^ 2 ^ k) } : Frame).checkParity = false := by
  refine C62_error_detected f hc n d (2 ^ k) (k / 8) hd (by omega) ?_
  unfold ones
  have e : ∀ m, (2 ^ k).testBit (8 * (k / 8) + m) = decide (m = k % 8) := by
    intro m
    rw [Nat.testBit_two_pow]
    congr 1; apply propext; omega
  simp only [e]
  have : k % 8 < 8 := Nat.mod_lt _ (by decide)
  generalize k % 8 = r at this ⊢
  revert r
  decide

/-- **C62.** A flipped parity bit is detected too, and so is a frame with missing or extra parity. -/
theorem C62_parity_error_detected (f : Frame) (hc : f.checkParity = true) (p : List Nat) (hp : p ≠ f.parity) :
    ({ f with parity := p } : Frame).checkParity = false := by
  simp only [Frame.checkParity, beq_iff_eq] at hc
  simp only [Frame.checkParity, beq_eq_false_iff_ne, ne_eq]
  rw [← hc]; exact hp

/-- bytes 4, 3, 2, 1 and four bytes 0xff -/
example : (Frame.updateParity { data := [0x01020304, 0xffffffff] }).parity = [0x2, 0xf] := by decide

/-- **C62, limitation.** An even number of flipped bits in each byte goes unnoticed, for every frame. -/
theorem C62_even_errors_undetected (f : Frame) (hc : f.checkParity = true) (n d : Nat) (e : Nat)
    (hd : f.data[n]? = some d) (he : ∀ i, i < 4 → ones e i % 2 = 0) :
    ({ f with data := f.data.set n (d ^^^ e) } : Frame).checkParity = true := by
  simp only [Frame.checkParity, beq_iff_eq] at hc ⊢
  rw [hc, List.map_set]
  have hp : dwordParity (d ^^^ e) = dwordParity d := by
    refine parity_congr _ _ fun i hi => ?_
    have h1 := he i hi
    rw [ones_xor] at h1
    rw [xorByte_xor]
    cases h2 : xorByte e i
    · rw [Bool.xor_false]
    · rw [h2] at h1; simp at h1
  rw [hp]
  apply List.ext_getElem?
  intro m
  rw [List.getElem?_set]
  split
  · rename_i h; subst h
    rw [List.getElem?_map, hd, List.length_map, if_pos (List.getElem?_eq_some_iff.mp hd).1]; rfl
  · rfl

end Corundum.Pcie
