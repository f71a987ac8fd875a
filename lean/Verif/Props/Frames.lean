import Verif.Proof.FramesUdp
/-! C19 - C23: Ethernet, ARP, IPv4 and UDP frame classes. -/
namespace Corundum.Frames
open Corundum.Struct Corundum.Spec

/-! ### C19 Ethernet -/

/-- C19: an in-range frame serialises to destination, source, type (big endian) and payload, and parsing that byte string
returns the frame. -/
theorem C19_eth_roundtrip (f : EthFrame) (h1 : f.dest < 2 ^ 48) (h2 : f.src < 2 ^ 48) (h3 : f.type < 2 ^ 16) :
    f.build = some (bytesBE 6 f.dest ++ bytesBE 6 f.src ++ bytesBE 2 f.type ++ f.payload) ∧
    (f.build.bind EthFrame.parse) = some f := by
  rw [eth_build h1 h2 h3]
  refine ⟨rfl, ?_⟩
  rw [Option.bind_some]
  exact eth_parse f.payload h1 h2 h3

/-- C19: parsing fails exactly on inputs shorter than the 14-byte header. -/
theorem C19_eth_parse_total (data : List Nat) : EthFrame.parse data = none ↔ data.length < 14 := by
  constructor
  · intro h
    rcases Nat.lt_or_ge data.length 14 with hlt | hge
    · exact hlt
    · exfalso
      have e1 : (slice data 0 6).length = 6 := by simp [slice]; omega
      have e2 : (slice data 6 12).length = 6 := by simp [slice]; omega
      have e3 : (slice data 12 14).length = 2 := by simp [slice]; omega
      simp [EthFrame.parse, unpackBE, e1, e2, e3] at h
  · intro h
    have hn : (slice data 12 14).length ≠ 2 := by simp [slice]; omega
    unfold EthFrame.parse
    cases h1 : unpackBE 8 ([0, 0] ++ slice data 0 6) with
    | none => rfl
    | some a =>
      cases h2 : unpackBE 8 ([0, 0] ++ slice data 6 12) with
      | none => rfl
      | some b => simp [unpackBE, hn]

/-- C19: parsing is also injective on real byte strings: rebuilding a parsed frame gives back the input. -/
theorem C19_eth_rebuild (data : List Nat) (hb : ∀ b ∈ data, b < 256) (hl : 14 ≤ data.length) :
    ((EthFrame.parse data).bind EthFrame.build) = some data := by
  match data, hl with
  | a0 :: a1 :: a2 :: a3 :: a4 :: a5 :: b0 :: b1 :: b2 :: b3 :: b4 :: b5 :: t0 :: t1 :: p, _ =>
    have hb' : ∀ b ∈ [a0, a1, a2, a3, a4, a5, b0, b1, b2, b3, b4, b5, t0, t1], b < 256 := by
      exact fun b hm => hb b (List.mem_append_left p hm)
    simp only [List.mem_cons, List.not_mem_nil, or_false, forall_eq_or_imp, forall_eq] at hb'
    have hd : valBE [0, 0, a0, a1, a2, a3, a4, a5] < 2 ^ 48 := by simp [valBE]; omega
    have hs : valBE [0, 0, b0, b1, b2, b3, b4, b5] < 2 ^ 48 := by simp [valBE]; omega
    have ht : valBE [t0, t1] < 2 ^ 16 := by simp [valBE]; omega
    have hp : EthFrame.parse (a0 :: a1 :: a2 :: a3 :: a4 :: a5 :: b0 :: b1 :: b2 :: b3 :: b4 :: b5 :: t0 :: t1 :: p)
        = some { payload := p, dest := valBE [0, 0, a0, a1, a2, a3, a4, a5], src := valBE [0, 0, b0, b1, b2, b3, b4, b5],
                 type := valBE [t0, t1] } := by rfl
    rw [hp, Option.bind_some, eth_build hd hs ht]
    simp only [bytesBE_6, bytesBE_2, valBE, List.foldl_cons, List.foldl_nil, List.cons_append, List.nil_append,
      Option.some.injEq, List.cons.injEq]
    and_intros <;> first | omega | trivial

/-- C19: with FCS, for any 32-bit checksum function: the four bytes appended are the little-endian checksum of everything before
them, and parsing recovers frame and checksum. -/
theorem C19_eth_fcs (crc : List Nat → Nat) (hcrc : ∀ l, crc l < 2 ^ 32) (f : EthFrame)
    (h1 : f.dest < 2 ^ 48) (h2 : f.src < 2 ^ 48) (h3 : f.type < 2 ^ 16) :
    ∃ data, f.build = some data ∧ f.buildFcs crc none = some (data ++ bytesLE 4 (crc data)) ∧
      EthFrame.parseFcs (data ++ bytesLE 4 (crc data)) = some (f, crc data) := by
  refine ⟨_, eth_build h1 h2 h3, ?_, ?_⟩
  · unfold EthFrame.buildFcs
    rw [eth_build h1 h2 h3]
    have := hcrc (bytesBE 6 f.dest ++ bytesBE 6 f.src ++ bytesBE 2 f.type ++ f.payload)
    simp only [bind, Option.bind, Option.getD_none, packLE]
    rw [if_pos (by simpa using this)]
    rfl
  · generalize hc : crc (bytesBE 6 f.dest ++ bytesBE 6 f.src ++ bytesBE 2 f.type ++ f.payload) = c
    have hlt : c < 2 ^ 32 := by rw [← hc]; exact hcrc _
    unfold EthFrame.parseFcs
    rw [List.append_assoc, eth_parse (f.payload ++ bytesLE 4 c) h1 h2 h3]
    simp only [bind, Option.bind, pure]
    have hlen : (f.payload ++ bytesLE 4 c).length - 4 = f.payload.length := by simp [bytesLE]
    rw [hlen, List.drop_left, List.take_left]
    simp only [unpackLE, bytesLE_4, valBE]
    simp
    omega

/-! ### C20 ARP -/

/-- C20: every in-range ARP frame survives serialisation (whatever bytes follow the 28-byte packet, e.g. padding). -/
theorem C20_arp_roundtrip (f : ARPFrame) (pad : List Nat)
    (h1 : f.dest < 2 ^ 48) (h2 : f.src < 2 ^ 48) (h3 : f.type < 2 ^ 16) (h4 : f.htype < 2 ^ 16) (h5 : f.ptype < 2 ^ 16)
    (h6 : f.hlen < 2 ^ 8) (h7 : f.plen < 2 ^ 8) (h8 : f.oper < 2 ^ 16) (h9 : f.sha < 2 ^ 48) (h10 : f.spa < 2 ^ 32)
    (h11 : f.tha < 2 ^ 48) (h12 : f.tpa < 2 ^ 32) :
    ∃ data, f.build = some data ∧ data.length = 42 ∧ ARPFrame.parse (data ++ pad) = some f := by
  have hb : f.buildEth = some (EthFrame.mk (bytesBE 2 f.htype ++ bytesBE 2 f.ptype ++ bytesBE 1 f.hlen ++ bytesBE 1 f.plen
      ++ bytesBE 2 f.oper ++ bytesBE 6 f.sha ++ bytesBE 4 f.spa ++ bytesBE 6 f.tha ++ bytesBE 4 f.tpa) f.dest f.src f.type) := by
    unfold ARPFrame.buildEth
    rw [pack2 h4, pack2 h5, pack1 h6, pack1 h7, pack2 h8, pack8 h9, pack4 h10, pack8 h11, pack4 h12]
    simp only [bytesBE_2, bytesBE_1, bytesBE_4]
    rfl
  unfold ARPFrame.build
  rw [hb]
  simp only [bind, Option.bind, pure]
  rw [eth_build h1 h2 h3]
  refine ⟨_, rfl, by simp [bytesBE], ?_⟩
  unfold ARPFrame.parse
  rw [List.append_assoc _ _ pad, eth_parse _ h1 h2 h3]
  simp only [bind, Option.bind, pure]
  simp only [ARPFrame.parseEth, unpackBE, slice, bytesBE_6, bytesBE_2, bytesBE_1, bytesBE_4, List.cons_append, List.nil_append,
    List.take_succ_cons, List.drop_succ_cons, List.take_zero, List.drop_zero, List.length_cons, List.length_nil, Nat.zero_add,
    Nat.reduceAdd, if_true, bind, Option.bind, pure, val2 h4, val2 h5, val1 h6, val1 h7, val2 h8, val6 h9, val4 h10, val6 h11, val4 h12]

/-! ### C21 IPv4 -/

/-- the length field is absent (to be computed) or correct, and the datagram is not too long -/
def IPFrame.LenOk (f : IPFrame) : Prop :=
  (f.length = none ∨ f.length = some (f.payload.length + 20)) ∧ f.payload.length + 20 < 65536

theorem ip_fill_len {f : IPFrame} (h : f.LenOk) : f.fill.length = some (f.payload.length + 20) := by
  rcases h.1 with h | h <;> simp [IPFrame.fill, h]

theorem ip_calc_lt {f : IPFrame} (hr : f.InRange) {len : Nat} (hl : len < 65536) : f.calcChecksum len < 65536 :=
  (inv16_fold2 (ip_rawSum_lt hr hl)).1

/-- C21: an in-range IPv4 frame survives serialisation with every header field (missing length and checksum filled in)
and its payload, even when followed by Ethernet padding. -/
theorem C21_ip_roundtrip (f : IPFrame) (hr : f.InRange) (hl : f.LenOk) (hc : ∀ c, f.cksum = some c → c < 65536)
    (pad : List Nat) : ∃ data, f.build = some data ∧ IPFrame.parse (data ++ pad) = some f.fill := by
  have hlen := ip_fill_len hl
  have hck : ∃ c, f.fill.cksum = some c ∧ c < 65536 := by
    cases hcs : f.cksum with
    | some c => exact ⟨c, by simp [IPFrame.fill, hcs], hc c hcs⟩
    | none =>
      refine ⟨f.calcChecksum (f.length.getD (f.payload.length + 20)), by simp [IPFrame.fill, hcs], ?_⟩
      apply ip_calc_lt hr
      rcases hl.1 with h | h <;> rw [h] <;> exact hl.2
  obtain ⟨c, hc1, hc2⟩ := hck
  have hr' : f.fill.InRange := by obtain ⟨⟩ := hr; constructor <;> assumption
  unfold IPFrame.build IPFrame.buildEth
  simp only [hlen, hc1, Option.getD_some]
  rw [ip_header hr' hl.2 hc2]
  simp only [bind, Option.bind, pure]
  rw [eth_build hr'.dest hr'.src hr'.type]
  refine ⟨_, rfl, ?_⟩
  unfold IPFrame.parse
  rw [List.append_assoc _ _ pad, eth_parse _ hr'.dest hr'.src hr'.type]
  simp only [bind, Option.bind, pure]
  rw [List.append_assoc, ip_parse hr' hl.2 hc2]
  have : List.take (f.payload.length + 20 - 20) (f.fill.payload ++ pad) = f.payload := by
    rw [Nat.add_sub_cancel]
    exact List.take_left
  rw [this, ← hlen, ← hc1]
  rfl

/-- C21: with the checksum left to be computed, the ones' complement sum (RFC 1071) of the 20 header bytes in the built frame
is 0xFFFF, and verification of the received frame succeeds. -/
theorem C21_ip_checksum (f : IPFrame) (hr : f.InRange) (hl : f.LenOk) (hc : f.cksum = none) (pad : List Nat) :
    ∃ data g, f.build = some data ∧ ocSum (slice data 14 34) = 0xFFFF ∧
      IPFrame.parse (data ++ pad) = some g ∧ g.verifyChecksum = true := by
  obtain ⟨data, hb, hp⟩ := C21_ip_roundtrip f hr hl (by simp [hc]) pad
  refine ⟨data, f.fill, hb, ?_, hp, ?_⟩
  · have hlen := ip_fill_len hl
    have hr' : f.fill.InRange := by obtain ⟨⟩ := hr; constructor <;> assumption
    have hck : f.fill.cksum = some (f.calcChecksum (f.payload.length + 20)) := by
      rcases hl.1 with h | h <;> simp [IPFrame.fill, hc, h]
    have hlt := ip_calc_lt hr hl.2
    unfold IPFrame.build IPFrame.buildEth at hb
    simp only [hlen, hck, Option.getD_some] at hb
    rw [ip_header hr' hl.2 hlt] at hb
    simp only [bind, Option.bind, pure] at hb
    rw [eth_build hr'.dest hr'.src hr'.type] at hb
    simp only [Option.some.injEq] at hb
    have hs : slice data 14 34 = ipBytes f.fill (f.payload.length + 20) (f.calcChecksum (f.payload.length + 20)) := by
      rw [← hb]
      rfl
    rw [hs, ocSum_ffff _ (ipBytes_lt hr' hl.2 hlt), ip_words_sum hr']
    have h1 : f.fill.rawSum (f.payload.length + 20) = f.rawSum (f.payload.length + 20) := rfl
    rw [h1]
    have h2 := inv16_fold2 (ip_rawSum_lt hr hl.2)
    have h3 : f.calcChecksum (f.payload.length + 20) = inv16 (fold2 (f.rawSum (f.payload.length + 20))) := rfl
    rw [← h3] at h2
    have h4 : f.rawSum (f.payload.length + 20) ≠ 0 := by rw [ip_rawSum hr]; omega
    omega
  · unfold IPFrame.verifyChecksum
    rw [ip_fill_len hl]
    rcases hl.1 with h | h <;> simp [IPFrame.fill, hc, h, IPFrame.calcChecksum, IPFrame.rawSum]

/-- C21/C23: what verification means for a received header: it implies that the RFC 1071 sum of the header bytes is 0xFFFF, and
it accepts every header with that sum, except the non-canonical checksum value 0xFFFF. -/
theorem C21_ip_verify (f : IPFrame) (hr : f.InRange) (len ck : Nat) (hl : f.length = some len) (hll : len < 65536)
    (hc : f.cksum = some ck) (hcc : ck < 65536) (hdr : List Nat) (hh : f.header len ck = some hdr) :
    (f.verifyChecksum = true → ocSum hdr = 0xFFFF) ∧
    (ocSum hdr = 0xFFFF → ck ≠ 0xFFFF → f.verifyChecksum = true) := by
  rw [ip_header hr hll hcc] at hh
  simp only [Option.some.injEq] at hh
  rw [← hh, ocSum_ffff _ (ipBytes_lt hr hll hcc), ip_words_sum hr]
  have h2 := inv16_fold2 (ip_rawSum_lt hr hll)
  have h3 : f.calcChecksum len = inv16 (fold2 (f.rawSum len)) := rfl
  rw [← h3] at h2
  unfold IPFrame.verifyChecksum
  rw [hl, hc]
  simp only [Option.getD_some, beq_iff_eq, Option.some.injEq]
  have h5 : f.rawSum len = 0 → f.calcChecksum len = 65535 := by
    intro h0; rw [h3, h0]; decide
  constructor
  · intro h; rw [h]; omega
  · intro h1 h2; omega

/-! ### C22 UDP -/

structure UDPFrame.InRange (f : UDPFrame) : Prop where
  ip : f.ip.InRange
  sport : f.sport < 2 ^ 16
  dport : f.dport < 2 ^ 16
  bytes : ∀ b ∈ f.payload, b < 256
  empty : f.ip.payload = []

/-- length fields absent or correct; the datagram fits into an IPv4 packet -/
def UDPFrame.LenOk (f : UDPFrame) : Prop :=
  (f.ulen = none ∨ f.ulen = some (f.payload.length + 8)) ∧
  (f.ip.length = none ∨ f.ip.length = some (f.payload.length + 28)) ∧ f.payload.length + 28 < 65536

/-- the sum under the checksum -/
private def usum (f : UDPFrame) (ulen : Nat) : Nat := sumBytes f.payload false (f.pseudo ulen + f.sport + f.dport + ulen)

private theorem usum_spec {f : UDPFrame} (hr : f.InRange) (hp : f.payload.length ≤ 65527) {ulen : Nat} (hu : ulen < 65536) (ck : Nat) :
    usum f ulen < 4294967296 ∧ (usum f ulen + ck) % 65535 = (words (covered f ulen ck)).sum % 65535 := by
  have h := udp_pseudo (f := f) hr.ip.sip hr.ip.dip (by have := hr.ip.proto; omega) hu
  have hw := words_sum_le f.payload hr.bytes
  have h1 := hr.sport; have h2 := hr.dport
  unfold usum
  rw [sumBytes_words, covered_words]
  omega

theorem udp_calc_lt {f : UDPFrame} (hr : f.InRange) (hp : f.payload.length ≤ 65527) {ulen : Nat} (hu : ulen < 65536) :
    f.calcChecksum ulen < 65536 := (inv16_fold2 (usum_spec hr hp hu 0).1).1

/-- C22: an in-range UDP frame survives serialisation with all Ethernet, IP and UDP fields and its payload, for even and
odd payload lengths, even when followed by Ethernet padding. -/
theorem C22_udp_roundtrip (f : UDPFrame) (hr : f.InRange) (hl : f.LenOk) (hc : ∀ c, f.ucksum = some c → c < 65536)
    (hic : ∀ c, f.ip.cksum = some c → c < 65536) (pad : List Nat) :
    ∃ data, f.build = some data ∧ UDPFrame.parse (data ++ pad) = some f.fill := by
  obtain ⟨hl1, hl2, hl3⟩ := hl
  have hulen : f.fill.ulen = some (f.payload.length + 8) := by rcases hl1 with h | h <;> simp [UDPFrame.fill, h]
  have hck : ∃ c, f.fill.ucksum = some c ∧ c < 65536 := by
    cases hcs : f.ucksum with
    | some c => exact ⟨c, by simp [UDPFrame.fill, hcs], hc c hcs⟩
    | none =>
      refine ⟨f.calcChecksum (f.ulen.getD (f.payload.length + 8)), by simp [UDPFrame.fill, hcs], ?_⟩
      apply udp_calc_lt hr (by omega)
      rcases hl1 with h | h <;> rw [h] <;> simp <;> omega
  obtain ⟨c, hc1, hc2⟩ := hck
  have hip : f.fill.ip.length = some (f.payload.length + 28) := by
    rcases hl1 with h | h <;> rcases hl2 with h' | h' <;> simp [UDPFrame.fill, h, h']
  unfold UDPFrame.build UDPFrame.buildIp
  simp only [hulen, hc1, Option.getD_some]
  rw [udp_header (f := f.fill) hr.sport hr.dport (by omega) hc2]
  simp only [bind, Option.bind, pure]
  -- the IP frame handed down
  have hr2 : ({ f.fill.ip with payload := udpBytes f.fill (f.payload.length + 8) c ++ f.fill.payload } : IPFrame).InRange := by
    obtain ⟨⟨⟩⟩ := hr; constructor <;> assumption
  have hlo : ({ f.fill.ip with payload := udpBytes f.fill (f.payload.length + 8) c ++ f.fill.payload } : IPFrame).LenOk := by
    have hfl : f.fill.payload = f.payload := rfl
    constructor
    · right
      show f.fill.ip.length = some ((udpBytes f.fill (f.payload.length + 8) c ++ f.fill.payload).length + 20)
      rw [hip, hfl]; simp [udpBytes]
    · show (udpBytes f.fill (f.payload.length + 8) c ++ f.fill.payload).length + 20 < 65536
      rw [hfl]; simp [udpBytes]; omega
  have hick : ∃ c', f.fill.ip.cksum = some c' ∧ c' < 65536 := by
    cases hcs : f.ip.cksum with
    | some c => exact ⟨c, by simp [UDPFrame.fill, hcs], hic c hcs⟩
    | none =>
      refine ⟨f.ip.calcChecksum (f.ip.length.getD ((f.ulen.getD (f.payload.length + 8)) + 20)), by simp [UDPFrame.fill, hcs], ?_⟩
      apply ip_calc_lt hr.ip
      rcases hl1 with h | h <;> rcases hl2 with h' | h' <;> rw [h, h'] <;> simp <;> omega
  obtain ⟨c', hc1', hc2'⟩ := hick
  obtain ⟨data, hb, hp⟩ := C21_ip_roundtrip _ hr2 hlo (by
    intro x hx
    have hx : f.fill.ip.cksum = some x := hx
    rw [hc1'] at hx; simp at hx; omega) pad
  refine ⟨data, hb, ?_⟩
  unfold UDPFrame.parse
  simp only [bind, Option.bind, pure]
  rw [hp]
  simp only
  have hfill : ({ f.fill.ip with payload := udpBytes f.fill (f.payload.length + 8) c ++ f.fill.payload } : IPFrame).fill
      = { f.fill.ip with payload := udpBytes f.fill (f.payload.length + 8) c ++ f.fill.payload } := by
    simp only [IPFrame.fill, hip, hc1', Option.getD_some]
  rw [hfill]
  rw [udp_parse (f := f.fill) hr.sport hr.dport (ulen := f.payload.length + 8) (by omega) hc2 _ f.fill.payload rfl]
  have ht : List.take (f.payload.length + 8 - 8) f.fill.payload = f.payload := by
    rw [Nat.add_sub_cancel]; exact List.take_length
  rw [ht, ← hulen, ← hc1]
  have he : ({ f.fill.ip with payload := [] } : IPFrame) = f.fill.ip := by
    have : f.fill.ip.payload = [] := hr.empty
    rw [← this]
  show some (UDPFrame.mk { f.fill.ip with payload := [] } f.payload f.fill.sport f.fill.dport f.fill.ulen f.fill.ucksum) = _
  rw [he]
  rfl

/-- C22: with the checksum computed by the library, the RFC 768 sum over pseudo header, UDP header and payload is 0xFFFF,
and verification succeeds. -/
theorem C22_udp_checksum (f : UDPFrame) (hr : f.InRange) (hl : f.LenOk) (hc : f.ucksum = none) :
    ∃ ck, f.fill.ucksum = some ck ∧ ck < 65536 ∧
      ocSum (covered f (f.payload.length + 8) ck) = 0xFFFF ∧ f.fill.verifyChecksum = true := by
  obtain ⟨hl1, hl2, hl3⟩ := hl
  have hck : f.fill.ucksum = some (f.calcChecksum (f.payload.length + 8)) := by
    rcases hl1 with h | h <;> simp [UDPFrame.fill, hc, h]
  have hlt := udp_calc_lt hr (by omega) (ulen := f.payload.length + 8) (by omega)
  refine ⟨_, hck, hlt, ?_, ?_⟩
  · have hb : ∀ b ∈ covered f (f.payload.length + 8) (f.calcChecksum (f.payload.length + 8)), b < 256 := by
      intro b hb
      unfold covered pseudoBytes at hb
      simp only [List.mem_append] at hb
      have h1 := hr.sport; have h2 := hr.dport; have h3 := hr.ip.proto
      rcases hb with (((hb | hb) | hb) | hb) | hb
      · rcases hb with hb | hb <;> · rw [bytesBE_4] at hb; simp at hb; omega
      · simp at hb; omega
      · rw [bytesBE_2] at hb; simp at hb; omega
      · simp [udpBytes] at hb; omega
      · exact hr.bytes b hb
    rw [ocSum_ffff _ hb]
    have hs := usum_spec hr (by omega) (ulen := f.payload.length + 8) (by omega) (f.calcChecksum (f.payload.length + 8))
    have hi := inv16_fold2 hs.1
    have h3 : f.calcChecksum (f.payload.length + 8) = inv16 (fold2 (usum f (f.payload.length + 8))) := rfl
    rw [← h3] at hi
    constructor
    · rw [← hs.2]; omega
    · rw [covered_words]; omega
  · unfold UDPFrame.verifyChecksum
    rw [hck]
    rcases hl1 with h | h <;> simp [UDPFrame.fill, h, UDPFrame.calcChecksum, UDPFrame.pseudo]

/-- Disagreement with RFC 768, recorded: a computed checksum of zero is not replaced by 0xFFFF, so this datagram is sent as if it had
no checksum. -/
theorem C22_udp_zero_checksum_counterexample :
    ∃ f : UDPFrame, f.InRange ∧ f.LenOk ∧ f.ucksum = none ∧ f.fill.ucksum = some 0 := by
  refine ⟨{ ip := ⟨[], 0, 0, 0x800, 4, 5, 0, 0, none, 0, 2, 0, 64, 17, none, 0, 0⟩
            payload := [], sport := 65000, dport := 502, ulen := none, ucksum := none }, ?_, ?_, rfl, by decide⟩
  · constructor
    · constructor <;> decide
    all_goals simp
  · simp [UDPFrame.LenOk]

/-! ### C23 single word changes -/

theorem sum_set : ∀ (l : List Nat) (i y : Nat) (h : i < l.length), (l.set i y).sum + l[i] = l.sum + y
  | [], i, y, h => by simp at h
  | a :: l, 0, y, h => by simp; omega
  | a :: l, i + 1, y, h => by
    have := sum_set l i y (by simpa using h)
    simp at *; omega

/-- C23: if an IPv4 header verifies, no header that differs from it in exactly one 16-bit word, by a value not congruent modulo
0xFFFF, verifies. -/
theorem C23_ip_single_word (f g : IPFrame) (hf : f.InRange) (hg : g.InRange) (lf cf lg cg : Nat)
    (h1 : f.length = some lf) (h2 : f.cksum = some cf) (h3 : g.length = some lg) (h4 : g.cksum = some cg)
    (b1 : lf < 65536) (b2 : cf < 65536) (b3 : lg < 65536) (b4 : cg < 65536)
    (bf bg : List Nat) (e1 : f.header lf cf = some bf) (e2 : g.header lg cg = some bg)
    (i y : Nat) (hi : i < (words bf).length) (hw : words bg = (words bf).set i y)
    (hne : y % 65535 ≠ (words bf)[i] % 65535) (hv : f.verifyChecksum = true) : g.verifyChecksum = false := by
  have v1 := (C21_ip_verify f hf lf cf h1 b1 h2 b2 bf e1).1 hv
  cases hvg : g.verifyChecksum with
  | false => rfl
  | true =>
    exfalso
    have v2 := (C21_ip_verify g hg lg cg h3 b3 h4 b4 bg e2).1 hvg
    have hbf : ∀ b ∈ bf, b < 256 := by
      rw [ip_header hf b1 b2] at e1; simp at e1; rw [← e1]; exact ipBytes_lt hf b1 b2
    have hbg : ∀ b ∈ bg, b < 256 := by
      rw [ip_header hg b3 b4] at e2; simp at e2; rw [← e2]; exact ipBytes_lt hg b3 b4
    rw [ocSum_ffff _ hbf] at v1
    rw [ocSum_ffff _ hbg, hw] at v2
    have := sum_set (words bf) i y hi
    omega

private theorem udp_verify_sum {f : UDPFrame} (hr : f.InRange) (hp : f.payload.length ≤ 65527) {ulen ck : Nat} (hu : ulen < 65536)
    (h1 : f.ulen = some ulen) (h2 : f.ucksum = some ck) (hv : f.verifyChecksum = true) :
    (words (covered f ulen ck)).sum % 65535 = 0 := by
  have hs := usum_spec hr hp hu ck
  have hi := inv16_fold2 hs.1
  unfold UDPFrame.verifyChecksum at hv
  rw [h1, h2] at hv
  simp only [Option.getD_some, beq_iff_eq, Option.some.injEq] at hv
  have h3 : f.calcChecksum ulen = inv16 (fold2 (usum f ulen)) := rfl
  rw [← h3, ← hv] at hi
  rw [← hs.2]; omega

/-- C23, UDP: if a datagram verifies, no datagram whose covered words (pseudo header, header, payload) differ in exactly one word, by a
value not congruent modulo 0xFFFF, verifies. -/
theorem C23_udp_single_word (f g : UDPFrame) (hf : f.InRange) (hg : g.InRange)
    (pf : f.payload.length ≤ 65527) (pg : g.payload.length ≤ 65527) (lf cf lg cg : Nat)
    (h1 : f.ulen = some lf) (h2 : f.ucksum = some cf) (h3 : g.ulen = some lg) (h4 : g.ucksum = some cg)
    (b1 : lf < 65536) (b3 : lg < 65536) (i y : Nat) (hi : i < (words (covered f lf cf)).length)
    (hw : words (covered g lg cg) = (words (covered f lf cf)).set i y)
    (hne : y % 65535 ≠ (words (covered f lf cf))[i] % 65535) (hv : f.verifyChecksum = true) :
    g.verifyChecksum = false := by
  have v1 := udp_verify_sum hf pf b1 h1 h2 hv
  cases hvg : g.verifyChecksum with
  | false => rfl
  | true =>
    exfalso
    have v2 := udp_verify_sum hg pg b3 h3 h4 hvg
    rw [hw] at v2
    have := sum_set (words (covered f lf cf)) i y hi
    omega

/-! ### Non-vacuity -/

def exIp : IPFrame :=
  { payload := [1, 2, 3], dest := 0xDAD1D2D3D4D5, src := 0x5A5152535455, type := 0x800, version := 4, ihl := 5, dscp := 1, ecn := 2,
    length := none, ident := 7, flags := 2, frag := 0, ttl := 64, proto := 17, cksum := none, sip := 0xc0a80164, dip := 0xc0a80165 }

example : exIp.InRange ∧ exIp.LenOk ∧ exIp.fill.verifyChecksum = true ∧ exIp.build.isSome = true := by
  refine ⟨?_, ?_, by decide, by decide⟩
  · constructor <;> decide
  · exact ⟨Or.inl rfl, by decide⟩

def exUdp : UDPFrame := { ip := { exIp with payload := [] }, payload := [1, 2, 3], sport := 5, dport := 6, ulen := none, ucksum := none }
example : exUdp.InRange ∧ exUdp.LenOk ∧ (exUdp.build.bind UDPFrame.parse) = some exUdp.fill := by
  refine ⟨?_, ?_, by decide⟩
  · constructor
    · constructor <;> decide
    all_goals decide
  · exact ⟨Or.inl rfl, Or.inl rfl, by decide⟩

end Corundum.Frames
