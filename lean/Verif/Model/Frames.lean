import Verif.Model.Struct
/-
Frame classes of the Ethernet test library: `fpga/lib/eth/tb/eth_ep.py` (EthFrame, lines 30-113),
`arp_ep.py` (ARPFrame, 30-124), `ip_ep.py` (IPFrame, 30-196), `udp_ep.py` (UDPFrame, 31-292).

A frame is a record of its fields; a payload is the list of its bytes (the `data` of the AXIStreamFrame; its
sideband fields are not used here).  `none` results are `struct.error` exceptions.  A `None` field is `Option.none`.
-/
namespace Corundum.Frames
open Corundum.Struct

/-! ### eth_ep.py -/

structure EthFrame where
  payload : List Nat
  dest : Nat
  src : Nat
  type : Nat
  deriving DecidableEq

/-- `build_axis`, eth_ep.py:71-80 -/
def EthFrame.build (f : EthFrame) : Option (List Nat) := do
  let d ← packBE 8 f.dest
  let s ← packBE 8 f.src
  let t ← packBE 2 f.type
  return d.drop 2 ++ s.drop 2 ++ t ++ f.payload

/-- `parse_axis`, eth_ep.py:92-98 -/
def EthFrame.parse (data : List Nat) : Option EthFrame := do
  let dest ← unpackBE 8 ([0, 0] ++ slice data 0 6)
  let src ← unpackBE 8 ([0, 0] ++ slice data 6 12)
  let type ← unpackBE 2 (slice data 12 14)
  return { payload := data.drop 14, dest, src, type }

/-- `build_axis_fcs`, eth_ep.py:82-90: `fcs` = the frame's `eth_fcs` field, `crc` = `zlib.crc32`. -/
def EthFrame.buildFcs (crc : List Nat → Nat) (f : EthFrame) (fcs : Option Nat) : Option (List Nat) := do
  let data ← f.build
  let fcs := fcs.getD (crc data)     -- update_fcs / calc_fcs, lines 64-70
  let t ← packLE 4 fcs
  return data ++ t

/-- `parse_axis_fcs`, eth_ep.py:100-104; `data[:-4]` and `data[-4:]`. -/
def EthFrame.parseFcs (data : List Nat) : Option (EthFrame × Nat) := do
  let f ← EthFrame.parse data
  let p := f.payload
  let fcs ← unpackLE 4 (p.drop (p.length - 4))
  return ({ f with payload := p.take (p.length - 4) }, fcs)

/-! ### arp_ep.py -/

structure ARPFrame where
  dest : Nat
  src : Nat
  type : Nat
  htype : Nat
  ptype : Nat
  hlen : Nat
  plen : Nat
  oper : Nat
  sha : Nat
  spa : Nat
  tha : Nat
  tpa : Nat
  deriving DecidableEq

/-- `build_eth`, arp_ep.py:89-102 -/
def ARPFrame.buildEth (f : ARPFrame) : Option EthFrame := do
  let a ← packBE 2 f.htype
  let b ← packBE 2 f.ptype
  let c ← packBE 1 f.hlen
  let d ← packBE 1 f.plen
  let e ← packBE 2 f.oper
  let g ← packBE 8 f.sha
  let h ← packBE 4 f.spa
  let i ← packBE 8 f.tha
  let j ← packBE 4 f.tpa
  return { payload := a ++ b ++ c ++ d ++ e ++ g.drop 2 ++ h ++ i.drop 2 ++ j, dest := f.dest, src := f.src, type := f.type }

/-- `build_axis`, arp_ep.py:86-87 -/
def ARPFrame.build (f : ARPFrame) : Option (List Nat) := do (← f.buildEth).build

/-- `parse_eth`, arp_ep.py:109-122 -/
def ARPFrame.parseEth (e : EthFrame) : Option ARPFrame := do
  let p := e.payload
  let htype ← unpackBE 2 (slice p 0 2)
  let ptype ← unpackBE 2 (slice p 2 4)
  let hlen ← unpackBE 1 (slice p 4 5)
  let plen ← unpackBE 1 (slice p 5 6)
  let oper ← unpackBE 2 (slice p 6 8)
  let sha ← unpackBE 8 ([0, 0] ++ slice p 8 14)
  let spa ← unpackBE 4 (slice p 14 18)
  let tha ← unpackBE 8 ([0, 0] ++ slice p 18 24)
  let tpa ← unpackBE 4 (slice p 24 28)
  return { dest := e.dest, src := e.src, type := e.type, htype, ptype, hlen, plen, oper, sha, spa, tha, tpa }

/-- `parse_axis`, arp_ep.py:104-107 -/
def ARPFrame.parse (data : List Nat) : Option ARPFrame := do ARPFrame.parseEth (← EthFrame.parse data)

/-! ### ip_ep.py -/

structure IPFrame where
  payload : List Nat
  dest : Nat
  src : Nat
  type : Nat
  version : Nat
  ihl : Nat
  dscp : Nat
  ecn : Nat
  length : Option Nat
  ident : Nat
  flags : Nat
  frag : Nat
  ttl : Nat
  proto : Nat
  cksum : Option Nat
  sip : Nat
  dip : Nat
  deriving DecidableEq

/-- the two folding lines `cksum = (cksum & 0xffff) + (cksum >> 16)` (ip_ep.py:131-132, udp_ep.py:155-156, 172-173, 191-192) -/
def fold1 (s : Nat) : Nat := (s &&& 0xffff) + (s >>> 16)
def fold2 (s : Nat) : Nat := fold1 (fold1 s)
/-- `~cksum & 0xffff` -/
def inv16 (s : Nat) : Nat := 65535 - s % 65536

/-- the sum accumulated by `calc_checksum` (ip_ep.py:122-130) -/
def IPFrame.rawSum (f : IPFrame) (len : Nat) : Nat :=
  (f.version <<< 12 ||| f.ihl <<< 8 ||| f.dscp <<< 2 ||| f.ecn)
  + len + f.ident + (f.flags <<< 13 ||| f.frag) + (f.ttl <<< 8 ||| f.proto)
  + (f.sip &&& 0xffff) + ((f.sip >>> 16) &&& 0xffff) + (f.dip &&& 0xffff) + ((f.dip >>> 16) &&& 0xffff)

/-- `calc_checksum` (ip_ep.py:121-133), also `UDPFrame.calc_ip_checksum` -/
def IPFrame.calcChecksum (f : IPFrame) (len : Nat) : Nat := inv16 (fold2 (f.rawSum len))

/-- `build` (ip_ep.py:141-145): fills in the missing length and checksum. -/
def IPFrame.fill (f : IPFrame) : IPFrame :=
  let len := f.length.getD (f.payload.length + 20)
  { f with length := some len, cksum := some (f.cksum.getD (f.calcChecksum len)) }

/-- `verify_checksum` (ip_ep.py:138-139); the fields are set. -/
def IPFrame.verifyChecksum (f : IPFrame) : Bool := f.cksum == some (f.calcChecksum (f.length.getD 0))

/-- The 20 header bytes written by `build_eth` (ip_ep.py:150-164). -/
def IPFrame.header (f : IPFrame) (len ck : Nat) : Option (List Nat) := do
  let a ← packBE 1 (f.version <<< 4 ||| f.ihl)
  let b ← packBE 1 (f.dscp <<< 2 ||| f.ecn)
  let c ← packBE 2 len
  let d ← packBE 2 f.ident
  let e ← packBE 2 (f.flags <<< 13 ||| f.frag)
  let g ← packBE 1 f.ttl
  let h ← packBE 1 f.proto
  let i ← packBE 2 ck
  let j ← packBE 4 f.sip
  let k ← packBE 4 f.dip
  return a ++ b ++ c ++ d ++ e ++ g ++ h ++ i ++ j ++ k

/-- `build_eth` (ip_ep.py:150-167) -/
def IPFrame.buildEth (f : IPFrame) : Option EthFrame := do
  let f := f.fill
  let h ← f.header (f.length.getD 0) (f.cksum.getD 0)
  return { payload := h ++ f.payload, dest := f.dest, src := f.src, type := f.type }

def IPFrame.build (f : IPFrame) : Option (List Nat) := do (← f.buildEth).build

/-- `parse_eth` (ip_ep.py:174-196) -/
def IPFrame.parseEth (e : EthFrame) : Option IPFrame := do
  let p := e.payload
  let v ← unpackBE 1 (slice p 0 1)
  let w ← unpackBE 1 (slice p 1 2)
  let len ← unpackBE 2 (slice p 2 4)
  let ident ← unpackBE 2 (slice p 4 6)
  let u ← unpackBE 2 (slice p 6 8)
  let ttl ← unpackBE 1 (slice p 8 9)
  let proto ← unpackBE 1 (slice p 9 10)
  let ck ← unpackBE 2 (slice p 10 12)
  let sip ← unpackBE 4 (slice p 12 16)
  let dip ← unpackBE 4 (slice p 16 20)
  return { payload := slice p 20 len, dest := e.dest, src := e.src, type := e.type,
           version := (v >>> 4) &&& 0xF, ihl := v &&& 0xF, dscp := (w >>> 2) &&& 0x3F, ecn := w &&& 0x3,
           length := some len, ident, flags := (u >>> 13) &&& 0x7, frag := u &&& 0x1FFF, ttl, proto,
           cksum := some ck, sip, dip }

def IPFrame.parse (data : List Nat) : Option IPFrame := do IPFrame.parseEth (← EthFrame.parse data)

/-! ### udp_ep.py -/

/-- `ip` holds the Ethernet and IP fields of the UDPFrame (its `payload` field is unused and empty). -/
structure UDPFrame where
  ip : IPFrame
  payload : List Nat
  sport : Nat
  dport : Nat
  ulen : Option Nat
  ucksum : Option Nat
  deriving DecidableEq

/-- `calc_udp_pseudo_header_checksum` (udp_ep.py:165-174) -/
def UDPFrame.pseudo (f : UDPFrame) (ulen : Nat) : Nat :=
  fold2 ((f.ip.sip &&& 0xffff) + ((f.ip.sip >>> 16) &&& 0xffff) + (f.ip.dip &&& 0xffff) + ((f.ip.dip >>> 16) &&& 0xffff)
    + f.ip.proto + ulen)

/-- the payload loop of `calc_udp_checksum` (udp_ep.py:184-190) -/
def sumBytes : List Nat → Bool → Nat → Nat
  | [], _, c => c
  | d :: ds, odd, c => sumBytes ds (!odd) (if odd then c + d else c + d <<< 8)

/-- `calc_udp_checksum` (udp_ep.py:181-195) -/
def UDPFrame.calcChecksum (f : UDPFrame) (ulen : Nat) : Nat :=
  inv16 (fold2 (sumBytes f.payload false (f.pseudo ulen + f.sport + f.dport + ulen)))

/-- `build` (udp_ep.py:212-220): fills in missing lengths and checksums. -/
def UDPFrame.fill (f : UDPFrame) : UDPFrame :=
  let ulen := f.ulen.getD (f.payload.length + 8)
  let iplen := f.ip.length.getD (ulen + 20)
  { f with
    ulen := some ulen
    ucksum := some (f.ucksum.getD (f.calcChecksum ulen))
    ip := { f.ip with length := some iplen, cksum := some (f.ip.cksum.getD (f.ip.calcChecksum iplen)) } }

/-- `verify_udp_checksum` (udp_ep.py:202-203) -/
def UDPFrame.verifyChecksum (f : UDPFrame) : Bool := f.ucksum == some (f.calcChecksum (f.ulen.getD 0))

/-- the 8 header bytes written by `build_ip` -/
def UDPFrame.header (f : UDPFrame) (ulen ck : Nat) : Option (List Nat) := do
  let a ← packBE 2 f.sport
  let b ← packBE 2 f.dport
  let c ← packBE 2 ulen
  let d ← packBE 2 ck
  return a ++ b ++ c ++ d

/-- `build_ip` (udp_ep.py:228-257) -/
def UDPFrame.buildIp (f : UDPFrame) : Option IPFrame := do
  let f := f.fill
  let h ← f.header (f.ulen.getD 0) (f.ucksum.getD 0)
  return { f.ip with payload := h ++ f.payload }

def UDPFrame.build (f : UDPFrame) : Option (List Nat) := do (← f.buildIp).build

/-- `parse_ip` (udp_ep.py:269-292) -/
def UDPFrame.parseIp (i : IPFrame) : Option UDPFrame := do
  let p := i.payload
  let sport ← unpackBE 2 (slice p 0 2)
  let dport ← unpackBE 2 (slice p 2 4)
  let ulen ← unpackBE 2 (slice p 4 6)
  let ck ← unpackBE 2 (slice p 6 8)
  return { ip := { i with payload := [] }, payload := slice p 8 ulen, sport, dport, ulen := some ulen, ucksum := some ck }

def UDPFrame.parse (data : List Nat) : Option UDPFrame := do UDPFrame.parseIp (← IPFrame.parse data)

end Corundum.Frames
