/-!
Receive flow hash (RSS): /repo/fpga/common/rtl/rx_hash.v, and the reference of the Python test bench,
/repo/fpga/common/tb/rx_hash/test_rx_hash.py.

Simplifications: `hash_data_reg` (36 bytes) is a function from byte index to byte; `s_axis_tdata` is a function from lane to byte; `s_axis_tkeep`
is not an input because the code never reads it. Registers are unbounded numbers where no assignment can exceed the
width; the beat counter and the type fields are truncated as in the code. `rst` is modelled by the initial state.
-/
namespace Corundum.RxHash

/-- one transferred word, rx_hash.v:29-32 -/
structure Beat where
  lane : Nat → Nat
  last : Bool

/-- header capture registers, rx_hash.v:107-118 -/
structure Front where
  active : Bool
  ptr : Nat
  eth : Nat
  ihl : Nat
  hd : Nat → Nat
  ipv4 : Bool
  tcp : Bool
  udp : Bool
  typ : Nat
  valid : Bool

/-- `$clog2` -/
def clog2 (n : Nat) : Nat := if n ≤ 1 then 0 else Nat.log2 (n - 1) + 1

/-- number of values of `ptr_reg`, rx_hash.v:47-49,108; `reg [-1:0]` has two bits -/
def ptrMod (K : Nat) : Nat :=
  let w := clog2 ((38 + K - 1) / K)
  2 ^ (if w = 0 then 2 else w)

section
variable (K : Nat) (s : Front) (b : Beat)

/-- `ptr_reg == o/KEEP_WIDTH` -/
def hit (o : Nat) : Bool := s.ptr == o / K
/-- `s_axis_tdata[(o%KEEP_WIDTH)*8 +: 8]` -/
def byteAt (o : Nat) : Nat := b.lane (o % K)

/-- eth_type_next, rx_hash.v:177-183 -/
def ethN : Nat :=
  let e1 := if hit K s 12 then byteAt K b 12 * 256 + s.eth % 256 else s.eth
  if hit K s 13 then e1 / 256 * 256 + byteAt K b 13 else e1
/-- hash_data_ipv4_next, rx_hash.v:172-173,185-188 -/
def ipv4N : Bool := if hit K s 13 && ethN K s b == 0x0800 then true else if s.ptr == 0 then false else s.ipv4
/-- rx_hash.v:189-197: neither IPv4 nor IPv6 -/
def doneOther : Bool := hit K s 13 && ethN K s b != 0x0800 && ethN K s b != 0x86dd
/-- ihl_next, rx_hash.v:199-202 -/
def ihlN : Nat := if hit K s 14 then byteAt K b 14 % 16 else s.ihl
/-- hash_data_tcp_next, rx_hash.v:174,204-208 -/
def tcpN : Bool :=
  if ipv4N K s b && hit K s 23 && byteAt K b 23 == 0x06 && ihlN K s b == 5 then true else if s.ptr == 0 then false else s.tcp
/-- hash_data_udp_next, rx_hash.v:175,209-212 -/
def udpN : Bool :=
  if ipv4N K s b && hit K s 23 && byteAt K b 23 == 0x11 && ihlN K s b == 5 then true else if s.ptr == 0 then false else s.udp
/-- hash_data_next, rx_hash.v:214-267: addresses in bytes 0-7, ports in bytes 8-11 -/
def hdN (j : Nat) : Nat :=
  if ipv4N K s b && hit K s (26 + j) && (j < 8 || (j < 12 && (tcpN K s b || udpN K s b))) then byteAt K b (26 + j) else s.hd j
/-- rx_hash.v:242-250 -/
def doneIp : Bool := ipv4N K s b && hit K s 33 && !(tcpN K s b || udpN K s b)
/-- rx_hash.v:251,265-271 -/
def doneL4 : Bool := ipv4N K s b && (tcpN K s b || udpN K s b) && hit K s 37
def done : Bool := doneOther K s b || doneIp K s b || doneL4 K s b
/-- hash_data_type_next before the end-of-frame rule -/
def typN : Nat :=
  if doneL4 K s b then 1 + 4 * (tcpN K s b).toNat + 8 * (udpN K s b).toNat else if doneIp K s b then 1
  else if doneOther K s b then 0 else s.typ

/-- the combinational block, rx_hash.v:154-285 -/
def Front.step : Option Beat → Front
  | none => { s with valid := false }
  | some b =>
    if s.active then
      { active := if b.last then true else !done K s b
        ptr := if b.last then 0 else (s.ptr + 1) % ptrMod K
        eth := ethN K s b
        ihl := ihlN K s b
        hd := hdN K s b
        ipv4 := ipv4N K s b
        tcp := tcpN K s b
        udp := udpN K s b
        typ := if b.last && !done K s b then 0 else typN K s b
        valid := done K s b || b.last }
    else
      { s with valid := false, active := b.last, ptr := if b.last then 0 else s.ptr }
end

/-- the inner and outer loop of `hash_toep`, rx_hash.v:136-148; `data` is indexed by byte -/
def hashToep (data : Nat → Nat) (len key : Nat) : Nat :=
  (List.range len).foldl (fun h i =>
    (List.range 8).foldl (fun h j => if (data i).testBit (7 - j) then h ^^^ (key >>> (40 * 8 - 32 - i * 8 - j)) % 2 ^ 32 else h) h) 0

/-- whole module state: capture registers, `hash_part_*`, output registers -/
structure St where
  f : Front
  ipPart : Nat
  portPart : Nat
  pIpv4 : Bool
  pTcp : Bool
  pUdp : Bool
  pTyp : Nat
  pValid : Bool
  hash : Nat
  hTyp : Nat
  hValid : Bool

/-- rx_hash.v:303-325 (registers), with the part hashes of lines 151-152 -/
def St.step (K key : Nat) (s : St) (i : Option Beat) : St :=
  { f := s.f.step K i
    ipPart := hashToep s.f.hd 8 key
    portPart := hashToep (fun j => s.f.hd (j + 8)) 4 ((key <<< 64) % 2 ^ 320)
    pIpv4 := s.f.ipv4
    pTcp := s.f.tcp
    pUdp := s.f.udp
    pTyp := s.f.typ
    pValid := s.f.valid
    hash := if s.pIpv4 then (if s.pTcp || s.pUdp then s.ipPart ^^^ s.portPart else s.ipPart) else 0
    hTyp := s.pTyp
    hValid := s.pValid }

/-- observable results (`m_axis_hash`, `m_axis_hash_type`) over a sequence of clock cycles -/
def outs (K key : Nat) : St → List (Option Beat) → List (Nat × Nat)
  | _, [] => []
  | s, i :: is =>
    let s' := s.step K key i
    (if s'.hValid then [(s'.hash, s'.hTyp)] else []) ++ outs K key s' is

/-- test_rx_hash.py:38-50; `none` is the exception of a negative shift count -/
def pyToepBit (key : Nat) (b : Nat) : Option (Nat × Int) → Nat → Option (Nat × Int)
  | none, _ => none
  | some (h, k), i =>
    if b &&& (0x80 >>> i) ≠ 0 then (if k < 0 then none else some (h ^^^ (key >>> k.toNat) &&& 0xffffffff, k - 1)) else some (h, k - 1)

def pyToep (data : List Nat) (keyLen key : Nat) : Option Nat :=
  (data.foldl (fun a b => (List.range 8).foldl (pyToepBit key b) a) (some (0, (keyLen : Int) * 8 - 32))).map Prod.fst

end Corundum.RxHash
