/-!
The Toeplitz hash as published (RSS specification): keep a 320-bit key register; for every input bit from left to right, if
the bit is set, XOR the leftmost 32 bits of the key register into the result; shift the key register left by one bit.
The hash input is source address, destination address and, for TCP or UDP without IP options, source port and destination port, in network byte order.
-/
namespace Corundum.RxHash.Spec

/-- result and key register after one input bit -/
def toepBit (s : Nat × Nat) (b : Bool) : Nat × Nat := (if b then s.1 ^^^ (s.2 >>> 288) else s.1, (s.2 <<< 1) % 2 ^ 320)
/-- bits from left to right -/
def bits (l : List Nat) : List Bool := l.flatMap (fun b => (List.range 8).map (fun j => b.testBit (7 - j)))
def toeplitz (key : Nat) (l : List Nat) : Nat := ((bits l).foldl toepBit (0, key)).1

/-- bytes `o .. o+n-1` of a frame -/
def field (f : List Nat) (o n : Nat) : List Nat := (f.drop o).take n
def ethType (f : List Nat) : Nat := f.getD 12 0 * 256 + f.getD 13 0
def isIpv4 (f : List Nat) : Bool := ethType f == 0x0800
/-- header length five words: no options -/
def noOptions (f : List Nat) : Bool := f.getD 14 0 % 16 == 5
def isTcp (f : List Nat) : Bool := isIpv4 f && noOptions f && f.getD 23 0 == 6
def isUdp (f : List Nat) : Bool := isIpv4 f && noOptions f && f.getD 23 0 == 17

/-- expected result: hash and type flags (1 IPv4, 4 TCP, 8 UDP) -/
def result (key : Nat) (f : List Nat) : Nat × Nat :=
  if isIpv4 f then
    if isTcp f then (toeplitz key (field f 26 4 ++ field f 30 4 ++ field f 34 2 ++ field f 36 2), 5)
    else if isUdp f then (toeplitz key (field f 26 4 ++ field f 30 4 ++ field f 34 2 ++ field f 36 2), 9)
    else (toeplitz key (field f 26 4 ++ field f 30 4), 1)
  else (0, 0)

end Corundum.RxHash.Spec
