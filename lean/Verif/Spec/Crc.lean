/-!
CRC-32 as published (IEEE 802.3, zlib `crc32`): reflected, polynomial 0xEDB88320, initial value and final XOR
0xFFFFFFFF; each byte least significant bit first. `zlib.crc32` used by eth_ep.py:66 is this function (trusted).
-/
namespace Corundum.Crc.Spec

def crcBit (c : Nat) (b : Bool) : Nat := (c >>> 1) ^^^ (if c.testBit 0 ^^ b then 0xEDB88320 else 0)
def crcBits (c : Nat) (l : List Bool) : Nat := l.foldl crcBit c
/-- wire order of the bits of a number: least significant first -/
def bits (n x : Nat) : List Bool := (List.range n).map (fun i => x.testBit i)
def wire (l : List Nat) : List Bool := l.flatMap (bits 8)
/-- register after a message, before the final complement -/
def reg (l : List Nat) : Nat := crcBits 0xFFFFFFFF (wire l)
def crc32 (l : List Nat) : Nat := reg l ^^^ 0xFFFFFFFF
/-- a receiver accepts a frame (with its check sequence) when the register holds the residue -/
def accepts (l : List Nat) : Bool := reg l == 0xDEBB20E3

end Corundum.Crc.Spec
