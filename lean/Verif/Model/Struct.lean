/-
Python `struct.pack` / `struct.unpack` of unsigned fields and slices, as used by the frame classes in
`fpga/lib/eth/tb/{eth,arp,ip,udp}_ep.py`.  A byte is a `Nat`; `none` = `struct.error`.
-/
namespace Corundum.Struct

/-- the `n` big-endian bytes of `v` (mod `256^n`) -/
def bytesBE (n v : Nat) : List Nat := (List.range n).map (fun i => v / 256 ^ (n - 1 - i) % 256)

/-- the `n` little-endian bytes of `v` (mod `256^n`) -/
def bytesLE (n v : Nat) : List Nat := (List.range n).map (fun i => v / 256 ^ i % 256)

/-- `struct.pack('>B/H/L/Q', v)` with `n` = 1/2/4/8: error when out of range -/
def packBE (n v : Nat) : Option (List Nat) := if v < 256 ^ n then some (bytesBE n v) else none

/-- `struct.pack('<L', v)` -/
def packLE (n v : Nat) : Option (List Nat) := if v < 256 ^ n then some (bytesLE n v) else none

def valBE (l : List Nat) : Nat := l.foldl (fun a b => a * 256 + b) 0

/-- `struct.unpack('>...', l)[0]`: error unless the length matches -/
def unpackBE (n : Nat) (l : List Nat) : Option Nat := if l.length = n then some (valBE l) else none

/-- `struct.unpack('<...', l)[0]` -/
def unpackLE (n : Nat) (l : List Nat) : Option Nat := if l.length = n then some (valBE l.reverse) else none

/-- Python slice `l[a:b]`, `0 ≤ a`, `0 ≤ b` -/
def slice (l : List Nat) (a b : Nat) : List Nat := (l.take b).drop a

end Corundum.Struct
