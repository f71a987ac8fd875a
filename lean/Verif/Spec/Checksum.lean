/-! The Internet checksum of RFC 1071, stated independently of any implementation. -/
namespace Corundum.Spec

/-- big-endian 16-bit words of a byte string, an odd last byte is padded with zero -/
def words : List Nat → List Nat
  | [] => []
  | [a] => [a * 256]
  | a :: b :: l => (a * 256 + b) :: words l

/-- ones' complement addition of two 16-bit words: end-around carry -/
def ocAdd (a b : Nat) : Nat := if a + b < 65536 then a + b else a + b - 65535

/-- ones' complement sum of the words of a byte string -/
def ocSum (bytes : List Nat) : Nat := (words bytes).foldl ocAdd 0

end Corundum.Spec
