import Verif.Model.Frames
/-! Helper lemmas for the frame classes. -/
namespace Corundum.Frames
open Corundum.Struct

theorem bytesBE_1 (v : Nat) : bytesBE 1 v = [v % 256] := by simp [bytesBE]
theorem bytesBE_2 (v : Nat) : bytesBE 2 v = [v / 256 % 256, v % 256] := by
  simp [bytesBE, List.range_succ]
theorem bytesBE_4 (v : Nat) : bytesBE 4 v = [v / 16777216 % 256, v / 65536 % 256, v / 256 % 256, v % 256] := by
  simp [bytesBE, List.range_succ]
theorem bytesBE_6 (v : Nat) : bytesBE 6 v = [v / 1099511627776 % 256, v / 4294967296 % 256, v / 16777216 % 256,
    v / 65536 % 256, v / 256 % 256, v % 256] := by
  simp [bytesBE, List.range_succ]
theorem bytesBE_8 (v : Nat) : bytesBE 8 v = [v / 72057594037927936 % 256, v / 281474976710656 % 256] ++ bytesBE 6 v := by
  simp [bytesBE, List.range_succ]
theorem bytesLE_4 (v : Nat) : bytesLE 4 v = [v % 256, v / 256 % 256, v / 65536 % 256, v / 16777216 % 256] := by
  simp [bytesLE, List.range_succ]

theorem pack1 {v : Nat} (h : v < 256) : packBE 1 v = some [v % 256] := by
  simp [packBE, h, bytesBE_1]
theorem pack2 {v : Nat} (h : v < 65536) : packBE 2 v = some [v / 256 % 256, v % 256] := by
  simp [packBE, h, bytesBE_2]
theorem pack4 {v : Nat} (h : v < 4294967296) :
    packBE 4 v = some [v / 16777216 % 256, v / 65536 % 256, v / 256 % 256, v % 256] := by
  simp [packBE, h, bytesBE_4]
theorem pack8 {v : Nat} (h : v < 281474976710656) :
    packBE 8 v = some ([v / 72057594037927936 % 256, v / 281474976710656 % 256] ++ bytesBE 6 v) := by
  have : v < 18446744073709551616 := by omega
  simp [packBE, this, bytesBE_8]

theorem val1 {v : Nat} (h : v < 256) : valBE [v % 256] = v := by simp [valBE]; omega
theorem val2 {v : Nat} (h : v < 65536) : valBE [v / 256 % 256, v % 256] = v := by simp [valBE]; omega
theorem val4 {v : Nat} (h : v < 4294967296) :
    valBE [v / 16777216 % 256, v / 65536 % 256, v / 256 % 256, v % 256] = v := by simp [valBE]; omega
theorem val6 {v : Nat} (h : v < 281474976710656) : valBE (0 :: 0 :: [v / 1099511627776 % 256, v / 4294967296 % 256, v / 16777216 % 256,
    v / 65536 % 256, v / 256 % 256, v % 256]) = v := by
  simp [valBE]; omega

theorem eth_build {f : EthFrame} (h1 : f.dest < 2 ^ 48) (h2 : f.src < 2 ^ 48) (h3 : f.type < 2 ^ 16) :
    f.build = some (bytesBE 6 f.dest ++ bytesBE 6 f.src ++ bytesBE 2 f.type ++ f.payload) := by
  simp only [EthFrame.build, pack8 h1, pack8 h2, pack2 h3, bytesBE_2]
  rfl

theorem eth_parse {d s t : Nat} (p : List Nat) (h1 : d < 2 ^ 48) (h2 : s < 2 ^ 48) (h3 : t < 2 ^ 16) :
    EthFrame.parse (bytesBE 6 d ++ bytesBE 6 s ++ bytesBE 2 t ++ p) = some { payload := p, dest := d, src := s, type := t } := by
  simp only [EthFrame.parse, unpackBE, slice, bytesBE_6, bytesBE_2, List.cons_append, List.nil_append, List.take_succ_cons,
    List.drop_succ_cons, List.take_zero, List.drop_zero, List.length_cons, List.length_nil]
  simp only [Nat.zero_add, Nat.reduceAdd, if_true, val6 h1, val6 h2, val2 h3]
  rfl

theorem or_shift {a b i : Nat} (h : b < 2 ^ i) : a <<< i ||| b = a * 2 ^ i + b := by
  rw [← Nat.shiftLeft_add_eq_or_of_lt h, Nat.shiftLeft_eq]

end Corundum.Frames
