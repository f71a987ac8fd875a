import Verif.Proof.Frames
import Verif.Proof.Checksum
namespace Corundum.Frames
open Corundum.Struct Corundum.Spec

/-- all fields fit their header fields -/
structure IPFrame.InRange (f : IPFrame) : Prop where
  dest : f.dest < 2 ^ 48
  src : f.src < 2 ^ 48
  type : f.type < 2 ^ 16
  version : f.version < 2 ^ 4
  ihl : f.ihl < 2 ^ 4
  dscp : f.dscp < 2 ^ 6
  ecn : f.ecn < 2 ^ 2
  ident : f.ident < 2 ^ 16
  flags : f.flags < 2 ^ 3
  frag : f.frag < 2 ^ 13
  ttl : f.ttl < 2 ^ 8
  proto : f.proto < 2 ^ 8
  sip : f.sip < 2 ^ 32
  dip : f.dip < 2 ^ 32

theorem word0 {v i d e : Nat} (hi : i < 2 ^ 4) (hd : d < 2 ^ 6) (he : e < 2 ^ 2) :
    (v <<< 12 ||| i <<< 8 ||| d <<< 2 ||| e) = v * 4096 + i * 256 + d * 4 + e := by
  have h1 : v <<< 12 ||| i <<< 8 = (v * 16 + i) <<< 8 := by
    rw [or_shift (by rw [Nat.shiftLeft_eq]; omega), Nat.shiftLeft_eq, Nat.shiftLeft_eq]; omega
  rw [h1]
  have h2 : (v * 16 + i) <<< 8 ||| d <<< 2 = ((v * 16 + i) * 64 + d) <<< 2 := by
    rw [or_shift (by rw [Nat.shiftLeft_eq]; omega), Nat.shiftLeft_eq, Nat.shiftLeft_eq]; omega
  rw [h2, or_shift he]; omega

theorem and16 (x : Nat) : x &&& 0xffff = x % 65536 := by
  rw [show (0xffff : Nat) = 2 ^ 16 - 1 by rfl, Nat.and_two_pow_sub_one_eq_mod]

theorem shr16 (x : Nat) : x >>> 16 = x / 65536 := Nat.shiftRight_eq_div_pow x 16

theorem ip_rawSum {f : IPFrame} (h : f.InRange) (len : Nat) : f.rawSum len =
    (f.version * 4096 + f.ihl * 256 + f.dscp * 4 + f.ecn) + len + f.ident + (f.flags * 8192 + f.frag)
    + (f.ttl * 256 + f.proto) + f.sip % 65536 + f.sip / 65536 + f.dip % 65536 + f.dip / 65536 := by
  have := h.sip; have := h.dip
  unfold IPFrame.rawSum
  rw [word0 h.ihl h.dscp h.ecn, or_shift h.frag, or_shift h.proto, and16, and16, and16, and16, shr16, shr16,
    Nat.mod_eq_of_lt (a := f.sip / 65536) (by omega), Nat.mod_eq_of_lt (a := f.dip / 65536) (by omega)]

theorem ip_rawSum_lt {f : IPFrame} (h : f.InRange) {len : Nat} (hl : len < 65536) : f.rawSum len < 4294967296 := by
  rw [ip_rawSum h]
  obtain ⟨_, _, _, _, _, _, _, _, _, _, _, _, _, _⟩ := h
  omega

/-- the 20 header bytes -/
def ipBytes (f : IPFrame) (len ck : Nat) : List Nat :=
  [f.version * 16 + f.ihl, f.dscp * 4 + f.ecn, len / 256, len % 256, f.ident / 256, f.ident % 256,
   (f.flags * 8192 + f.frag) / 256, (f.flags * 8192 + f.frag) % 256, f.ttl, f.proto, ck / 256, ck % 256,
   f.sip / 16777216, f.sip / 65536 % 256, f.sip / 256 % 256, f.sip % 256,
   f.dip / 16777216, f.dip / 65536 % 256, f.dip / 256 % 256, f.dip % 256]

theorem ip_header {f : IPFrame} (h : f.InRange) {len ck : Nat} (hl : len < 65536) (hc : ck < 65536) :
    f.header len ck = some (ipBytes f len ck) := by
  obtain ⟨_, _, _, h1, h2, h3, h4, h5, h6, h7, h8, h9, h10, h11⟩ := h
  unfold IPFrame.header ipBytes
  rw [or_shift h2, or_shift h4, or_shift h7]
  rw [pack1 (v := f.version * 2 ^ 4 + f.ihl) (by omega), pack1 (v := f.dscp * 2 ^ 2 + f.ecn) (by omega), pack2 hl,
    pack2 h5, pack2 (v := f.flags * 2 ^ 13 + f.frag) (by omega), pack1 h8, pack1 h9, pack2 hc, pack4 h10, pack4 h11]
  simp only [bind, Option.bind, pure, List.cons_append, List.nil_append, Option.some.injEq, List.cons.injEq, and_true]
  and_intros <;> first | omega | trivial | skip

theorem ipBytes_lt {f : IPFrame} (h : f.InRange) {len ck : Nat} (hl : len < 65536) (hc : ck < 65536) :
    ∀ b ∈ ipBytes f len ck, b < 256 := by
  obtain ⟨_, _, _, h1, h2, h3, h4, h5, h6, h7, h8, h9, h10, h11⟩ := h
  simp only [ipBytes, List.mem_cons, List.not_mem_nil, or_false, forall_eq_or_imp, forall_eq]
  omega

theorem ip_words_sum {f : IPFrame} (h : f.InRange) (len ck : Nat) :
    (words (ipBytes f len ck)).sum = f.rawSum len + ck := by
  rw [ip_rawSum h]
  obtain ⟨_, _, _, h1, h2, h3, h4, h5, h6, h7, h8, h9, h10, h11⟩ := h
  simp only [ipBytes, words, List.sum_cons, List.sum_nil]
  omega

theorem ip_parse {f : IPFrame} (h : f.InRange) {len ck : Nat} (hl : len < 65536) (hc : ck < 65536) (tail : List Nat) :
    IPFrame.parseEth { payload := ipBytes f len ck ++ tail, dest := f.dest, src := f.src, type := f.type }
    = some { f with payload := tail.take (len - 20), length := some len, cksum := some ck } := by
  obtain ⟨_, _, _, h1, h2, h3, h4, h5, h6, h7, h8, h9, h10, h11⟩ := h
  have hsl : slice (ipBytes f len ck ++ tail) 20 len = tail.take (len - 20) := by
    unfold slice
    rw [List.drop_take]
    rfl
  unfold IPFrame.parseEth
  simp only [unpackBE, slice, ipBytes, List.cons_append, List.nil_append, List.take_succ_cons,
    List.drop_succ_cons, List.take_zero, List.drop_zero, List.length_cons, List.length_nil, Nat.zero_add,
    Nat.reduceAdd, if_true, bind, Option.bind, pure, valBE, List.foldl_cons, List.foldl_nil]
  rw [show (0xF : Nat) = 2 ^ 4 - 1 by rfl, show (0x3F : Nat) = 2 ^ 6 - 1 by rfl, show (0x3 : Nat) = 2 ^ 2 - 1 by rfl,
    show (0x7 : Nat) = 2 ^ 3 - 1 by rfl, show (0x1FFF : Nat) = 2 ^ 13 - 1 by rfl]
  simp only [Nat.and_two_pow_sub_one_eq_mod, Nat.shiftRight_eq_div_pow]
  obtain ⟨pl, de, sr, ty, ver, ihl, dscp, ecn, le, ident, fl, fr, ttl, pr, cks, sip, dip⟩ := f
  simp only [Option.some.injEq, IPFrame.mk.injEq, true_and] at *
  and_intros
  · rw [show (0 * 256 + len / 256) * 256 + len % 256 = len by omega]
    exact hsl
  all_goals first | omega | trivial

end Corundum.Frames
