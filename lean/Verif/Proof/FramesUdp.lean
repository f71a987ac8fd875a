import Verif.Proof.FramesIp
namespace Corundum.Frames
open Corundum.Struct Corundum.Spec

/-- the 8 UDP header bytes -/
def udpBytes (f : UDPFrame) (ulen ck : Nat) : List Nat :=
  [f.sport / 256, f.sport % 256, f.dport / 256, f.dport % 256, ulen / 256, ulen % 256, ck / 256, ck % 256]

theorem udp_header {f : UDPFrame} (h1 : f.sport < 65536) (h2 : f.dport < 65536) {ulen ck : Nat} (hl : ulen < 65536)
    (hc : ck < 65536) : f.header ulen ck = some (udpBytes f ulen ck) := by
  unfold UDPFrame.header udpBytes
  rw [pack2 h1, pack2 h2, pack2 hl, pack2 hc]
  simp only [bind, Option.bind, pure, List.cons_append, List.nil_append, Option.some.injEq, List.cons.injEq, and_true]
  and_intros <;> first | omega | trivial

theorem udp_parse {f : UDPFrame} (h1 : f.sport < 65536) (h2 : f.dport < 65536) {ulen ck : Nat} (hl : ulen < 65536)
    (hc : ck < 65536) (i : IPFrame) (tail : List Nat) (hi : i.payload = udpBytes f ulen ck ++ tail) :
    UDPFrame.parseIp i = some { ip := { i with payload := [] }, payload := tail.take (ulen - 8), sport := f.sport, dport := f.dport,
                                ulen := some ulen, ucksum := some ck } := by
  have hsl : slice (udpBytes f ulen ck ++ tail) 8 ulen = tail.take (ulen - 8) := by
    unfold slice
    rw [List.drop_take]
    rfl
  unfold UDPFrame.parseIp
  rw [hi]
  simp only [unpackBE, slice, udpBytes, List.cons_append, List.nil_append, List.take_succ_cons,
    List.drop_succ_cons, List.take_zero, List.drop_zero, List.length_cons, List.length_nil, Nat.zero_add,
    Nat.reduceAdd, if_true, bind, Option.bind, pure, valBE, List.foldl_cons, List.foldl_nil]
  simp only [Option.some.injEq, UDPFrame.mk.injEq, true_and]
  and_intros
  · rw [show (0 * 256 + ulen / 256) * 256 + ulen % 256 = ulen by omega]
    exact hsl
  all_goals first | omega | trivial

/-- pseudo header of RFC 768: addresses, zero, protocol, UDP length -/
def pseudoBytes (f : UDPFrame) (ulen : Nat) : List Nat :=
  bytesBE 4 f.ip.sip ++ bytesBE 4 f.ip.dip ++ [0, f.ip.proto] ++ bytesBE 2 ulen

theorem udp_pseudo {f : UDPFrame} (h1 : f.ip.sip < 2 ^ 32) (h2 : f.ip.dip < 2 ^ 32) (h3 : f.ip.proto < 256) {ulen : Nat}
    (hl : ulen < 65536) : f.pseudo ulen < 65536 ∧ f.pseudo ulen % 65535 = (words (pseudoBytes f ulen)).sum % 65535 := by
  have hs : (words (pseudoBytes f ulen)).sum = (f.ip.sip &&& 0xffff) + ((f.ip.sip >>> 16) &&& 0xffff)
      + (f.ip.dip &&& 0xffff) + ((f.ip.dip >>> 16) &&& 0xffff) + f.ip.proto + ulen := by
    simp only [pseudoBytes, bytesBE_4, bytesBE_2, List.cons_append, List.nil_append, words, List.sum_cons, List.sum_nil,
      and16, shr16]
    omega
  rw [hs]
  unfold UDPFrame.pseudo
  have hlt : (f.ip.sip &&& 0xffff) + ((f.ip.sip >>> 16) &&& 0xffff)
      + (f.ip.dip &&& 0xffff) + ((f.ip.dip >>> 16) &&& 0xffff) + f.ip.proto + ulen < 4294967296 := by
    simp only [and16, shr16]; omega
  have := fold2_spec hlt
  exact ⟨this.1, this.2.1⟩

/-- everything the UDP checksum covers -/
def covered (f : UDPFrame) (ulen ck : Nat) : List Nat := pseudoBytes f ulen ++ udpBytes f ulen ck ++ f.payload

theorem covered_words (f : UDPFrame) (ulen ck : Nat) : (words (covered f ulen ck)).sum =
    (words (pseudoBytes f ulen)).sum + (f.sport + f.dport + ulen + ck) + (words f.payload).sum := by
  unfold covered
  rw [words_append_even _ _ (by simp [pseudoBytes, bytesBE, udpBytes]), words_append_even _ _ (by simp [pseudoBytes, bytesBE])]
  simp only [List.sum_append]
  congr 1
  congr 1
  simp only [udpBytes, words, List.sum_cons, List.sum_nil]
  omega

end Corundum.Frames
