import Verif.Model.BaseRSerdes
import Verif.Proof.BaseREnc
/-! Which block each word format is encoded to. -/
namespace Corundum.BaseRSerdes
open Corundum.BaseR

set_option linter.unusedSimpArgs false
set_option linter.unusedVariables false

theorem data_senc {w : Word} (h : w.cw = 0x00)  :
    sEnc w = ⟨SYNC_DATA, cat (dF w 0 8)⟩ := by
  obtain ⟨c0, c1, c2, c3, c4, c5, c6, c7⟩ := cw_bits h
  change w.c 0 = false at c0
  change w.c 1 = false at c1
  change w.c 2 = false at c2
  change w.c 3 = false at c3
  change w.c 4 = false at c4
  change w.c 5 = false at c5
  change w.c 6 = false at c6
  change w.c 7 = false at c7
  simp [sEnc, anyC, isOs_fb, isOs_fd, kF, dF, Word.k, r1, r2, r3, r4, r5, r6, r7, r8, c0, c1, c2, c3, c4, c5, c6, c7]

theorem start0_senc {w : Word} (h : w.cw = 0x01) (h0l : w.d 0 = 0xfb) :
    sEnc w = ⟨SYNC_CTRL, cat ([(8, 0x78)] ++ dF w 1 7)⟩ := by
  obtain ⟨c0, c1, c2, c3, c4, c5, c6, c7⟩ := cw_bits h
  change w.c 0 = true at c0
  change w.c 1 = false at c1
  change w.c 2 = false at c2
  change w.c 3 = false at c3
  change w.c 4 = false at c4
  change w.c 5 = false at c5
  change w.c 6 = false at c6
  change w.c 7 = false at c7
  simp [sEnc, anyC, isOs_fb, isOs_fd, kF, dF, Word.k, r1, r2, r3, r4, r5, r6, r7, r8, h0l, c0, c1, c2, c3, c4, c5, c6, c7]

theorem start4_senc {w : Word} (h : w.cw = 0x1f) (h4l : w.d 4 = 0xfb) (he : anyErr w.e 0 4 = false) :
    sEnc w = ⟨SYNC_CTRL, cat ([(8, 0x33)] ++ kF w 0 4 ++ [(4, 0)] ++ dF w 5 3)⟩ := by
  obtain ⟨c0, c1, c2, c3, c4, c5, c6, c7⟩ := cw_bits h
  change w.c 0 = true at c0
  change w.c 1 = true at c1
  change w.c 2 = true at c2
  change w.c 3 = true at c3
  change w.c 4 = true at c4
  change w.c 5 = false at c5
  change w.c 6 = false at c6
  change w.c 7 = false at c7
  have he' := he
  simp only [anyErr, r4, List.any_cons, List.any_nil, Bool.or_false, Bool.or_eq_false_iff, Nat.zero_add, Nat.reduceAdd, Nat.add_zero] at he'
  obtain ⟨e0, e1, e2, e3⟩ := he'
  obtain ⟨_, _, na0, nb0, nc0, nd0⟩ := lane_ok c0 e0
  obtain ⟨_, _, na1, nb1, nc1, nd1⟩ := lane_ok c1 e1
  obtain ⟨_, _, na2, nb2, nc2, nd2⟩ := lane_ok c2 e2
  obtain ⟨_, _, na3, nb3, nc3, nd3⟩ := lane_ok c3 e3
  simp [sEnc, anyC, isOs_fb, isOs_fd, kF, dF, Word.k, r1, r2, r3, r4, r5, r6, r7, r8, h4l, na0, nb0, nc0, nd0, na1, nb1, nc1, nd1, na2, nb2, nc2, nd2, na3, nb3, nc3, nd3, not_os nc0 nd0, not_os nc1 nd1, not_os nc2 nd2, not_os nc3 nd3, c0, c1, c2, c3, c4, c5, c6, c7]

theorem term0_senc {w : Word} (h : w.cw = 0xff) (h0l : w.d 0 = 0xfd) (he : anyErr w.e 1 7 = false) :
    sEnc w = ⟨SYNC_CTRL, cat ([(8, 0x87), (7, 0)] ++ kF w 1 7)⟩ := by
  obtain ⟨c0, c1, c2, c3, c4, c5, c6, c7⟩ := cw_bits h
  change w.c 0 = true at c0
  change w.c 1 = true at c1
  change w.c 2 = true at c2
  change w.c 3 = true at c3
  change w.c 4 = true at c4
  change w.c 5 = true at c5
  change w.c 6 = true at c6
  change w.c 7 = true at c7
  have he' := he
  simp only [anyErr, r7, List.any_cons, List.any_nil, Bool.or_false, Bool.or_eq_false_iff, Nat.zero_add, Nat.reduceAdd, Nat.add_zero] at he'
  obtain ⟨e1, e2, e3, e4, e5, e6, e7⟩ := he'
  obtain ⟨_, _, na1, nb1, nc1, nd1⟩ := lane_ok c1 e1
  obtain ⟨_, _, na2, nb2, nc2, nd2⟩ := lane_ok c2 e2
  obtain ⟨_, _, na3, nb3, nc3, nd3⟩ := lane_ok c3 e3
  obtain ⟨_, _, na4, nb4, nc4, nd4⟩ := lane_ok c4 e4
  obtain ⟨_, _, na5, nb5, nc5, nd5⟩ := lane_ok c5 e5
  obtain ⟨_, _, na6, nb6, nc6, nd6⟩ := lane_ok c6 e6
  obtain ⟨_, _, na7, nb7, nc7, nd7⟩ := lane_ok c7 e7
  simp [sEnc, anyC, isOs_fb, isOs_fd, kF, dF, Word.k, r1, r2, r3, r4, r5, r6, r7, r8, h0l, na1, nb1, nc1, nd1, na2, nb2, nc2, nd2, na3, nb3, nc3, nd3, na4, nb4, nc4, nd4, na5, nb5, nc5, nd5, na6, nb6, nc6, nd6, na7, nb7, nc7, nd7, not_os nc1 nd1, not_os nc2 nd2, not_os nc3 nd3, not_os nc4 nd4, not_os nc5 nd5, not_os nc6 nd6, not_os nc7 nd7, c0, c1, c2, c3, c4, c5, c6, c7]

theorem term1_senc {w : Word} (h : w.cw = 0xfe) (h1l : w.d 1 = 0xfd) (he : anyErr w.e 2 6 = false) :
    sEnc w = ⟨SYNC_CTRL, cat ([(8, 0x99)] ++ dF w 0 1 ++ [(6, 0)] ++ kF w 2 6)⟩ := by
  obtain ⟨c0, c1, c2, c3, c4, c5, c6, c7⟩ := cw_bits h
  change w.c 0 = false at c0
  change w.c 1 = true at c1
  change w.c 2 = true at c2
  change w.c 3 = true at c3
  change w.c 4 = true at c4
  change w.c 5 = true at c5
  change w.c 6 = true at c6
  change w.c 7 = true at c7
  have he' := he
  simp only [anyErr, r6, List.any_cons, List.any_nil, Bool.or_false, Bool.or_eq_false_iff, Nat.zero_add, Nat.reduceAdd, Nat.add_zero] at he'
  obtain ⟨e2, e3, e4, e5, e6, e7⟩ := he'
  obtain ⟨_, _, na2, nb2, nc2, nd2⟩ := lane_ok c2 e2
  obtain ⟨_, _, na3, nb3, nc3, nd3⟩ := lane_ok c3 e3
  obtain ⟨_, _, na4, nb4, nc4, nd4⟩ := lane_ok c4 e4
  obtain ⟨_, _, na5, nb5, nc5, nd5⟩ := lane_ok c5 e5
  obtain ⟨_, _, na6, nb6, nc6, nd6⟩ := lane_ok c6 e6
  obtain ⟨_, _, na7, nb7, nc7, nd7⟩ := lane_ok c7 e7
  simp [sEnc, anyC, isOs_fb, isOs_fd, kF, dF, Word.k, r1, r2, r3, r4, r5, r6, r7, r8, h1l, na2, nb2, nc2, nd2, na3, nb3, nc3, nd3, na4, nb4, nc4, nd4, na5, nb5, nc5, nd5, na6, nb6, nc6, nd6, na7, nb7, nc7, nd7, not_os nc2 nd2, not_os nc3 nd3, not_os nc4 nd4, not_os nc5 nd5, not_os nc6 nd6, not_os nc7 nd7, c0, c1, c2, c3, c4, c5, c6, c7]

theorem term2_senc {w : Word} (h : w.cw = 0xfc) (h2l : w.d 2 = 0xfd) (he : anyErr w.e 3 5 = false) :
    sEnc w = ⟨SYNC_CTRL, cat ([(8, 0xaa)] ++ dF w 0 2 ++ [(5, 0)] ++ kF w 3 5)⟩ := by
  obtain ⟨c0, c1, c2, c3, c4, c5, c6, c7⟩ := cw_bits h
  change w.c 0 = false at c0
  change w.c 1 = false at c1
  change w.c 2 = true at c2
  change w.c 3 = true at c3
  change w.c 4 = true at c4
  change w.c 5 = true at c5
  change w.c 6 = true at c6
  change w.c 7 = true at c7
  have he' := he
  simp only [anyErr, r5, List.any_cons, List.any_nil, Bool.or_false, Bool.or_eq_false_iff, Nat.zero_add, Nat.reduceAdd, Nat.add_zero] at he'
  obtain ⟨e3, e4, e5, e6, e7⟩ := he'
  obtain ⟨_, _, na3, nb3, nc3, nd3⟩ := lane_ok c3 e3
  obtain ⟨_, _, na4, nb4, nc4, nd4⟩ := lane_ok c4 e4
  obtain ⟨_, _, na5, nb5, nc5, nd5⟩ := lane_ok c5 e5
  obtain ⟨_, _, na6, nb6, nc6, nd6⟩ := lane_ok c6 e6
  obtain ⟨_, _, na7, nb7, nc7, nd7⟩ := lane_ok c7 e7
  simp [sEnc, anyC, isOs_fb, isOs_fd, kF, dF, Word.k, r1, r2, r3, r4, r5, r6, r7, r8, h2l, na3, nb3, nc3, nd3, na4, nb4, nc4, nd4, na5, nb5, nc5, nd5, na6, nb6, nc6, nd6, na7, nb7, nc7, nd7, not_os nc3 nd3, not_os nc4 nd4, not_os nc5 nd5, not_os nc6 nd6, not_os nc7 nd7, c0, c1, c2, c3, c4, c5, c6, c7]

theorem term3_senc {w : Word} (h : w.cw = 0xf8) (h3l : w.d 3 = 0xfd) (he : anyErr w.e 4 4 = false) :
    sEnc w = ⟨SYNC_CTRL, cat ([(8, 0xb4)] ++ dF w 0 3 ++ [(4, 0)] ++ kF w 4 4)⟩ := by
  obtain ⟨c0, c1, c2, c3, c4, c5, c6, c7⟩ := cw_bits h
  change w.c 0 = false at c0
  change w.c 1 = false at c1
  change w.c 2 = false at c2
  change w.c 3 = true at c3
  change w.c 4 = true at c4
  change w.c 5 = true at c5
  change w.c 6 = true at c6
  change w.c 7 = true at c7
  have he' := he
  simp only [anyErr, r4, List.any_cons, List.any_nil, Bool.or_false, Bool.or_eq_false_iff, Nat.zero_add, Nat.reduceAdd, Nat.add_zero] at he'
  obtain ⟨e4, e5, e6, e7⟩ := he'
  obtain ⟨_, _, na4, nb4, nc4, nd4⟩ := lane_ok c4 e4
  obtain ⟨_, _, na5, nb5, nc5, nd5⟩ := lane_ok c5 e5
  obtain ⟨_, _, na6, nb6, nc6, nd6⟩ := lane_ok c6 e6
  obtain ⟨_, _, na7, nb7, nc7, nd7⟩ := lane_ok c7 e7
  simp [sEnc, anyC, isOs_fb, isOs_fd, kF, dF, Word.k, r1, r2, r3, r4, r5, r6, r7, r8, h3l, na4, nb4, nc4, nd4, na5, nb5, nc5, nd5, na6, nb6, nc6, nd6, na7, nb7, nc7, nd7, not_os nc4 nd4, not_os nc5 nd5, not_os nc6 nd6, not_os nc7 nd7, c0, c1, c2, c3, c4, c5, c6, c7]

theorem term4_senc {w : Word} (h : w.cw = 0xf0) (h4l : w.d 4 = 0xfd) (he : anyErr w.e 5 3 = false) :
    sEnc w = ⟨SYNC_CTRL, cat ([(8, 0xcc)] ++ dF w 0 4 ++ [(3, 0)] ++ kF w 5 3)⟩ := by
  obtain ⟨c0, c1, c2, c3, c4, c5, c6, c7⟩ := cw_bits h
  change w.c 0 = false at c0
  change w.c 1 = false at c1
  change w.c 2 = false at c2
  change w.c 3 = false at c3
  change w.c 4 = true at c4
  change w.c 5 = true at c5
  change w.c 6 = true at c6
  change w.c 7 = true at c7
  have he' := he
  simp only [anyErr, r3, List.any_cons, List.any_nil, Bool.or_false, Bool.or_eq_false_iff, Nat.zero_add, Nat.reduceAdd, Nat.add_zero] at he'
  obtain ⟨e5, e6, e7⟩ := he'
  obtain ⟨_, _, na5, nb5, nc5, nd5⟩ := lane_ok c5 e5
  obtain ⟨_, _, na6, nb6, nc6, nd6⟩ := lane_ok c6 e6
  obtain ⟨_, _, na7, nb7, nc7, nd7⟩ := lane_ok c7 e7
  simp [sEnc, anyC, isOs_fb, isOs_fd, kF, dF, Word.k, r1, r2, r3, r4, r5, r6, r7, r8, h4l, na5, nb5, nc5, nd5, na6, nb6, nc6, nd6, na7, nb7, nc7, nd7, not_os nc5 nd5, not_os nc6 nd6, not_os nc7 nd7, c0, c1, c2, c3, c4, c5, c6, c7]

theorem term5_senc {w : Word} (h : w.cw = 0xe0) (h5l : w.d 5 = 0xfd) (he : anyErr w.e 6 2 = false) :
    sEnc w = ⟨SYNC_CTRL, cat ([(8, 0xd2)] ++ dF w 0 5 ++ [(2, 0)] ++ kF w 6 2)⟩ := by
  obtain ⟨c0, c1, c2, c3, c4, c5, c6, c7⟩ := cw_bits h
  change w.c 0 = false at c0
  change w.c 1 = false at c1
  change w.c 2 = false at c2
  change w.c 3 = false at c3
  change w.c 4 = false at c4
  change w.c 5 = true at c5
  change w.c 6 = true at c6
  change w.c 7 = true at c7
  have he' := he
  simp only [anyErr, r2, List.any_cons, List.any_nil, Bool.or_false, Bool.or_eq_false_iff, Nat.zero_add, Nat.reduceAdd, Nat.add_zero] at he'
  obtain ⟨e6, e7⟩ := he'
  obtain ⟨_, _, na6, nb6, nc6, nd6⟩ := lane_ok c6 e6
  obtain ⟨_, _, na7, nb7, nc7, nd7⟩ := lane_ok c7 e7
  simp [sEnc, anyC, isOs_fb, isOs_fd, kF, dF, Word.k, r1, r2, r3, r4, r5, r6, r7, r8, h5l, na6, nb6, nc6, nd6, na7, nb7, nc7, nd7, not_os nc6 nd6, not_os nc7 nd7, c0, c1, c2, c3, c4, c5, c6, c7]

theorem term6_senc {w : Word} (h : w.cw = 0xc0) (h6l : w.d 6 = 0xfd) (he : anyErr w.e 7 1 = false) :
    sEnc w = ⟨SYNC_CTRL, cat ([(8, 0xe1)] ++ dF w 0 6 ++ [(1, 0)] ++ kF w 7 1)⟩ := by
  obtain ⟨c0, c1, c2, c3, c4, c5, c6, c7⟩ := cw_bits h
  change w.c 0 = false at c0
  change w.c 1 = false at c1
  change w.c 2 = false at c2
  change w.c 3 = false at c3
  change w.c 4 = false at c4
  change w.c 5 = false at c5
  change w.c 6 = true at c6
  change w.c 7 = true at c7
  have he' := he
  simp only [anyErr, r1, List.any_cons, List.any_nil, Bool.or_false, Bool.or_eq_false_iff, Nat.zero_add, Nat.reduceAdd, Nat.add_zero] at he'
  have e7 := he'
  obtain ⟨_, _, na7, nb7, nc7, nd7⟩ := lane_ok c7 e7
  simp [sEnc, anyC, isOs_fb, isOs_fd, kF, dF, Word.k, r1, r2, r3, r4, r5, r6, r7, r8, h6l, na7, nb7, nc7, nd7, not_os nc7 nd7, c0, c1, c2, c3, c4, c5, c6, c7]

theorem term7_senc {w : Word} (h : w.cw = 0x80) (h7l : w.d 7 = 0xfd) :
    sEnc w = ⟨SYNC_CTRL, cat ([(8, 0xff)] ++ dF w 0 7)⟩ := by
  obtain ⟨c0, c1, c2, c3, c4, c5, c6, c7⟩ := cw_bits h
  change w.c 0 = false at c0
  change w.c 1 = false at c1
  change w.c 2 = false at c2
  change w.c 3 = false at c3
  change w.c 4 = false at c4
  change w.c 5 = false at c5
  change w.c 6 = false at c6
  change w.c 7 = true at c7
  simp [sEnc, anyC, isOs_fb, isOs_fd, kF, dF, Word.k, r1, r2, r3, r4, r5, r6, r7, r8, h7l, c0, c1, c2, c3, c4, c5, c6, c7]

theorem ctl_senc {w : Word} (h : w.cw = 0xff)  (he : anyErr w.e 0 8 = false) :
    sEnc w = ⟨SYNC_CTRL, cat ([(8, 0x1e)] ++ kF w 0 8)⟩ := by
  obtain ⟨c0, c1, c2, c3, c4, c5, c6, c7⟩ := cw_bits h
  change w.c 0 = true at c0
  change w.c 1 = true at c1
  change w.c 2 = true at c2
  change w.c 3 = true at c3
  change w.c 4 = true at c4
  change w.c 5 = true at c5
  change w.c 6 = true at c6
  change w.c 7 = true at c7
  have he' := he
  simp only [anyErr, r8, List.any_cons, List.any_nil, Bool.or_false, Bool.or_eq_false_iff, Nat.zero_add, Nat.reduceAdd, Nat.add_zero] at he'
  obtain ⟨e0, e1, e2, e3, e4, e5, e6, e7⟩ := he'
  obtain ⟨_, _, na0, nb0, nc0, nd0⟩ := lane_ok c0 e0
  obtain ⟨_, _, na1, nb1, nc1, nd1⟩ := lane_ok c1 e1
  obtain ⟨_, _, na2, nb2, nc2, nd2⟩ := lane_ok c2 e2
  obtain ⟨_, _, na3, nb3, nc3, nd3⟩ := lane_ok c3 e3
  obtain ⟨_, _, na4, nb4, nc4, nd4⟩ := lane_ok c4 e4
  obtain ⟨_, _, na5, nb5, nc5, nd5⟩ := lane_ok c5 e5
  obtain ⟨_, _, na6, nb6, nc6, nd6⟩ := lane_ok c6 e6
  obtain ⟨_, _, na7, nb7, nc7, nd7⟩ := lane_ok c7 e7
  simp [sEnc, anyC, isOs_fb, isOs_fd, kF, dF, Word.k, r1, r2, r3, r4, r5, r6, r7, r8, na0, nb0, nc0, nd0, na1, nb1, nc1, nd1, na2, nb2, nc2, nd2, na3, nb3, nc3, nd3, na4, nb4, nc4, nd4, na5, nb5, nc5, nd5, na6, nb6, nc6, nd6, na7, nb7, nc7, nd7, not_os nc0 nd0, not_os nc1 nd1, not_os nc2 nd2, not_os nc3 nd3, not_os nc4 nd4, not_os nc5 nd5, not_os nc6 nd6, not_os nc7 nd7, c0, c1, c2, c3, c4, c5, c6, c7]

end Corundum.BaseRSerdes
