import Verif.Model.TlpPack
import Verif.Proof.Frames

namespace Corundum.Pcie

theorem and_p (x k : Nat) : x &&& (2 ^ k - 1) = x % 2 ^ k := Nat.and_two_pow_sub_one_eq_mod x k

theorem or_up {x v k : Nat} (h : x < 2 ^ k) : x ||| (v <<< k) = v * 2 ^ k + x := by
  rw [Nat.or_comm]; exact Frames.or_shift h

theorem and_4 (x : Nat) : x &&& 4 = x / 4 % 2 * 4 := by
  have h : x &&& 4 = ((x >>> 2) &&& 1) <<< 2 := by
    apply Nat.eq_of_testBit_eq
    intro i
    rw [Nat.testBit_and, Nat.testBit_shiftLeft]
    by_cases hi : i = 2
    · subst hi
      rw [Nat.testBit_and, Nat.testBit_shiftRight]
      rw [show (4 : Nat).testBit 2 = true from by decide, show (1 : Nat).testBit (2 - 2) = true from by decide]
      simp
    · have h4 : (4 : Nat).testBit i = false := by
        rw [show (4 : Nat) = 2 ^ 2 from rfl, Nat.testBit_two_pow]; simp; omega
      rw [h4, Bool.and_false]
      by_cases h2 : 2 ≤ i
      · rw [Nat.testBit_and]
        have : (1 : Nat).testBit (i - 2) = false := by
          rw [show (1 : Nat) = 2 ^ 0 from rfl, Nat.testBit_two_pow]; simp; omega
        rw [this]; simp
      · simp [h2]
  rw [h, Nat.shiftLeft_eq, Nat.and_two_pow_sub_one_eq_mod (x >>> 2) 1, Nat.shiftRight_eq_div_pow]

theorem id_toInt (i : Id) : i.toInt = (i.bus % 256) * 256 + (i.dev % 32) * 8 + i.fn % 8 := by
  unfold Id.toInt
  rw [show i.bus &&& 0xff = i.bus % 256 from and_p _ 8, show i.dev &&& 0x1f = i.dev % 32 from and_p _ 5,
    show i.fn &&& 7 = i.fn % 8 from and_p _ 3]
  have e : (i.bus % 256) <<< 8 ||| (i.dev % 32) <<< 3 = (i.bus % 256 * 32 + i.dev % 32) <<< 3 := by
    rw [Frames.or_shift (by rw [Nat.shiftLeft_eq]; omega), Nat.shiftLeft_eq, Nat.shiftLeft_eq]; omega
  rw [e, Frames.or_shift (by omega)]
  omega

theorem id_ofInt (v : Nat) : Id.ofInt v = ⟨v / 256 % 256, v / 8 % 32, v % 8⟩ := by
  unfold Id.ofInt
  rw [show (v >>> 8) &&& 0xff = (v >>> 8) % 256 from and_p _ 8, show (v >>> 3) &&& 0x1f = (v >>> 3) % 32 from and_p _ 5,
    show v &&& 7 = v % 8 from and_p _ 3, Nat.shiftRight_eq_div_pow, Nat.shiftRight_eq_div_pow]

def Id.Ok (i : Id) : Prop := i.bus < 256 ∧ i.dev < 32 ∧ i.fn < 8

theorem id_lt (i : Id) : i.toInt < 65536 := by rw [id_toInt]; omega

theorem id_round (i : Id) (h : i.Ok) : Id.ofInt i.toInt = i := by
  obtain ⟨b, d, f⟩ := i
  obtain ⟨h1, h2, h3⟩ := h
  simp only at h1 h2 h3
  rw [id_ofInt, id_toInt]
  simp only
  congr 1 <;> omega

theorem packHead_eq (t : Tlp) : packHead t =
    (t.fmt % 8) * 2 ^ 29 + (t.typ % 32) * 2 ^ 24 + (t.tc % 8) * 2 ^ 20 + (t.attr / 4 % 2) * 2 ^ 18 + (t.th % 2) * 2 ^ 16 +
      (t.td % 2) * 2 ^ 15 + (t.ep % 2) * 2 ^ 14 + (t.attr % 4) * 2 ^ 12 + (t.at' % 4) * 2 ^ 10 + t.length % 1024 := by
  unfold packHead
  rw [show t.length &&& 0x3ff = t.length % 1024 from and_p _ 10, show t.at' &&& 3 = t.at' % 4 from and_p _ 2,
    show t.attr &&& 3 = t.attr % 4 from and_p _ 2, show t.ep &&& 1 = t.ep % 2 from and_p _ 1, show t.td &&& 1 = t.td % 2 from and_p _ 1,
    show t.th &&& 1 = t.th % 2 from and_p _ 1, show t.tc &&& 7 = t.tc % 8 from and_p _ 3, show t.typ &&& 0x1f = t.typ % 32 from and_p _ 5,
    show t.fmt &&& 7 = t.fmt % 8 from and_p _ 3, and_4,
    show (t.attr / 4 % 2 * 4) <<< 16 = (t.attr / 4 % 2) <<< 18 by rw [Nat.shiftLeft_eq, Nat.shiftLeft_eq]; omega]
  rw [or_up (k := 10) (by omega), or_up (k := 12) (by omega), or_up (k := 14) (by omega), or_up (k := 15) (by omega),
    or_up (k := 16) (by omega), or_up (k := 18) (by omega), or_up (k := 20) (by omega), or_up (k := 24) (by omega),
    or_up (k := 29) (by omega)]
  omega

/-- Fields of the first double word in range. -/
structure HeadOk (t : Tlp) : Prop where
  tc : t.tc < 8
  th : t.th < 2
  td : t.td < 2
  ep : t.ep < 2
  attr : t.attr < 8
  at' : t.at' < 4
  typ : t.typ < 32
  fmt : t.fmt < 8

theorem unpackHead_pack (t : Tlp) (h : HeadOk t) (len : Nat)
    (hl : len = if (t.fmt == 2 || t.fmt == 3) && t.length % 1024 == 0 then 1024 else t.length % 1024) :
    unpackHead (packHead t) =
      { fmt := t.fmt, typ := t.typ, tc := t.tc, th := t.th, td := t.td, ep := t.ep, attr := t.attr, at' := t.at', length := len } := by
  obtain ⟨h1, h2, h3, h4, h5, h6, h7, h8⟩ := h
  unfold unpackHead
  rw [packHead_eq]
  generalize hw : (t.fmt % 8) * 2 ^ 29 + (t.typ % 32) * 2 ^ 24 + (t.tc % 8) * 2 ^ 20 + (t.attr / 4 % 2) * 2 ^ 18 + (t.th % 2) * 2 ^ 16 +
      (t.td % 2) * 2 ^ 15 + (t.ep % 2) * 2 ^ 14 + (t.attr % 4) * 2 ^ 12 + (t.at' % 4) * 2 ^ 10 + t.length % 1024 = w
  rw [Nat.mod_eq_of_lt h8, Nat.mod_eq_of_lt h7, Nat.mod_eq_of_lt h1, Nat.mod_eq_of_lt h2, Nat.mod_eq_of_lt h3, Nat.mod_eq_of_lt h4,
    Nat.mod_eq_of_lt h6, Nat.mod_eq_of_lt (show t.attr / 4 < 2 by omega)] at hw
  have hlt : t.length % 1024 < 1024 := Nat.mod_lt _ (by omega)
  have ha4 : t.attr / 4 < 2 := by omega
  have ha0 : t.attr % 4 < 4 := by omega
  have hattr : t.attr / 4 * 2 ^ 2 + t.attr % 4 = t.attr := by omega
  clear h5
  generalize t.attr / 4 = a1 at *
  generalize t.attr % 4 = a0 at *
  generalize t.length % 1024 = l at *
  have sh : ∀ k, w >>> k = w / 2 ^ k := fun k => Nat.shiftRight_eq_div_pow w k
  have e1 : (w >>> 29) &&& 7 = t.fmt := by rw [show (w >>> 29) &&& 7 = (w >>> 29) % 8 from and_p _ 3, sh]; omega
  have e2 : w &&& 0x3ff = l := by rw [show w &&& 0x3ff = w % 1024 from and_p _ 10]; omega
  have e3 : (w >>> 10) &&& 3 = t.at' := by rw [show (w >>> 10) &&& 3 = (w >>> 10) % 4 from and_p _ 2, sh]; omega
  have e4 : (w >>> 12) &&& 3 = a0 := by rw [show (w >>> 12) &&& 3 = (w >>> 12) % 4 from and_p _ 2, sh]; omega
  have e5 : (w >>> 16) &&& 4 = a1 <<< 2 := by rw [and_4, sh, Nat.shiftLeft_eq]; omega
  have e6 : (w >>> 14) &&& 1 = t.ep := by rw [show (w >>> 14) &&& 1 = (w >>> 14) % 2 from and_p _ 1, sh]; omega
  have e7 : (w >>> 15) &&& 1 = t.td := by rw [show (w >>> 15) &&& 1 = (w >>> 15) % 2 from and_p _ 1, sh]; omega
  have e8 : (w >>> 16) &&& 1 = t.th := by rw [show (w >>> 16) &&& 1 = (w >>> 16) % 2 from and_p _ 1, sh]; omega
  have e9 : (w >>> 20) &&& 7 = t.tc := by rw [show (w >>> 20) &&& 7 = (w >>> 20) % 8 from and_p _ 3, sh]; omega
  have e10 : (w >>> 24) &&& 0x1f = t.typ := by rw [show (w >>> 24) &&& 0x1f = (w >>> 24) % 32 from and_p _ 5, sh]; omega
  simp only [e1, e2, e3, e4, e5, e6, e7, e8, e9, e10, ← hl]
  rw [or_up (by omega), hattr]

theorem word3 (a b c i : Nat) (ka kb : Nat) (ha : a < 2 ^ ka) (hb : b * 2 ^ ka + a < 2 ^ kb) (hc : c * 2 ^ kb + (b * 2 ^ ka + a) < 2 ^ 16) :
    a ||| (b <<< ka) ||| (c <<< kb) ||| (i <<< 16) = i * 2 ^ 16 + (c * 2 ^ kb + (b * 2 ^ ka + a)) := by
  rw [or_up ha, or_up hb, or_up hc]

end Corundum.Pcie
