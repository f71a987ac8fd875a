import Verif.Spec.Msi
import Verif.Proof.CfgAccess
/-! Message signalled interrupts. -/
namespace Corundum.Msi
open Corundum.CfgSpace

theorem m15 (k : Nat) : (15 : Nat).testBit k = decide (k < 4) := by
  rw [show (15 : Nat) = 2 ^ 4 - 1 from rfl, Nat.testBit_two_pow_sub_one]

theorem m7 (k : Nat) : (7 : Nat).testBit k = decide (k < 3) := by
  rw [show (7 : Nat) = 2 ^ 3 - 1 from rfl, Nat.testBit_two_pow_sub_one]

theorem m1 (k : Nat) : (1 : Nat).testBit k = decide (k = 0) := by
  rw [show (1 : Nat) = 2 ^ 0 from rfl, Nat.testBit_two_pow]; simp [eq_comm]

theorem mfc (k : Nat) : (0xfffffffc : Nat).testBit k = decide (2 ≤ k ∧ k < 32) := by
  rw [show (0xfffffffc : Nat) = (2 ^ 30 - 1) <<< 2 from rfl, Nat.testBit_shiftLeft, Nat.testBit_two_pow_sub_one, Bool.eq_iff_iff]
  simp; omega

theorem mfc64 (k : Nat) : (0xfffffffffffffffc : Nat).testBit k = decide (2 ≤ k ∧ k < 64) := by
  rw [show (0xfffffffffffffffc : Nat) = (2 ^ 62 - 1) <<< 2 from rfl, Nat.testBit_shiftLeft, Nat.testBit_two_pow_sub_one, Bool.eq_iff_iff]
  simp; omega

theorem mff (k : Nat) : (0xffffffff : Nat).testBit k = decide (k < 32) := by
  rw [show (0xffffffff : Nat) = 2 ^ 32 - 1 from rfl, Nat.testBit_two_pow_sub_one]

theorem m240 (k : Nat) : (240 : Nat).testBit k = decide (4 ≤ k ∧ k < 8) := by
  rw [show (240 : Nat) = (2 ^ 4 - 1) <<< 4 from rfl, Nat.testBit_shiftLeft, Nat.testBit_two_pow_sub_one, Bool.eq_iff_iff]
  simp; omega

theorem low0 {A : Nat} (h : A % 4 = 0) {j : Nat} (hj : j < 2) : A.testBit j = false := by
  have : A = 2 ^ 2 * (A / 4) := by omega
  rw [this, Nat.testBit_two_pow_mul]
  simp; omega

theorem high0 {A n : Nat} (h : A < 2 ^ n) {j : Nat} (hj : n ≤ j) : A.testBit j = false :=
  Nat.testBit_lt_two_pow (Nat.lt_of_lt_of_le h (Nat.pow_le_pow_right (by omega) hj))

/-- the lower half of the address -/
theorem lo_bit (a A : Nat) (hA : A % 4 = 0) (ha : a < 2 ^ 64) (j : Nat) :
    ((byteMaskUpdate a (((15 &&& 15) <<< 0) >>> 0) (((A &&& 0xfffffffc) <<< 0) >>> 0) none) &&& 0xfffffffffffffffc).testBit j = if j < 32 then A.testBit j else a.testBit j := by
  rw [Nat.testBit_and, bmu_bit, mfc64]
  simp only [Nat.and_self, Nat.shiftLeft_zero, Nat.shiftRight_zero, m15, Nat.testBit_and, mfc]
  by_cases h2 : j < 2
  · rw [low0 hA h2]
    simp [show j < 32 by omega, show ¬ (2 ≤ j) by omega]
  · by_cases h3 : j < 32
    · simp [h3, show j / 8 < 4 by omega, show 2 ≤ j by omega, show j < 64 by omega]
    · by_cases h4 : j < 64
      · simp [h3, show ¬ (j / 8 < 4) by omega, show 2 ≤ j by omega, h4]
      · rw [high0 ha (by omega)]
        simp [h3, show ¬ (j / 8 < 4) by omega]

/-- the upper half of the address -/
theorem hi_bit' (a A : Nat) (ha4 : a % 4 = 0) (hA : A < 2 ^ 64) (j : Nat) :
    ((byteMaskUpdate a (((15 &&& 15) <<< 4) >>> 0) ((((A >>> 32) &&& 0xffffffff) <<< 32) >>> 0) none) &&& 0xfffffffffffffffc).testBit j = if j < 32 then a.testBit j else A.testBit j := by
  rw [Nat.testBit_and, bmu_bit, mfc64, show ((15 &&& 15) <<< 4) >>> 0 = 240 from rfl, Nat.shiftRight_zero, Nat.testBit_shiftLeft, Nat.testBit_and, Nat.testBit_shiftRight, mff, m240]
  by_cases h2 : j < 2
  · rw [low0 ha4 h2]
    simp [show j < 32 by omega, show ¬ (2 ≤ j) by omega]
  · by_cases h3 : j < 32
    · simp [h3, show ¬ (4 ≤ j / 8) by omega, show 2 ≤ j by omega, show j < 64 by omega]
    · by_cases h4 : j < 64
      · simp [h3, show 4 ≤ j / 8 by omega, show j / 8 < 8 by omega, show 2 ≤ j by omega, h4, show 32 ≤ j by omega, show j - 32 < 32 by omega, show 32 + (j - 32) = j by omega]
      · simp [h3, h4, high0 hA (show 64 ≤ j by omega)]

theorem data_val (a d : Nat) (ha : a < 2 ^ 16) : (byteMaskUpdate a (((15 &&& 3) <<< 0) >>> 0) ((d <<< 0) >>> 0) none) &&& 0xffff = d % 65536 := by
  apply Nat.eq_of_testBit_eq
  intro j
  rw [show (0xffff : Nat) = 2 ^ 16 - 1 from rfl, Nat.testBit_and, Nat.testBit_two_pow_sub_one, bmu_bit, show (65536 : Nat) = 2 ^ 16 from rfl, Nat.testBit_mod_two_pow,
    show ((15 &&& 3) <<< 0) >>> 0 = 2 ^ 2 - 1 from rfl, Nat.testBit_two_pow_sub_one]
  by_cases h : j < 16
  · simp [h, show j / 8 < 2 by omega]
  · simp [h]

theorem upd_and (o : Obj) (a : Attr) (mm ml mr dl dr v data mask : Nat) :
    ∃ o', assign data mask o [.upd a mm ml mr dl dr none, .and a v] = some o' ∧ o' a = byteMaskUpdate (o a) (((mask &&& mm) <<< ml) >>> mr) ((data <<< dl) >>> dr) none &&& v ∧ ∀ b, b ≠ a → o' b = o b := by
  refine ⟨_, rfl, ?_, ?_⟩
  · simp [Obj.put]
  · intro b hb; simp [Obj.put, hb]

/-- the control register -/
theorem ctrl_bits {f : Fn} (L : Layout f) {c : Cap} (hc : c ∈ f.caps) (hk : c.kind = .msi) (hn : c.next ≠ none) :
    ∃ ctrl, f.read c.off = some ctrl ∧ (ctrl >>> 17) &&& 7 = f.obj .msi_multiple_message_capable ∧ ((ctrl >>> 23) &&& 1 ≠ 0 ↔ f.b64 = true) := by
  have hr : 0 < c.kind.len := by rw [hk]; decide
  have h := read_cap L hc hr
  rw [Nat.add_zero, cap_read_eq, hk] at h
  cases hnx : c.next with
  | none => exact absurd hnx hn
  | some n =>
    rw [hnx] at h
    have hok : ([.flag .msi_enable 16, .fld .msi_multiple_message_capable (some 7) 17 0, .fld .msi_multiple_message_enable (some 7) 20 0, .flag .msi_64bit_address_capable 23, .flag .msi_per_vector_mask_capable 24] : List Rd).all Rd.ok = true := by decide
    refine ⟨_, h, ?_, ?_⟩
    · apply Nat.eq_of_testBit_eq
      intro i
      rw [Nat.testBit_and, Nat.testBit_shiftRight, m7]
      by_cases hi : i < 3
      · rw [Nat.or_assoc, Nat.testBit_or, Nat.testBit_and, CfgSpace.hi_bit _ (by omega), low_bit _ _ _ (by omega), value_bit L.attr _ hok]
        have : ∀ i < 3, ([.flag .msi_enable 16, .fld .msi_multiple_message_capable (some 7) 17 0, .fld .msi_multiple_message_enable (some 7) 20 0, .flag .msi_64bit_address_capable 23, .flag .msi_per_vector_mask_capable 24] : List Rd).flatMap (Rd.src (17 + i)) = [.bit .msi_multiple_message_capable i] := by decide
        rw [this i hi]
        simp [hi, Src.eval, show 16 ≤ 17 + i by omega]
      · rw [high0 (L.attr .msi_multiple_message_capable) (show 3 ≤ i by omega)]
        simp [hi]
    · have hb : ∀ x : Nat, x &&& 1 ≠ 0 ↔ x.testBit 0 = true := by
        intro x; rw [Nat.and_one_is_mod]
        rw [Nat.testBit_zero]; simp
      rw [hb, Nat.testBit_shiftRight, Nat.or_assoc, Nat.testBit_or, Nat.testBit_and, CfgSpace.hi_bit _ (by omega), low_bit _ _ _ (by omega), value_bit L.attr _ hok]
      have : ([.flag .msi_enable 16, .fld .msi_multiple_message_capable (some 7) 17 0, .fld .msi_multiple_message_enable (some 7) 20 0, .flag .msi_64bit_address_capable 23, .flag .msi_per_vector_mask_capable 24] : List Rd).flatMap (Rd.src 23) = [.bit .msi_64bit_address_capable 0] := by decide
      rw [show 23 + 0 = 23 from rfl, this]
      have hw := L.attr .msi_64bit_address_capable
      simp only [Attr.width] at hw
      unfold Fn.b64
      have : f.obj .msi_64bit_address_capable = 0 ∨ f.obj .msi_64bit_address_capable = 1 := by omega
      rcases this with e | e <;> simp [Src.eval, e]

theorem enable_val (ctrl m : Nat) : ((andNot ctrl (7 <<< 20) ||| (1 <<< 16) ||| (m <<< 20)) >>> 16) &&& 1 = 1 := by
  apply Nat.eq_of_testBit_eq
  intro i
  rw [Nat.testBit_and, Nat.testBit_shiftRight, Nat.testBit_or, Nat.testBit_or, Nat.one_shiftLeft, Nat.testBit_two_pow, m1]
  by_cases h : i = 0
  · subst h; simp
  · simp [h]

theorem mme_val (ctrl m : Nat) (hm : m < 8) : ((andNot ctrl (7 <<< 20) ||| (1 <<< 16) ||| (m <<< 20)) >>> 20) &&& 7 = m := by
  apply Nat.eq_of_testBit_eq
  intro i
  rw [Nat.testBit_and, Nat.testBit_shiftRight, Nat.testBit_or, Nat.testBit_or, Nat.one_shiftLeft, Nat.testBit_two_pow, m7, andNot_bit, Nat.testBit_shiftLeft, Nat.testBit_shiftLeft, m7]
  by_cases h : i < 3
  · simp [h, show ¬ (16 = 20 + i) by omega]
  · rw [high0 (show m < 2 ^ 3 from hm) (show 3 ≤ i by omega)]; simp [h]

/-- a register write through its assignments -/
theorem write_via {f : Fn} (L : Layout f) {c : Cap} (hc : c ∈ f.caps) {r : Nat} (hr : r < c.kind.len) {data : Nat} {o : Obj} (h : assign data 15 f.obj (kWr f.b64 f.mcap c.kind r) = some o) :
    f.write (c.off + r) data 15 = some { f with obj := o } ∧ Layout { f with obj := o } ∧ Kept f { f with obj := o } := by
  have hw : f.write (c.off + r) data 15 = some { f with obj := o } := by rw [write_cap L hc hr, h]; rfl
  exact ⟨hw, write_keeps L (by omega) hw⟩

/-- what `configure_msi` does to the device -/
theorem setup_ok {f : Fn} (L : Layout f) {c : Cap} (hc : c ∈ f.caps) (hk : c.kind = .msi) (hn : c.next ≠ none) {A limit : Nat} (hA : A % 4 = 0) (hA64 : A < 2 ^ 64)
    (h64 : f.obj .msi_64bit_address_capable ≠ 0 ∨ (A < 2 ^ 32 ∧ f.obj .msi_message_address < 2 ^ 32)) :
    ∃ f', setup f c.off A limit = some f' ∧ Layout f' ∧ Kept f f' ∧ f'.obj .msi_enable = 1 ∧ f'.obj .msi_multiple_message_enable = f.obj .msi_multiple_message_capable ∧
      f'.obj .msi_multiple_message_capable = f.obj .msi_multiple_message_capable ∧ f'.obj .msi_message_address = A ∧ f'.obj .msi_message_data = limit % 65536 ∧ f'.obj .msi_mask_bits = f.obj .msi_mask_bits := by
  have hlen : c.kind.len = 6 := by rw [hk]; rfl
  obtain ⟨ctrl, hctrl, hmm, hb64⟩ := ctrl_bits L hc hk hn
  have hmc := L.attr .msi_multiple_message_capable
  have hmc : f.obj .msi_multiple_message_capable < 8 := hmc
  -- lower half
  obtain ⟨o1, ho1, ha1, hs1⟩ := upd_and f.obj .msi_message_address 15 0 0 0 0 0xfffffffffffffffc (A &&& 0xfffffffc) 15
  obtain ⟨w1, L1, K1⟩ := write_via L hc (r := 1) (by omega) (data := A &&& 0xfffffffc) (o := o1) (by rw [hk]; exact ho1)
  have hbit1 := lo_bit (f.obj .msi_message_address) A hA (L.attr .msi_message_address)
  rw [← ha1] at hbit1
  have e1b : Fn.b64 { f with obj := o1 } = f.b64 := by unfold Fn.b64; rw [K1.b64]
  have e1m : Fn.mcap { f with obj := o1 } = f.mcap := by unfold Fn.mcap; rw [K1.mcap]
  -- the last two steps
  have fin : ∀ (g : Fn), Layout g → Kept f g → g.caps = f.caps → g.obj .msi_message_address = A → g.obj .msi_message_data = limit % 65536 →
      g.obj .msi_multiple_message_capable = f.obj .msi_multiple_message_capable → g.obj .msi_mask_bits = f.obj .msi_mask_bits →
      ∃ f', g.write c.off (andNot ctrl (7 <<< 20) ||| (1 <<< 16) ||| (((ctrl >>> 17) &&& 7) <<< 20)) 15 = some f' ∧ Layout f' ∧ Kept f f' ∧ f'.obj .msi_enable = 1 ∧
        f'.obj .msi_multiple_message_enable = f.obj .msi_multiple_message_capable ∧ f'.obj .msi_multiple_message_capable = f.obj .msi_multiple_message_capable ∧
        f'.obj .msi_message_address = A ∧ f'.obj .msi_message_data = limit % 65536 ∧ f'.obj .msi_mask_bits = f.obj .msi_mask_bits := by
    intro g Lg Kg hcaps h1 h2 h3 h4
    obtain ⟨o, ho⟩ := assign_calm (andNot ctrl (7 <<< 20) ||| (1 <<< 16) ||| (((ctrl >>> 17) &&& 7) <<< 20)) 15 [.set .msi_enable 0 1 16 2, .set .msi_multiple_message_enable 0 7 20 2] g.obj rfl
    obtain ⟨w, Lw, Kw⟩ := write_via Lg (c := c) (by rw [hcaps]; exact hc) (r := 0) (by omega) (o := o) (by rw [hk]; exact ho)
    have hsame : ∀ a, a ≠ .msi_enable → a ≠ .msi_multiple_message_enable → o a = g.obj a := by
      intro a ha1 ha2
      exact assign_attr _ _ a _ _ _ ho (by simp [Wr.attr, Ne.symm ha1, Ne.symm ha2])
    have hv : o .msi_enable = 1 ∧ o .msi_multiple_message_enable = f.obj .msi_multiple_message_capable := by
      rw [assign_cons, Wr.app, if_pos (by decide), Option.bind_some, assign_cons, Wr.app, if_pos (by decide), Option.bind_some] at ho
      cases ho
      constructor
      · rw [put_ne _ _ _ _ (by decide), put_same, enable_val]; simp
      · rw [put_same, hmm, mme_val _ _ hmc]; simp
    refine ⟨_, w, Lw, Kg.trans Kw, hv.1, hv.2, ?_, ?_, ?_, ?_⟩
    · show o _ = _; rw [hsame _ (by decide) (by decide), h3]
    · show o _ = _; rw [hsame _ (by decide) (by decide), h1]
    · show o _ = _; rw [hsame _ (by decide) (by decide), h2]
    · show o _ = _; rw [hsame _ (by decide) (by decide), h4]
  have unfold_setup : ∀ g, setupData { f with obj := o1 } ((ctrl >>> 23) &&& 1 != 0) c.off A limit = some g →
      setup f c.off A limit = g.write c.off (andNot ctrl (7 <<< 20) ||| (1 <<< 16) ||| (((ctrl >>> 17) &&& 7) <<< 20)) 15 := by
    intro g hg
    unfold setup
    rw [hctrl]
    simp only [Option.bind_eq_bind, Option.bind_some]
    rw [w1]
    simp only [Option.bind_some]
    rw [hg]; rfl
  cases hb : f.b64 with
  | true =>
    rw [hb] at e1b
    have ha4 : o1 .msi_message_address % 4 = 0 := by
      have : o1 .msi_message_address % 2 ^ 2 = 0 := by
        apply Nat.eq_of_testBit_eq
        intro j
        rw [Nat.testBit_mod_two_pow, hbit1, Nat.zero_testBit]
        by_cases hj : j < 2
        · rw [if_pos (by omega), low0 hA hj]; simp
        · simp [hj]
      exact this
    obtain ⟨o2, ho2, ha2, hs2⟩ := upd_and o1 .msi_message_address 15 4 0 32 0 0xfffffffffffffffc ((A >>> 32) &&& 0xffffffff) 15
    obtain ⟨w2, L2, K2⟩ := write_via L1 hc (r := 2) (by omega) (data := (A >>> 32) &&& 0xffffffff) (o := o2) (by rw [hk, e1b]; exact ho2)
    have hbit2 := hi_bit' (o1 .msi_message_address) A ha4 hA64
    rw [← ha2] at hbit2
    have e2b : Fn.b64 { f with obj := o2 } = true := by rw [← e1b]; unfold Fn.b64; rw [K2.b64]
    obtain ⟨o3, ho3, ha3, hs3⟩ := upd_and o2 .msi_message_data 3 0 0 0 0 0xffff limit 15
    obtain ⟨w3, L3, K3⟩ := write_via L2 hc (r := 3) (by omega) (data := limit) (o := o3) (by rw [hk, e2b]; exact ho3)
    rw [data_val _ _ (L2.attr .msi_message_data)] at ha3
    have hg : setupData { f with obj := o1 } ((ctrl >>> 23) &&& 1 != 0) c.off A limit = some { f with obj := o3 } := by
      have e : ((ctrl >>> 23) &&& 1 != 0) = true := by simpa using hb64.2 hb
      unfold setupData
      rw [e, if_pos rfl, w2]; exact w3
    rw [unfold_setup _ hg]
    refine fin { f with obj := o3 } L3 ((K1.trans K2).trans K3) rfl ?_ ha3 ?_ ?_
    · show o3 _ = _
      rw [hs3 _ (by decide)]
      apply Nat.eq_of_testBit_eq
      intro j
      rw [hbit2, hbit1]
      split <;> rfl
    · show o3 _ = _; rw [hs3 _ (by decide), hs2 _ (by decide), hs1 _ (by decide)]
    · show o3 _ = _; rw [hs3 _ (by decide), hs2 _ (by decide), hs1 _ (by decide)]
  | false =>
    rw [hb] at e1b
    obtain ⟨o3, ho3, ha3, hs3⟩ := upd_and o1 .msi_message_data 3 0 0 0 0 0xffff limit 15
    obtain ⟨w3, L3, K3⟩ := write_via L1 hc (r := 2) (by omega) (data := limit) (o := o3) (by rw [hk, e1b]; exact ho3)
    rw [data_val _ _ (L1.attr .msi_message_data)] at ha3
    have hg : setupData { f with obj := o1 } ((ctrl >>> 23) &&& 1 != 0) c.off A limit = some { f with obj := o3 } := by
      have e : ((ctrl >>> 23) &&& 1 != 0) = false := by
        apply Bool.eq_false_iff.2
        intro h
        rw [hb64.1 (by simpa using h)] at hb; cases hb
      unfold setupData
      rw [e, if_neg (by simp)]; exact w3
    rw [unfold_setup _ hg]
    refine fin { f with obj := o3 } L3 (K1.trans K3) rfl ?_ ha3 ?_ ?_
    · show o3 _ = _
      rw [hs3 _ (by decide)]
      obtain ⟨hlt, hlt'⟩ : A < 2 ^ 32 ∧ f.obj .msi_message_address < 2 ^ 32 := by
        rcases h64 with h | h
        · unfold Fn.b64 at hb; simp at hb; exact absurd hb h
        · exact h
      apply Nat.eq_of_testBit_eq
      intro j
      rw [hbit1]
      split
      · rfl
      · rw [high0 hlt (by omega), high0 hlt' (by omega)]
    · show o3 _ = _; rw [hs3 _ (by decide), hs1 _ (by decide)]
    · show o3 _ = _; rw [hs3 _ (by decide), hs1 _ (by decide)]

/-! ### executions -/

section
variable {H : Type}

def isOn (d : Nat) (pre : List (Op H)) : Bool := pre.any fun op => match op with
  | .configure e => decide (e = d)
  | .register .. => false

theorem isOn_iff (d : Nat) (pre : List (Op H)) : isOn d pre = true ↔ Configured pre d := by
  unfold isOn Configured
  rw [List.any_eq_true]
  constructor
  · rintro ⟨op, h1, h2⟩
    cases op with
    | configure e => simp only [decide_eq_true_eq] at h2; rw [h2] at h1; exact h1
    | register => cases h2
  · intro h; exact ⟨_, h, by simp⟩

theorem handlers_snoc (d n : Nat) (op : Op H) : ∀ (pre : List (Op H)) (on : Bool), handlers d n on (pre ++ [op]) = handlers d n on pre ++ (match op with
    | .configure _ => []
    | .register e k h => if (on || isOn d pre) = true ∧ e = d ∧ k = n then [h] else [])
  | [], on => by
    cases op with
    | configure e => rfl
    | register e k h => simp only [List.nil_append, handlers, isOn, List.any_nil, Bool.or_false]
  | .configure e :: pre, on => by
    rw [List.cons_append, handlers, handlers_snoc d n op pre, handlers]
    cases op with
    | configure e' => rfl
    | register e' k h =>
      have : isOn d (.configure e :: pre) = (decide (e = d) || isOn d pre) := rfl
      simp only [this, Bool.or_assoc]
  | .register e k h :: pre, on => by
    have e1 : ∀ l : List (Op H), isOn d (.register e k h :: l) = isOn d l := fun l => by simp [isOn]
    rw [List.cons_append, handlers, handlers]
    split
    · rw [handlers_snoc d n op pre, List.cons_append]
      cases op with
      | configure e' => rfl
      | register e' k' h' => simp only [e1]
    · rw [handlers_snoc d n op pre]
      cases op with
      | configure e' => rfl
      | register e' k' h' => simp only [e1]

structure Inv (s0 : Sys H) (pre : List (Op H)) (s : Sys H) : Prop where
  addr : s.addr = s0.addr
  lim : s.limit % 32 = 0
  limc : s.limit ≤ 32 * confs pre
  table : ∀ t, s.limit ≤ t → s.table t = none
  off : ∀ d, ¬ Configured pre d → s.devs d = s0.devs d
  on : ∀ d, Configured pre d → ∃ m, (s.devs d).data = some m ∧ m % 32 = 0 ∧ m + 32 ≤ s.limit ∧
    (s.devs d).fn.obj .msi_enable = 1 ∧ (s.devs d).fn.obj .msi_multiple_message_enable = (s0.devs d).fn.obj .msi_multiple_message_capable ∧
    (s.devs d).fn.obj .msi_multiple_message_capable = (s0.devs d).fn.obj .msi_multiple_message_capable ∧ (s.devs d).fn.obj .msi_message_address = s0.addr ∧
    (s.devs d).fn.obj .msi_message_data = m % 65536 ∧ (s.devs d).fn.obj .msi_mask_bits = (s0.devs d).fn.obj .msi_mask_bits ∧ ∀ n < 32, s.table (m + n) = some (handlers d n false pre)
  disj : ∀ d e m, (s.devs d).data = some m → (s.devs e).data = some m → d = e

theorem capOff_of {f : Fn} (L : Layout f) {c : Cap} (hc : c ∈ f.caps) (hk : c.kind = .msi) : capOff f = some c.off := by
  unfold capOff
  cases h : f.caps.find? fun c => decide (c.kind = .msi) with
  | none => have := List.find?_eq_none.1 h c hc; simp [hk] at this
  | some d =>
    have h1 := List.mem_of_find?_eq_some h
    have h2 := List.find?_some h
    simp only [decide_eq_true_eq] at h2
    rw [L.kind_inj h1 hc (h2.trans hk.symm)]; rfl

theorem configured_snoc (pre : List (Op H)) (op : Op H) (d : Nat) : Configured (pre ++ [op]) d ↔ Configured pre d ∨ op = .configure d := by
  unfold Configured; rw [List.mem_append, List.mem_singleton, eq_comm]

theorem configure_eq {s0 s : Sys H} {pre : List (Op H)} (R : Ready s0) (I : Inv s0 pre s) {d : Nat} (hd : ¬ Configured pre d) {c : Cap} (hc : c ∈ (s0.devs d).fn.caps) (hk : c.kind = .msi) {f' : Fn}
    (hf : setup (s0.devs d).fn c.off s0.addr s.limit = some f') : configure s d = some { s with
      limit := s.limit + 32
      table := fun t => if s.limit ≤ t ∧ t < s.limit + 32 then some [] else s.table t
      devs := fun e => if e = d then ⟨f', some s.limit⟩ else s.devs e } := by
  have hdev := I.off d hd
  have hf' : setup (s.devs d).fn c.off s.addr s.limit = some f' := by rw [hdev, I.addr]; exact hf
  have h1 : capOff (s.devs d).fn = some c.off := by rw [hdev]; exact capOff_of (R.devs d).2.1 hc hk
  have h2 : (s.devs d).data = none := by rw [hdev]; exact (R.devs d).1
  unfold configure
  rw [h1, h2]
  simp only
  rw [hf']; rfl

/-- a device that was not configured gets the next 32 messages -/
theorem configure_new {s0 s : Sys H} {pre : List (Op H)} (R : Ready s0) (I : Inv s0 pre s) {d : Nat} (hd : ¬ Configured pre d) :
    ∃ s', step s (.configure d) = some s' ∧ s'.limit = s.limit + 32 ∧ (s'.devs d).data = some s.limit ∧ ∀ e, e ≠ d → s'.devs e = s.devs e := by
  obtain ⟨r1, r2, ⟨c, hc, hk, hn⟩, r4, r5⟩ := R.devs d
  obtain ⟨f', hf, -⟩ := setup_ok r2 hc hk hn (A := s0.addr) (limit := s.limit) R.addr R.addr64 r4
  refine ⟨_, configure_eq R I hd hc hk hf, rfl, by simp, ?_⟩
  intro e he
  dsimp only
  rw [if_neg he]

theorem inv_step {s0 s : Sys H} {pre : List (Op H)} (R : Ready s0) (I : Inv s0 pre s) (op : Op H) (hs : match op with
    | .register _ n _ => n < 32
    | .configure _ => True) : ∃ s', step s op = some s' ∧ Inv s0 (pre ++ [op]) s' := by
  cases op with
  | configure d =>
    have hcount : confs (pre ++ [.configure d]) = confs pre + 1 := by unfold confs; rw [List.countP_append]; rfl
    obtain ⟨r1, r2, ⟨c, hc, hk, hn⟩, r4, r5⟩ := R.devs d
    by_cases hd : Configured pre d
    · -- already configured
      obtain ⟨m, hm, rest⟩ := I.on d hd
      refine ⟨s, ?_, ⟨I.addr, I.lim, by rw [hcount]; have := I.limc; omega, I.table, ?_, ?_, I.disj⟩⟩
      · show configure s d = some s
        unfold configure
        rw [hm]
        cases capOff (s.devs d).fn <;> rfl
      · intro e he
        exact I.off e fun h => he ((configured_snoc ..).2 (Or.inl h))
      · intro e he
        have he' : Configured pre e := by
          rcases (configured_snoc ..).1 he with h | h
          · exact h
          · cases h; exact hd
        obtain ⟨m, h⟩ := I.on e he'
        refine ⟨m, h.1, h.2.1, h.2.2.1, h.2.2.2.1, h.2.2.2.2.1, h.2.2.2.2.2.1, h.2.2.2.2.2.2.1, h.2.2.2.2.2.2.2.1, h.2.2.2.2.2.2.2.2.1, ?_⟩
        intro n hn
        rw [h.2.2.2.2.2.2.2.2.2 n hn, handlers_snoc, List.append_nil]
    · have hdev := I.off d hd
      obtain ⟨f', hf, L', K, a1, a2, a3, a4, a5, a6⟩ := setup_ok r2 hc hk hn (A := s0.addr) (limit := s.limit) R.addr R.addr64 r4
      have hcfg := configure_eq R I hd hc hk hf
      refine ⟨_, hcfg, ⟨I.addr, ?_, ?_, ?_, ?_, ?_, ?_⟩⟩
      · have := I.lim; dsimp only; omega
      · rw [hcount]; have := I.limc; dsimp only; omega
      · intro t ht
        dsimp only at ht ⊢
        rw [if_neg (by omega)]; exact I.table t (by omega)
      · intro e he
        have h1 : ¬ Configured pre e := fun h => he ((configured_snoc ..).2 (Or.inl h))
        have h2 : e ≠ d := fun h => he ((configured_snoc ..).2 (Or.inr (by rw [h])))
        dsimp only
        rw [if_neg h2]; exact I.off e h1
      · intro e he
        by_cases hed : e = d
        · subst hed
          refine ⟨s.limit, ?_⟩
          dsimp only
          rw [if_pos rfl]
          refine ⟨rfl, I.lim, Nat.le_refl _, a1, a2, a3, a4, a5, a6, ?_⟩
          intro n hn
          rw [if_pos (by omega), handlers_snoc, List.append_nil]
          have : ∀ (l : List (Op H)) , ¬ Configured l e → handlers e n false l = [] := by
            intro l
            induction l with
            | nil => intro _; rfl
            | cons op l ih =>
              intro hl
              have hl' : ¬ Configured l e := fun h => hl (List.mem_cons_of_mem _ h)
              cases op with
              | configure x =>
                have : x ≠ e := fun h => hl (by rw [h]; exact List.mem_cons_self ..)
                rw [handlers, decide_eq_false this]; exact ih hl'
              | register x k h => rw [handlers, if_neg (by simp)]; exact ih hl'
          rw [this pre hd]
        · have he' : Configured pre e := by
            rcases (configured_snoc ..).1 he with h | h
            · exact h
            · cases h; exact absurd rfl hed
          obtain ⟨m, h⟩ := I.on e he'
          refine ⟨m, ?_⟩
          dsimp only
          rw [if_neg hed]
          refine ⟨h.1, h.2.1, by have := h.2.2.1; omega, h.2.2.2.1, h.2.2.2.2.1, h.2.2.2.2.2.1, h.2.2.2.2.2.2.1, h.2.2.2.2.2.2.2.1, h.2.2.2.2.2.2.2.2.1, ?_⟩
          intro n hn
          have := h.2.2.1
          rw [if_neg (by omega), h.2.2.2.2.2.2.2.2.2 n hn, handlers_snoc, List.append_nil]
      · intro x y m hx hy
        dsimp only at hx hy
        have old : ∀ z m, (s.devs z).data = some m → m + 32 ≤ s.limit := by
          intro z m hz
          by_cases hzc : Configured pre z
          · obtain ⟨m', h⟩ := I.on z hzc
            rw [h.1] at hz
            have := h.2.2.1
            cases hz; exact this
          · rw [I.off z hzc, (R.devs z).1] at hz; cases hz
        by_cases hxd : x = d <;> by_cases hyd : y = d
        · rw [hxd, hyd]
        · rw [if_pos hxd] at hx; rw [if_neg hyd] at hy
          cases hx
          have := old y _ hy; omega
        · rw [if_neg hxd] at hx; rw [if_pos hyd] at hy
          cases hy
          have := old x _ hx; omega
        · rw [if_neg hxd] at hx; rw [if_neg hyd] at hy
          exact I.disj x y m hx hy
  | register d k h =>
    simp only at hs
    have hcount : confs (pre ++ [.register d k h]) = confs pre := by unfold confs; rw [List.countP_append]; rfl
    have hcf : ∀ e, Configured (pre ++ [.register d k h]) e ↔ Configured pre e := by
      intro e; rw [configured_snoc]; exact ⟨fun h => h.elim id (fun h => by cases h), Or.inl⟩
    refine ⟨_, rfl, ?_⟩
    by_cases hd : Configured pre d
    · obtain ⟨m, hm, hm32, hml, b1, b2, b3, b4, b5, b6, htab⟩ := I.on d hd
      have hr : register s d k h = { s with table := fun t => if t = m + k then some (handlers d k false pre ++ [h]) else s.table t } := by
        unfold register
        rw [hm]; simp only; rw [htab k hs]
      rw [hr]
      refine ⟨I.addr, I.lim, by rw [hcount]; exact I.limc, ?_, ?_, ?_, I.disj⟩
      · intro t ht
        dsimp only at ht ⊢
        rw [if_neg (by omega)]; exact I.table t ht
      · intro e he; exact I.off e fun h => he ((hcf e).2 h)
      · intro e he
        have he' := (hcf e).1 he
        obtain ⟨m2, c1, c2, c3, d1, d2, d3, d4, d5, d6, htab2⟩ := I.on e he'
        refine ⟨m2, c1, c2, c3, d1, d2, d3, d4, d5, d6, ?_⟩
        intro n hn
        dsimp only
        rw [handlers_snoc]
        have hon : (false || isOn e pre) = true := by rw [Bool.false_or]; exact (isOn_iff e pre).2 he'
        by_cases hed : d = e
        · subst hed
          rw [hm] at c1; cases c1
          by_cases hkn : k = n
          · subst hkn
            rw [if_pos rfl]
            simp [hon]
          · rw [if_neg (by omega), htab2 n hn]
            simp only
            rw [if_neg (fun h => hkn h.2.2), List.append_nil]
        · have hne : m2 ≠ m := fun h => hed (I.disj d e m hm (by rw [c1, h]))
          rw [if_neg (by omega), htab2 n hn]
          simp only
          rw [if_neg (fun h => hed h.2.1), List.append_nil]
    · have hr : register s d k h = s := by
        unfold register
        rw [I.off d hd, (R.devs d).1]
      rw [hr]
      refine ⟨I.addr, I.lim, by rw [hcount]; exact I.limc, I.table, fun e he => I.off e fun h => he ((hcf e).2 h), ?_, I.disj⟩
      intro e he
      have he' := (hcf e).1 he
      obtain ⟨m2, c1, c2, c3, d1, d2, d3, d4, d5, d6, htab2⟩ := I.on e he'
      refine ⟨m2, c1, c2, c3, d1, d2, d3, d4, d5, d6, ?_⟩
      intro n hn
      rw [htab2 n hn, handlers_snoc]
      simp only
      rw [if_neg (fun h => hd (by rw [h.2.1]; exact he')), List.append_nil]

theorem inv_run {s0 : Sys H} (R : Ready s0) : ∀ (ops pre : List (Op H)) (s : Sys H), Inv s0 pre s → Sane ops → ∃ s', run s ops = some s' ∧ Inv s0 (pre ++ ops) s'
  | [], pre, s, I, _ => ⟨s, rfl, by rw [List.append_nil]; exact I⟩
  | op :: ops, pre, s, I, hs => by
    obtain ⟨s1, h1, I1⟩ := inv_step R I op (hs op (List.mem_cons_self ..))
    obtain ⟨s2, h2, I2⟩ := inv_run R ops (pre ++ [op]) s1 I1 fun x hx => hs x (List.mem_cons_of_mem _ hx)
    refine ⟨s2, ?_, by rw [List.append_assoc] at I2; exact I2⟩
    show (step s op).bind _ = _
    rw [h1]; exact h2

theorem inv_init {s0 : Sys H} (R : Ready s0) : Inv s0 [] s0 :=
  ⟨rfl, by rw [R.limit], by rw [R.limit]; exact Nat.zero_le _, fun t _ => R.table t, fun _ _ => rfl, (fun d h => by cases h), (fun d e m h => by rw [(R.devs d).1] at h; cases h)⟩

end

/-- the number sent -/
theorem number_val {m k n : Nat} (hm : m % 32 = 0) (hk : k ≤ 5) (hn : n < 2 ^ k) : andNot (m % 65536) (2 ^ k - 1) ||| n = m % 65536 + n := by
  have hq : ∃ q, m % 65536 = 2 ^ k * q := by
    have h32 : 2 ^ k * 2 ^ (5 - k) = 32 := by rw [← Nat.pow_add, show k + (5 - k) = 5 from by omega]
    refine ⟨2 ^ (5 - k) * (m % 65536 / 32), ?_⟩
    rw [← Nat.mul_assoc, h32]; omega
  obtain ⟨q, hq⟩ := hq
  have : andNot (m % 65536) (2 ^ k - 1) = 2 ^ k * q := by
    rw [hq]
    apply Nat.eq_of_testBit_eq
    intro i
    rw [andNot_bit, Nat.testBit_two_pow_sub_one, Nat.testBit_two_pow_mul]
    by_cases h : i < k
    · simp [h, show ¬ (i ≥ k) by omega]
    · simp [h]
  rw [this, hq, ← Nat.two_pow_add_eq_or_of_lt hn]

end Corundum.Msi
