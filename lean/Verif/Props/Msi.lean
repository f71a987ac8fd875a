import Verif.Proof.Msi
import Verif.Props.CfgSpace
/-! C92: interrupts reach their handlers. -/
namespace Corundum.Msi
open Corundum.CfgSpace

variable {H : Type}

theorem run_append (s : Sys H) (a b : List (Op H)) : run s (a ++ b) = (run s a).bind fun s => run s b := by
  unfold run; rw [List.foldlM_append]; rfl

/-- the interrupt of a configured device, in terms of its message numbers -/
theorem interrupt_eq {s0 s : Sys H} {ops : List (Op H)} (R : Ready s0) (I : Inv s0 ops s) {d : Nat} (hd : Configured ops d) {n : Nat} (hn : n < 2 ^ (s0.devs d).fn.obj .msi_multiple_message_capable) :
    ∃ m, (s.devs d).data = some m ∧ interrupt s d n = s.table (m % 65536 + n) := by
  obtain ⟨m, c1, c2, c3, d1, d2, d3, d4, d5, d6, htab⟩ := I.on d hd
  refine ⟨m, c1, ?_⟩
  unfold interrupt issue deliver
  rw [d1, d2, d3, d4, d5, I.addr, if_neg (by decide), if_neg (by omega), number_val c2 (R.devs d).2.2.2.2 hn]
  simp

/-- C92: whatever devices are configured and whatever handlers are registered, in any order: interrupt `n` of a configured device calls exactly the handlers registered for message `n` of that device since it was
configured, in order.  Up to 2048 devices -/
theorem C92_msi_delivered (s0 : Sys H) (R : Ready s0) (ops : List (Op H)) (hs : Sane ops) (hc : confs ops ≤ 2048) :
    ∃ s, run s0 ops = some s ∧ ∀ d, Configured ops d → ∀ n, n < 2 ^ (s0.devs d).fn.obj .msi_multiple_message_capable → interrupt s d n = some (handlers d n false ops) := by
  obtain ⟨s, hrun, I⟩ := inv_run R ops [] s0 (inv_init R) hs
  rw [List.nil_append] at I
  refine ⟨s, hrun, ?_⟩
  intro d hd n hn
  obtain ⟨m, hm, he⟩ := interrupt_eq R I hd hn
  obtain ⟨m', c1, c2, c3, d1, d2, d3, d4, d5, d6, htab⟩ := I.on d hd
  rw [hm] at c1; cases c1
  have hl := I.limc
  have hp : 2 ^ (s0.devs d).fn.obj .msi_multiple_message_capable ≤ 2 ^ 5 := Nat.pow_le_pow_right (by omega) (R.devs d).2.2.2.2
  rw [he, Nat.mod_eq_of_lt (by omega), htab n (by omega)]

/-- C92: no interrupt is delivered for a message beyond those the device supports, or for a device that is not configured and has interrupts disabled -/
theorem C92_no_message (s0 s : Sys H) (R : Ready s0) (ops : List (Op H)) (hs : Sane ops) (hr : run s0 ops = some s) (d n : Nat)
    (h : 2 ^ (s0.devs d).fn.obj .msi_multiple_message_capable ≤ n ∨ (¬ Configured ops d ∧ (s0.devs d).fn.obj .msi_enable = 0)) : interrupt s d n = none := by
  obtain ⟨s', hrun, I⟩ := inv_run R ops [] s0 (inv_init R) hs
  rw [hr] at hrun; cases hrun
  rw [List.nil_append] at I
  unfold interrupt issue
  by_cases hd : Configured ops d
  · obtain ⟨m', c1, c2, c3, d1, d2, d3, d4, d5, d6, htab⟩ := I.on d hd
    have : 2 ^ (s0.devs d).fn.obj .msi_multiple_message_capable ≤ n := by
      rcases h with h | h
      · exact h
      · exact absurd hd h.1
    rw [d1, d2, d3, if_neg (by decide), if_pos (Or.inl this)]; rfl
  · rw [I.off d hd]
    split
    · rfl
    · rename_i he
      rcases h with h | h
      · rw [if_pos (Or.inr h)]; rfl
      · exact absurd h.2 he

theorem range_conf (s0 : Sys H) (R : Ready s0) : ∀ k, ∃ s, run s0 ((List.range k).map Op.configure) = some s ∧ Inv s0 ((List.range k).map Op.configure) s ∧ s.limit = 32 * k ∧ ∀ d < k, (s.devs d).data = some (32 * d)
  | 0 => ⟨s0, rfl, inv_init R, R.limit, fun d h => by omega⟩
  | k + 1 => by
    obtain ⟨s, h1, I, h2, h3⟩ := range_conf s0 R k
    have hn : ¬ Configured ((List.range k).map (Op.configure (H := H))) k := by
      intro h
      obtain ⟨x, hx, e⟩ := List.mem_map.1 h
      cases e
      exact absurd (List.mem_range.1 hx) (Nat.lt_irrefl _)
    obtain ⟨s', g1, g2, g3, g4⟩ := configure_new R I hn
    obtain ⟨s2, i1, I'⟩ := inv_step R I (.configure k) trivial
    rw [g1] at i1; cases i1
    rw [List.range_succ, List.map_append]
    refine ⟨s', ?_, I', by rw [g2, h2]; omega, ?_⟩
    · rw [run_append, h1]
      show (step s (.configure k)).bind _ = _
      rw [g1]; rfl
    · intro d hd
      by_cases e : d = k
      · subst e; rw [g3, h2]
      · rw [g4 d e]; exact h3 d (by omega)

theorem register_devs (s : Sys H) (d n : Nat) (h : H) : (register s d n h).devs = s.devs := by
  unfold register
  split
  · rfl
  · split <;> rfl

theorem regs_devs : ∀ (l : List (Nat × Nat × H)) (s s' : Sys H), run s (l.map fun x => .register x.1 x.2.1 x.2.2) = some s' → s'.devs = s.devs
  | [], s, s', h => by cases h; rfl
  | x :: l, s, s', h => by
    have h : run (register s x.1 x.2.1 x.2.2) (l.map fun x => .register x.1 x.2.1 x.2.2) = some s' := h
    rw [regs_devs l _ s' h, register_devs]

/-- C92 fails for more devices: message data has 16 bits.  With 2049 devices the interrupts of the last one call the handlers of the first one -/
theorem C92_wraps (s0 : Sys H) (R : Ready s0) (l : List (Nat × Nat × H)) (hl : ∀ x ∈ l, x.2.1 < 32) (n : Nat) (hn : n < 2 ^ (s0.devs 2048).fn.obj .msi_multiple_message_capable) :
    ∃ s, run s0 ((List.range 2049).map Op.configure ++ l.map fun x => .register x.1 x.2.1 x.2.2) = some s ∧
      interrupt s 2048 n = some (handlers 0 n false ((List.range 2049).map Op.configure ++ l.map fun x => .register x.1 x.2.1 x.2.2)) := by
  obtain ⟨s1, h1, I1, h2, h3⟩ := range_conf s0 R 2049
  have hs : Sane (l.map fun x => Op.register x.1 x.2.1 x.2.2) := by
    intro op hop
    obtain ⟨x, hx, e⟩ := List.mem_map.1 hop
    cases e; exact hl x hx
  obtain ⟨s, hr, I⟩ := inv_run R _ _ s1 I1 hs
  have hdev := regs_devs l s1 s hr
  have hon : ∀ d < 2049, Configured ((List.range 2049).map Op.configure ++ l.map fun x => Op.register x.1 x.2.1 x.2.2) d := by
    intro d hd
    exact List.mem_append_left _ (List.mem_map.2 ⟨d, List.mem_range.2 hd, rfl⟩)
  refine ⟨s, by rw [run_append, h1]; exact hr, ?_⟩
  obtain ⟨m, hm, he⟩ := interrupt_eq R I (hon 2048 (by omega)) hn
  rw [hdev, h3 2048 (by omega)] at hm
  cases hm
  obtain ⟨m', c1, -, -, -, -, -, -, -, -, htab⟩ := I.on 0 (hon 0 (by omega))
  rw [hdev, h3 0 (by omega)] at c1
  cases c1
  have hp : 2 ^ (s0.devs 2048).fn.obj .msi_multiple_message_capable ≤ 2 ^ 5 := Nat.pow_le_pow_right (by omega) (R.devs 2048).2.2.2.2
  rw [he]
  exact htab n (by omega)

/-- C92 fails for message numbers from 32 on: a handler registered for message `32 + n` of one device is called by message `n` of the device configured next -/
theorem C92_beyond (s0 : Sys H) (R : Ready s0) (a b : Nat) (hab : a ≠ b) (h : H) (n : Nat) (hn : n < 2 ^ (s0.devs b).fn.obj .msi_multiple_message_capable) :
    ∃ s, run s0 [.configure a, .configure b, .register a (32 + n) h] = some s ∧ interrupt s b n = some [h] := by
  obtain ⟨s1, h1, h2, h3, h4⟩ := configure_new R (inv_init R) (d := a) (by intro h; cases h)
  obtain ⟨s1', i1, I1⟩ := inv_step R (inv_init R) (.configure a) trivial
  rw [h1] at i1; cases i1
  have hnb : ¬ Configured ([] ++ [Op.configure (H := H) a]) b := by
    intro h
    rcases (configured_snoc ..).1 h with h | h
    · cases h
    · cases h; exact hab rfl
  obtain ⟨s2, j1, j2, j3, j4⟩ := configure_new R I1 hnb
  obtain ⟨s2', k1, I2⟩ := inv_step R I1 (.configure b) trivial
  rw [j1] at k1; cases k1
  rw [R.limit] at h2 h3
  rw [h2] at j3
  have hp : 2 ^ (s0.devs b).fn.obj .msi_multiple_message_capable ≤ 2 ^ 5 := Nat.pow_le_pow_right (by omega) (R.devs b).2.2.2.2
  have hcb : Configured ([] ++ [Op.configure (H := H) a] ++ [Op.configure b]) b := (configured_snoc ..).2 (Or.inr rfl)
  obtain ⟨m, c1, -, -, d1, d2, d3, d4, d5, -, htab⟩ := I2.on b hcb
  rw [j3] at c1; cases c1
  have ht := htab n (by omega)
  have hda : (s2.devs a).data = some 0 := by rw [j4 a hab, h3]
  have hreg : register s2 a (32 + n) h = { s2 with table := fun t => if t = 0 + (32 + n) then some (handlers b n false ([] ++ [Op.configure a] ++ [Op.configure b]) ++ [h]) else s2.table t } := by
    unfold register
    rw [hda]; simp only
    rw [show 0 + (32 + n) = 0 + 32 + n from by omega, ht]
  refine ⟨register s2 a (32 + n) h, ?_, ?_⟩
  · show (step s0 (.configure a)).bind _ = _
    rw [h1]
    show (step s1 (.configure b)).bind _ = _
    rw [j1]; rfl
  · rw [hreg]
    unfold interrupt issue deliver
    dsimp only
    rw [d1, d2, d3, d4, d5, I2.addr, if_neg (by decide), if_neg (by omega), number_val (by decide) (R.devs b).2.2.2.2 hn]
    simp [handlers]

/-- C92: the mask bits of the capability have no effect: an interrupt is delivered although software has just masked all messages -/
theorem C92_mask_ignored (s0 s : Sys H) (R : Ready s0) (ops : List (Op H)) (hs : Sane ops) (hc : confs ops ≤ 2048) (hr : run s0 ops = some s) (d : Nat) (hd : Configured ops d) (n : Nat)
    (hn : n < 2 ^ (s0.devs d).fn.obj .msi_multiple_message_capable) (f' : Fn) (hL : Layout (s.devs d).fn) (c : Cap) (hcm : c ∈ (s.devs d).fn.caps) (hk : c.kind = .msi)
    (hmc : (s.devs d).fn.obj .msi_per_vector_mask_capable ≠ 0) (hw : (s.devs d).fn.write (c.off + if (s.devs d).fn.obj .msi_64bit_address_capable ≠ 0 then 4 else 3) 0xffffffff 15 = some f') :
    f'.obj .msi_mask_bits = 0xffffffff ∧ interrupt { s with devs := fun e => if e = d then ⟨f', (s.devs d).data⟩ else s.devs e } d n = some (handlers d n false ops) := by
  obtain ⟨s', hrun, hdel⟩ := C92_msi_delivered s0 R ops hs hc
  rw [hr] at hrun; cases hrun
  have hdel := hdel d hd n hn
  have hlen : c.kind.len = 6 := by rw [hk]; rfl
  generalize hg : (s.devs d).fn = g at *
  have key : ∀ r, r < 6 → g.write (c.off + r) 0xffffffff 15 = some f' → kWr g.b64 g.mcap .msi r = [.upd .msi_mask_bits 0xf 0 0 0 0 none, .and .msi_mask_bits 0xffffffff] →
      f'.obj .msi_mask_bits = 0xffffffff ∧ ∀ a, a ≠ .msi_mask_bits → f'.obj a = g.obj a := by
    intro r hr' hw hkw
    obtain ⟨o, ho, ha, hsame⟩ := upd_and g.obj .msi_mask_bits 15 0 0 0 0 0xffffffff 0xffffffff 15
    obtain ⟨w, -, -⟩ := write_via hL hcm (r := r) (by omega) (data := 0xffffffff) (o := o) (by rw [hk, hkw]; exact ho)
    rw [hw] at w
    cases w
    refine ⟨?_, hsame⟩
    show o _ = _
    rw [ha]
    apply Nat.eq_of_testBit_eq
    intro j
    rw [Nat.testBit_and, bmu_bit, mff, show ((15 &&& 15) <<< 0) >>> 0 = 15 from rfl, m15, Nat.shiftLeft_zero, Nat.shiftRight_zero, mff]
    by_cases hj : j < 32
    · simp [hj, show j / 8 < 4 by omega]
    · simp [hj]
  have hm : g.mcap = true := by unfold Fn.mcap; simp [hmc]
  have res : f'.obj .msi_mask_bits = 0xffffffff ∧ ∀ a, a ≠ .msi_mask_bits → f'.obj a = g.obj a := by
    by_cases hb : g.obj .msi_64bit_address_capable ≠ 0
    · rw [if_pos hb] at hw
      have hb' : g.b64 = true := by unfold Fn.b64; simp [hb]
      exact key 4 (by omega) hw (by rw [hb', hm]; rfl)
    · rw [if_neg hb] at hw
      have hb' : g.b64 = false := by unfold Fn.b64; simp; exact Classical.not_not.1 hb
      exact key 3 (by omega) hw (by rw [hb', hm]; rfl)
  refine ⟨res.1, ?_⟩
  rw [← hdel]
  have hi : interrupt { s with devs := fun e => if e = d then ⟨f', (s.devs d).data⟩ else s.devs e } d n = (issue f'.obj n).bind (deliver s) := by
    unfold interrupt
    simp only [if_true]
    rfl
  rw [hi]
  unfold interrupt issue
  rw [hg, res.2 _ (by decide), res.2 _ (by decide), res.2 _ (by decide), res.2 _ (by decide), res.2 _ (by decide)]

/-! ### an example -/

/-- devices with a 64 bit MSI capability and four messages -/
def exampleDev : Fn where
  obj := fun a => match a with
    | .msi_64bit_address_capable => 1
    | .msi_multiple_message_capable => 2
    | .msi_per_vector_mask_capable => 1
    | _ => 0
  bar := fun _ => 0
  barMask := fun _ => 0
  bridge := false
  caps := [⟨.pm, 16, some 0x48⟩, ⟨.msi, 18, some 0⟩]

def exampleSys : Sys String := ⟨0x100000000, 0, fun _ => none, fun _ => ⟨exampleDev, none⟩⟩

/-- the hypotheses hold for the example -/
theorem example_ready : Ready exampleSys := by
  refine ⟨rfl, fun _ => rfl, by decide, by decide, ?_⟩
  intro d
  refine ⟨rfl, ⟨?_, ?_, ?_, ?_, ?_⟩, ⟨⟨.msi, 18, some 0⟩, ?_, rfl, by decide⟩, Or.inl (by show (1 : Nat) ≠ 0; decide), by show (2 : Nat) ≤ 5; decide⟩
  · intro a; show exampleDev.obj a < _; cases a <;> decide
  · intro k; show 0 < 2 ^ 32; decide
  · show (exampleDev.caps.map Cap.kind).Nodup; decide
  · show ∀ c ∈ exampleDev.caps, _; decide
  · show exampleDev.caps.Pairwise _; decide
  · show _ ∈ exampleDev.caps; decide

def exampleOps : List (Op String) := [.configure 3, .register 3 1 "a", .configure 7, .register 7 1 "b", .register 3 1 "c", .register 5 1 "lost", .configure 3]

example : Sane exampleOps ∧ confs exampleOps = 3 := by
  refine ⟨?_, rfl⟩
  intro op h
  simp [exampleOps] at h
  rcases h with h | h | h | h | h | h | h <;> subst h <;> simp

set_option maxRecDepth 100000 in
example : ((run exampleSys exampleOps).map fun s => [interrupt s 3 1, interrupt s 7 1, interrupt s 7 0, interrupt s 7 4, interrupt s 5 0]) = some [some ["a", "c"], some ["b"], some [], none, none] := by decide +kernel

end Corundum.Msi
