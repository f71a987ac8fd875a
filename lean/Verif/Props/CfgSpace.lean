import Verif.Proof.CfgAccess
/-! C91: configuration registers behave as registers. -/
namespace Corundum.CfgSpace

/-- C91: writing register `reg` of a function with byte enables `mask`: every bit of the register in an enabled byte takes the data bit if it is writable, is cleared by a one if it is a write-one-to-clear bit, and is
unchanged otherwise; bits in other bytes and all other registers are unchanged.  `dev` are the few bits for which this does not hold -/
theorem C91_register_write (f f' : Fn) (L : Layout f) (reg data mask : Nat) (hm : mask < 16) (h : f.write reg data mask = some f') :
    Layout f' ∧ (∀ q, q ≠ reg → f'.read q = f.read q) ∧
    ∀ rw w1c dev, Bits f reg rw w1c dev → Bits f' reg rw w1c dev ∧ ∀ v, f.read reg = some v →
      ∃ v', f'.read reg = some v' ∧ ∀ i < 32, dev.testBit i = false →
        v'.testBit i = if mask.testBit (i / 8) then (if rw.testBit i then data.testBit i else if w1c.testBit i then v.testBit i && !data.testBit i else v.testBit i) else v.testBit i := by
  obtain ⟨L', K⟩ := write_keeps L hm h
  exact ⟨L', fun q hq => write_others L hm h hq, fun rw w1c dev hb => ⟨K.bits hb, fun v hv => write_reg L hm hb h hv⟩⟩

/-- C91: `config_write` of any bytes at any address does to each register what the bytes falling into it say, and nothing to the others -/
theorem C91_config_write (f f' : Fn) (L : Layout f) (addr : Nat) (data : List Nat) (hd : ∀ b ∈ data, b < 256) (h : configWrite data.length f addr data = some f')
    (q rw w1c dev : Nat) (hb : Bits f q rw w1c dev) (v : Nat) (hv : f.read q = some v) :
    Bits f' q rw w1c dev ∧ ∃ v', f'.read q = some v' ∧ ∀ i < 32, dev.testBit i = false → v'.testBit i = newBit addr data q rw w1c i (v.testBit i) := by
  obtain ⟨-, K, h⟩ := configWrite_bits _ f f' addr data hd L h
  exact ⟨K.bits hb, h q rw w1c dev hb v hv⟩

/-- C91: `config_read` returns the bytes of the registers -/
theorem C91_config_read (f : Fn) (addr len : Nat) (l : List Nat) (h : configRead f addr len = some l) :
    l.length = len ∧ ∀ k < len, ∃ v, f.read ((addr + k) / 4) = some v ∧ l[k]? = some (v / 256 ^ ((addr + k) % 4) % 256) := by
  unfold configRead at h
  obtain ⟨m, hm, rfl⟩ := Option.map_eq_some_iff.1 h
  obtain ⟨h1, h2⟩ := readLoop_bytes f _ _ _ _ hm
  refine ⟨by rw [List.length_take]; omega, ?_⟩
  intro k hk
  obtain ⟨v, hv1, hv2⟩ := h2 k hk
  exact ⟨v, hv1, by rw [List.getElem?_take, if_pos hk]; exact hv2⟩

/-- C91: `config_read` succeeds if the registers have values -/
theorem C91_config_read_ok (f : Fn) (addr len : Nat) (h : ∀ k < len, ∃ v, f.read ((addr + k) / 4) = some v) : ∃ l, configRead f addr len = some l := by
  obtain ⟨l, hl⟩ := readLoop_some f len addr len (Nat.le_refl _) h
  exact ⟨_, by unfold configRead; rw [hl]; rfl⟩

/-- C91: what was written to writable bits is read back: if the bits of all bytes written are writable, reading the same range returns the bytes written -/
theorem C91_read_back (f f' : Fn) (L : Layout f) (addr : Nat) (data : List Nat) (hd : ∀ b ∈ data, b < 256) (h : configWrite data.length f addr data = some f')
    (hw : ∀ k < data.length, ∃ rw w1c dev v, Bits f ((addr + k) / 4) rw w1c dev ∧ f.read ((addr + k) / 4) = some v ∧
      ∀ i < 8, rw.testBit (8 * ((addr + k) % 4) + i) = true ∧ dev.testBit (8 * ((addr + k) % 4) + i) = false) :
    configRead f' addr data.length = some data := by
  obtain ⟨-, K, hbits⟩ := configWrite_bits _ f f' addr data hd L h
  obtain ⟨l, hl⟩ := C91_config_read_ok f' addr data.length (by
    intro k hk
    obtain ⟨rw, w1c, dev, v, h1, h2, -⟩ := hw k hk
    obtain ⟨v', hv', -⟩ := hbits _ rw w1c dev h1 v h2
    exact ⟨v', hv'⟩)
  obtain ⟨h1, h2⟩ := C91_config_read f' addr data.length l hl
  rw [hl]
  congr 1
  apply List.ext_getElem? 
  intro k
  by_cases hk : k < data.length
  · obtain ⟨v', hv', hlk⟩ := h2 k hk
    rw [hlk, List.getElem?_eq_getElem hk]
    congr 1
    obtain ⟨rw, w1c, dev, v, h3, h4, h5⟩ := hw k hk
    obtain ⟨v2, hv2, h6⟩ := hbits _ rw w1c dev h3 v h4
    rw [hv'] at hv2
    cases hv2
    apply Nat.eq_of_testBit_eq
    intro i
    rw [show (256 : Nat) ^ ((addr + k) % 4) = 2 ^ (8 * ((addr + k) % 4)) from by rw [Nat.pow_mul]]
    rw [show (256 : Nat) = 2 ^ 8 from rfl, Nat.testBit_mod_two_pow, ← Nat.shiftRight_eq_div_pow, Nat.testBit_shiftRight]
    by_cases hi : i < 8
    · obtain ⟨h7, h8⟩ := h5 i hi
      rw [h6 _ (by omega) h8]
      unfold newBit after
      rw [show (8 * ((addr + k) % 4) + i) / 8 = (addr + k) % 4 from by omega, show 4 * ((addr + k) / 4) + (addr + k) % 4 = addr + k from by omega, if_pos (by omega), Nat.add_sub_cancel_left,
        List.getElem?_eq_getElem hk, show (8 * ((addr + k) % 4) + i) % 8 = i from by omega]
      simp [hi, h7]
    · have := hd _ (List.getElem_mem hk)
      rw [Nat.testBit_lt_two_pow (Nat.lt_of_lt_of_le (show data[k] < 2 ^ 8 from this) (Nat.pow_le_pow_right (by omega) (by omega)))]
      simp [hi]
  · rw [List.getElem?_eq_none (by omega), List.getElem?_eq_none (by omega)]

/-- C91: registers read as 32 bit values -/
theorem C91_read_range (f : Fn) (L : Layout f) (reg v : Nat) (h : f.read reg = some v) : v < 2 ^ 32 := by
  obtain ⟨rw', w1c, dev, hb⟩ := bits_total f reg
  cases hb with
  | bar b hb => rw [read_bar f hb] at h; cases h; exact L.bar b
  | hdr reg hr hb => rw [read_hdr f hr hb] at h; cases h; exact value_lt L.attr _ (hdr_parts hr).2.1
  | cap c hc r hr =>
    rw [read_cap L hc hr, cap_read_eq] at h
    obtain ⟨l, hl, h⟩ := Option.bind_eq_some_iff.1 h
    have hol : oRd f.b64 f.mcap c.kind r = l := by unfold oRd; rw [hl]; rfl
    have hv := value_lt L.attr _ (cap_parts f.b64 f.mcap hr).2.1
    rw [hol] at hv
    split at h
    · obtain ⟨n, -, h⟩ := Option.bind_eq_some_iff.1 h
      cases h
      apply Nat.or_lt_two_pow
      · apply Nat.or_lt_two_pow
        · exact Nat.lt_of_le_of_lt Nat.and_le_left hv
        · rw [Nat.shiftLeft_eq]
          have : n &&& 255 ≤ 255 := Nat.and_le_right
          omega
      · have : c.kind.id &&& 255 ≤ 255 := Nat.and_le_right
        omega
    · cases h; exact hv
  | gap _ hr hn => rw [read_gap hr hn] at h; cases h; omega

/-- C91: a register has no value only if it is the first of a capability without a next pointer, or one of the MSI capability the function does not have: the last ones, depending on the size of the address and on
mask bits.  (The code returns no value there, and the read fails.) -/
theorem C91_readable (f : Fn) (L : Layout f) (reg : Nat) : f.read reg = none ↔ ∃ c ∈ f.caps, (reg = c.off ∧ c.next = none) ∨
    (c.kind = .msi ∧ c.off + (if f.obj .msi_per_vector_mask_capable ≠ 0 then (if f.obj .msi_64bit_address_capable ≠ 0 then 6 else 5) else (if f.obj .msi_64bit_address_capable ≠ 0 then 4 else 3)) ≤ reg ∧ reg < c.off + 6) := by
  have lo : ∀ c ∈ f.caps, reg = c.off ∨ (c.kind = .msi ∧ reg < c.off + 6 ∧ c.off ≤ reg) → 16 ≤ reg ∧ f.find reg = some c := by
    intro c hc h
    have := L.range c hc
    have h2 : reg - c.off < c.kind.len ∧ c.off ≤ reg := by
      rcases h with h | ⟨h, h'⟩
      · rw [h]; cases c.kind <;> simp [Kind.len]
      · rw [h]; simp only [Kind.len]; omega
    have h3 := L.find hc h2.1
    rw [show c.off + (reg - c.off) = reg from by omega] at h3
    exact ⟨by omega, h3⟩
  have lo' : ∀ c ∈ f.caps, ((reg = c.off ∧ c.next = none) ∨
    (c.kind = .msi ∧ c.off + (if f.obj .msi_per_vector_mask_capable ≠ 0 then (if f.obj .msi_64bit_address_capable ≠ 0 then 6 else 5) else (if f.obj .msi_64bit_address_capable ≠ 0 then 4 else 3)) ≤ reg ∧ reg < c.off + 6)) →
      16 ≤ reg ∧ f.find reg = some c := by
    rintro c hc (h | ⟨h, h1, h2⟩)
    · exact lo c hc (Or.inl h.1)
    · exact lo c hc (Or.inr ⟨h, h2, by omega⟩)
  obtain ⟨rw', w1c, dev, hb⟩ := bits_total f reg
  cases hb with
  | bar b hb =>
    rw [read_bar f hb]
    refine ⟨(fun h => by cases h), ?_⟩
    rintro ⟨c, hc, h⟩
    have := (lo' c hc h).1
    cases hf : f.bridge <;> simp [hf] at hb <;> omega
  | hdr reg hr hb =>
    rw [read_hdr f hr hb]
    refine ⟨(fun h => by cases h), ?_⟩
    rintro ⟨c, hc, h⟩
    have := (lo' c hc h).1
    omega
  | gap _ hr hn =>
    rw [read_gap hr hn]
    refine ⟨(fun h => by cases h), ?_⟩
    rintro ⟨c, hc, h⟩
    have := (lo' c hc h).2
    rw [find_gap hn] at this; cases this
  | cap c hc r hr =>
    have key : f.read (c.off + r) = none ↔ (r = 0 ∧ c.next = none) ∨
        (c.kind = .msi ∧ (if f.obj .msi_per_vector_mask_capable ≠ 0 then (if f.obj .msi_64bit_address_capable ≠ 0 then 6 else 5) else (if f.obj .msi_64bit_address_capable ≠ 0 then 4 else 3)) ≤ r ∧ r < 6) := by
      rw [read_cap L hc hr, cap_read_eq]
      have hk : kRd f.b64 f.mcap c.kind r = none ↔
          (c.kind = .msi ∧ (if f.obj .msi_per_vector_mask_capable ≠ 0 then (if f.obj .msi_64bit_address_capable ≠ 0 then 6 else 5) else (if f.obj .msi_64bit_address_capable ≠ 0 then 4 else 3)) ≤ r ∧ r < 6) := by
        have e1 : (f.obj .msi_64bit_address_capable ≠ 0) ↔ f.b64 = true := by unfold Fn.b64; simp
        have e2 : (f.obj .msi_per_vector_mask_capable ≠ 0) ↔ f.mcap = true := by unfold Fn.mcap; simp
        simp only [e1, e2]
        generalize f.b64 = b at *
        generalize f.mcap = m at *
        cases hkk : c.kind with
        | pm => simp [kRd]
        | pcie => simp [kRd]
        | msix => simp [kRd]
        | msi =>
          rw [hkk] at hr
          simp only [Kind.len] at hr
          simp only [kRd, true_and]
          have : ∀ (b m : Bool), ∀ r < 6, (msiRd b m r).isNone = true ↔ (if m = true then (if b = true then 6 else 5) else if b = true then 4 else 3) ≤ r ∧ r < 6 := by decide
          rw [← this b m r hr, Option.isNone_iff_eq_none]
      cases hl : kRd f.b64 f.mcap c.kind r with
      | none => exact ⟨fun _ => Or.inr (hk.1 hl), fun _ => rfl⟩
      | some l =>
        simp only [Option.bind_some]
        by_cases h0 : r = 0
        · rw [if_pos h0]
          cases hn : c.next with
          | none => exact ⟨fun _ => Or.inl ⟨h0, rfl⟩, fun _ => rfl⟩
          | some n =>
            refine ⟨(fun h => by cases h), ?_⟩
            rintro (h | h)
            · cases h.2
            · have := hk.2 h; rw [hl] at this; cases this
        · rw [if_neg h0]
          refine ⟨(fun h => by cases h), ?_⟩
          rintro (h | h)
          · exact absurd h.1 h0
          · have := hk.2 h; rw [hl] at this; cases this
    rw [key]
    constructor
    · rintro (h | h)
      · exact ⟨c, hc, Or.inl ⟨by omega, h.2⟩⟩
      · exact ⟨c, hc, Or.inr ⟨h.1, by omega, by omega⟩⟩
    · rintro ⟨d, hd, h⟩
      have h1 := (lo' d hd h).2
      rw [L.find hc hr] at h1
      cases h1
      rcases h with h | h
      · exact Or.inl ⟨by omega, h.2⟩
      · exact Or.inr ⟨h.1, by omega, by omega⟩

/-! ### where the code deviates -/

/-- C91: a write fails in two cases only: always for the last header register of a bridge (interrupt line and pin, bridge control), and for link control 2 while an equalization request is pending -/
theorem C91_write_raises (f : Fn) (L : Layout f) (reg data mask : Nat) : f.write reg data mask = none ↔ Raises f reg := by
  have h := write_total L reg data mask
  constructor
  · intro hn
    apply Classical.byContradiction
    intro hr
    obtain ⟨f', hf⟩ := h.2 hr
    rw [hn] at hf; cases hf
  · intro hr
    cases hf : f.write reg data mask with
    | none => rfl
    | some f' => exact absurd hr (h.1 ⟨f', hf⟩)

/-- C91: link control: the read completion boundary is read at bit 3 but written from bit 4, and the link disable bit (bit 4) cannot be written: writing back what was read clears the boundary unless the link is disabled -/
theorem C91_rcb_misplaced (f f' : Fn) (L : Layout f) (c : Cap) (hc : c ∈ f.caps) (hk : c.kind = .pcie) (data mask v : Nat) (hm : mask < 16) (h : f.write (c.off + 4) data mask = some f')
    (hv : f.read (c.off + 4) = some v) :
    ∃ v', f'.read (c.off + 4) = some v' ∧ v'.testBit 3 = (if mask.testBit 0 then data.testBit 4 else v.testBit 3) ∧ v'.testBit 4 = v.testBit 4 := by
  have hr : 4 < c.kind.len := by rw [hk]; decide
  obtain ⟨L', K⟩ := write_keeps L hm h
  rw [write_cap L hc hr] at h
  obtain ⟨o, ho, rfl⟩ := Option.map_eq_some_iff.1 h
  rw [hk] at ho
  rw [read_cap L hc hr, cap_read_eq, hk] at hv
  cases hv
  have hok : (pcieRd 4).all Rd.ok = true := by decide
  refine ⟨_, by rw [read_cap L' hc hr, cap_read_eq, hk]; rfl, ?_, ?_⟩
  · rw [value_bit L'.attr _ hok, value_bit L.attr _ hok, show (pcieRd 4).flatMap (Rd.src 3) = [.bit .read_completion_boundary 0] from by decide]
    simp only [List.any_cons, List.any_nil, Bool.or_false, Src.eval]
    rw [assign_bit _ _ _ _ _ _ _ ho, show (kWr f.b64 f.mcap .pcie 4).flatMap (Wr.eff .read_completion_boundary 0) = [.set 0 4] from by
      show (pcieWr 4).flatMap (Wr.eff .read_completion_boundary 0) = _; decide]
    rfl
  · rw [value_bit L'.attr _ hok, value_bit L.attr _ hok, show (pcieRd 4).flatMap (Rd.src 4) = [.bit .link_disable 0] from by decide]
    simp only [List.any_cons, List.any_nil, Bool.or_false, Src.eval]
    rw [assign_bit _ _ _ _ _ _ _ ho, show (kWr f.b64 f.mcap .pcie 4).flatMap (Wr.eff .link_disable 0) = [] from by
      show (pcieWr 4).flatMap (Wr.eff .link_disable 0) = _; decide]
    rfl

/-- C91: link capabilities: the maximum link width (bits 4 to 9), ASPM support and exit latencies (bits 10 to 17) read as 0 whatever they are; the upper two bits of the width are or-ed into the link speed -/
theorem C91_link_width_lost (f : Fn) (L : Layout f) (c : Cap) (hc : c ∈ f.caps) (hk : c.kind = .pcie) (v : Nat) (hv : f.read (c.off + 3) = some v) :
    (∀ i, 4 ≤ i → i < 18 → v.testBit i = false) ∧ (∀ i, i < 4 → v.testBit i = ((f.obj .max_link_speed).testBit i || decide (i < 2) && (f.obj .max_link_width).testBit (4 + i))) := by
  have hr : 3 < c.kind.len := by rw [hk]; decide
  rw [read_cap L hc hr, cap_read_eq, hk] at hv
  cases hv
  have hok : (pcieRd 3).all Rd.ok = true := by decide
  constructor
  · intro i h1 h2
    rw [value_bit L.attr _ hok]
    have : ∀ i < 18, 4 ≤ i → (pcieRd 3).flatMap (Rd.src i) = [] := by decide
    rw [this i h2 h1]; rfl
  · intro i h1
    rw [value_bit L.attr _ hok]
    have : ∀ i < 4, (pcieRd 3).flatMap (Rd.src i) = .bit .max_link_speed i :: if i < 2 then [.bit .max_link_width (4 + i)] else [] := by decide
    rw [this i h1]
    by_cases h2 : i < 2 <;> simp [h2, Src.eval]

/-- C91: the secondary status of a bridge (upper half of register 7) cannot be cleared -/
theorem C91_sec_status_stuck (f f' : Fn) (L : Layout f) (hbr : f.bridge = true) (data mask v : Nat) (hm : mask < 16) (h : f.write 7 data mask = some f') (hv : f.read 7 = some v) :
    ∃ v', f'.read 7 = some v' ∧ ∀ i, 16 ≤ i → i < 32 → v'.testBit i = v.testBit i := by
  obtain ⟨L', K⟩ := write_keeps L hm h
  have hb : 7 < 4 ∨ (if f.bridge then 6 else 10) ≤ 7 := by rw [hbr]; simp
  rw [write_hdr f (by omega) hb] at h
  obtain ⟨o, ho, rfl⟩ := Option.map_eq_some_iff.1 h
  rw [hbr] at ho
  rw [read_hdr f (by omega) hb] at hv
  cases hv
  refine ⟨_, read_hdr _ (by omega) (by exact hb), ?_⟩
  intro i h1 h2
  have hok : (hdrRd true 7).all Rd.ok = true := by decide
  show (value o (hdrRd f.bridge 7)).testBit i = (value f.obj (hdrRd f.bridge 7)).testBit i
  rw [hbr, value_bit L'.attr _ hok, value_bit L.attr _ hok]
  apply any_congr
  intro s hs
  apply eval_same ho
  have : ∀ i < 32, 16 ≤ i → ((hdrRd true 7).flatMap (Rd.src i)).all (fun s => match s with
      | .bit a j => decide ((hdrWr true 7).flatMap (Wr.eff a j) = [])
      | .one => true) = true := by decide +kernel
  exact List.all_eq_true.1 (this i h2 h1) s hs

/-- C91: two bits of the device status that are read only in the specification, AUX power detected and transactions pending, are cleared by writing one -/
theorem C91_status_cleared (f f' : Fn) (L : Layout f) (c : Cap) (hc : c ∈ f.caps) (hk : c.kind = .pcie) (data mask v : Nat) (hm : mask < 16) (h : f.write (c.off + 2) data mask = some f')
    (hv : f.read (c.off + 2) = some v) : ∃ v', f'.read (c.off + 2) = some v' ∧ ∀ i, i = 20 ∨ i = 21 → v'.testBit i = (v.testBit i && !(mask.testBit 2 && data.testBit i)) := by
  have hr : 2 < c.kind.len := by rw [hk]; decide
  obtain ⟨L', K⟩ := write_keeps L hm h
  rw [write_cap L hc hr] at h
  obtain ⟨o, ho, rfl⟩ := Option.map_eq_some_iff.1 h
  rw [hk] at ho
  rw [read_cap L hc hr, cap_read_eq, hk] at hv
  cases hv
  have hok : (pcieRd 2).all Rd.ok = true := by decide
  refine ⟨_, by rw [read_cap L' hc hr, cap_read_eq, hk]; rfl, ?_⟩
  rintro i (rfl | rfl)
  · rw [value_bit L'.attr _ hok, value_bit L.attr _ hok, show (pcieRd 2).flatMap (Rd.src 20) = [.bit .aux_power_detected 0] from by decide]
    simp only [List.any_cons, List.any_nil, Bool.or_false, Src.eval]
    rw [assign_bit _ _ _ _ _ _ _ ho, show (kWr f.b64 f.mcap .pcie 2).flatMap (Wr.eff .aux_power_detected 0) = [.clr 2 20] from by
      show (pcieWr 2).flatMap (Wr.eff .aux_power_detected 0) = _; decide]
    simp only [effs, List.foldl_cons, List.foldl_nil, Eff.app]
    cases mask.testBit 2 <;> cases data.testBit 20 <;> simp
  · rw [value_bit L'.attr _ hok, value_bit L.attr _ hok, show (pcieRd 2).flatMap (Rd.src 21) = [.bit .transactions_pending 0] from by decide]
    simp only [List.any_cons, List.any_nil, Bool.or_false, Src.eval]
    rw [assign_bit _ _ _ _ _ _ _ ho, show (kWr f.b64 f.mcap .pcie 2).flatMap (Wr.eff .transactions_pending 0) = [.clr 2 21] from by
      show (pcieWr 2).flatMap (Wr.eff .transactions_pending 0) = _; decide]
    simp only [effs, List.foldl_cons, List.foldl_nil, Eff.app]
    cases mask.testBit 2 <;> cases data.testBit 21 <;> simp

/-! ### an example -/

/-- a base and a limit stored with 20 bits implied -/
theorem window_bits (b l data mask : Nat) :
    let b' := byteMaskUpdate b (((mask &&& 3) <<< 2) >>> 0) ((data <<< 16) >>> 0) (some 0xfff00000)
    let l' := byteMaskUpdate l (((mask &&& 12) <<< 0) >>> 0) ((data <<< 0) >>> 0) (some 0xfff00000) ||| 0xfffff
    b' % 2 ^ 20 = b % 2 ^ 20 ∧ l' % 2 ^ 20 = 2 ^ 20 - 1 ∧ b' / 2 ^ 32 = b / 2 ^ 32 ∧ l' / 2 ^ 32 = l / 2 ^ 32 ∧
    (mask = 15 → b' / 2 ^ 20 % 2 ^ 12 = data / 2 ^ 4 % 2 ^ 12 ∧ l' / 2 ^ 20 % 2 ^ 12 = data / 2 ^ 20 % 2 ^ 12) := by
  intro b' l'
  have lo : ∀ i < 32, (0xfff00000 : Nat).testBit i = decide (20 ≤ i) := by decide
  have lo' : ∀ i, (0xfff00000 : Nat).testBit i = (decide (20 ≤ i) && decide (i < 32)) := by
    intro i
    by_cases hi : i < 32
    · rw [lo i hi]; simp [hi]
    · rw [Nat.testBit_lt_two_pow (Nat.lt_of_lt_of_le (by decide : 0xfff00000 < 2 ^ 32) (Nat.pow_le_pow_right (by omega) (by omega)))]; simp [hi]
  have b1 : ∀ i, b'.testBit i = if (((mask &&& 3) <<< 2) >>> 0).testBit (i / 8) = true ∧ 20 ≤ i ∧ i < 32 then data.testBit (i - 16) else b.testBit i := by
    intro i
    show (byteMaskUpdate _ _ _ _).testBit i = _
    rw [bmu_bit]
    simp only [Option.some.injEq, forall_eq', lo', Bool.and_eq_true, decide_eq_true_eq, Nat.shiftRight_zero, Nat.testBit_shiftLeft]
    split
    · rename_i hc; simp only [show i ≥ 16 by omega, decide_true, Bool.true_and]
    · rfl
  have b2 : ∀ i, l'.testBit i = ((if (((mask &&& 12) <<< 0) >>> 0).testBit (i / 8) = true ∧ 20 ≤ i ∧ i < 32 then data.testBit i else l.testBit i) || decide (i < 20)) := by
    intro i
    show (byteMaskUpdate _ _ _ _ ||| 0xfffff).testBit i = _
    rw [Nat.testBit_or, bmu_bit, show (0xfffff : Nat) = 2 ^ 20 - 1 from rfl, Nat.testBit_two_pow_sub_one]
    simp only [Option.some.injEq, forall_eq', lo', Bool.and_eq_true, decide_eq_true_eq, Nat.shiftRight_zero, Nat.shiftLeft_zero]
  refine ⟨?_, ?_, ?_, ?_, ?_⟩
  · apply Nat.eq_of_testBit_eq; intro i
    rw [Nat.testBit_mod_two_pow, Nat.testBit_mod_two_pow, b1]
    by_cases hi : i < 20
    · rw [if_neg (by omega)]
    · simp [hi]
  · apply Nat.eq_of_testBit_eq; intro i
    rw [Nat.testBit_mod_two_pow, Nat.testBit_two_pow_sub_one, b2]
    by_cases hi : i < 20 <;> simp [hi]
  · apply Nat.eq_of_testBit_eq; intro i
    rw [← Nat.shiftRight_eq_div_pow, ← Nat.shiftRight_eq_div_pow, Nat.testBit_shiftRight, Nat.testBit_shiftRight, b1, if_neg (by omega)]
  · apply Nat.eq_of_testBit_eq; intro i
    rw [← Nat.shiftRight_eq_div_pow, ← Nat.shiftRight_eq_div_pow, Nat.testBit_shiftRight, Nat.testBit_shiftRight, b2, if_neg (by omega)]
    simp only [show ¬ 32 + i < 20 by omega, decide_false, Bool.or_false]
  · rintro rfl
    have m1 : ∀ i < 32, 20 ≤ i → (((15 &&& 3) <<< 2) >>> 0 : Nat).testBit (i / 8) = true ∧ (((15 &&& 12) <<< 0) >>> 0 : Nat).testBit (i / 8) = true := by decide
    constructor
    · apply Nat.eq_of_testBit_eq; intro i
      rw [Nat.testBit_mod_two_pow, Nat.testBit_mod_two_pow, ← Nat.shiftRight_eq_div_pow, ← Nat.shiftRight_eq_div_pow, Nat.testBit_shiftRight, Nat.testBit_shiftRight, b1]
      by_cases h2 : i < 12
      · rw [if_pos ⟨(m1 (20 + i) (by omega) (by omega)).1, by omega, by omega⟩, show 20 + i - 16 = 4 + i by omega]
      · simp [h2]
    · apply Nat.eq_of_testBit_eq; intro i
      rw [Nat.testBit_mod_two_pow, Nat.testBit_mod_two_pow, ← Nat.shiftRight_eq_div_pow, ← Nat.shiftRight_eq_div_pow, Nat.testBit_shiftRight, Nat.testBit_shiftRight, b2]
      by_cases h2 : i < 12
      · rw [if_pos ⟨(m1 (20 + i) (by omega) (by omega)).2, by omega, by omega⟩]
        simp only [show ¬ 20 + i < 20 by omega, decide_false, Bool.or_false]
      · simp [h2]

/-- The memory window of a bridge as the routing functions use it (not only as it reads back): writing register 8 with
    all lanes enabled makes the window run from a MiB boundary (bits 15:4 of the value) to the end of a MiB (bits
    31:20), whatever the low bits of the value written; and a write with any lanes never moves the base off its
    boundary. -/
theorem C91_mem_window (f f' : Fn) (L : Layout f) (hbr : f.bridge = true) (data mask : Nat) (h : f.write 8 data mask = some f') :
    (f.obj .mem_base % 2 ^ 20 = 0 → f'.obj .mem_base % 2 ^ 20 = 0) ∧ f'.obj .mem_limit % 2 ^ 20 = 2 ^ 20 - 1 ∧
    (mask = 15 → f.obj .mem_base % 2 ^ 20 = 0 →
      f'.obj .mem_base = data / 2 ^ 4 % 2 ^ 12 * 2 ^ 20 ∧ f'.obj .mem_limit = (data / 2 ^ 20 % 2 ^ 12 + 1) * 2 ^ 20 - 1) := by
  have hb : 8 < 4 ∨ (if f.bridge then 6 else 10) ≤ 8 := by rw [hbr]; simp
  rw [write_hdr f (by omega) hb, hbr] at h
  obtain ⟨o, ho, rfl⟩ := Option.map_eq_some_iff.1 h
  have e1 : o .mem_base = byteMaskUpdate (f.obj .mem_base) (((mask &&& 3) <<< 2) >>> 0) ((data <<< 16) >>> 0) (some 0xfff00000) := by
    have := Option.some.inj ho; rw [← this]; rfl
  have e2 : o .mem_limit = byteMaskUpdate (f.obj .mem_limit) (((mask &&& 12) <<< 0) >>> 0) ((data <<< 0) >>> 0) (some 0xfff00000) ||| 0xfffff := by
    have := Option.some.inj ho; rw [← this]; rfl
  have wb : f.obj .mem_base < 2 ^ 32 := L.attr .mem_base
  have wl : f.obj .mem_limit < 2 ^ 32 := L.attr .mem_limit
  have w := window_bits (f.obj .mem_base) (f.obj .mem_limit) data mask
  dsimp only at w ⊢
  rw [← e1, ← e2] at w
  generalize o .mem_base = x at *
  generalize o .mem_limit = y at *
  obtain ⟨w1, w2, w3, w4, w5⟩ := w
  refine ⟨fun z => by omega, w2, fun hm z => ?_⟩
  have := w5 hm
  constructor <;> omega

/-- The prefetchable window: the same for register 9, which leaves the upper halves (registers 10 and 11) as they were. -/
theorem C91_pref_window (f f' : Fn) (hbr : f.bridge = true) (data mask : Nat) (h : f.write 9 data mask = some f') :
    (f.obj .prefetchable_mem_base % 2 ^ 20 = 0 → f'.obj .prefetchable_mem_base % 2 ^ 20 = 0) ∧ f'.obj .prefetchable_mem_limit % 2 ^ 20 = 2 ^ 20 - 1 ∧
    (mask = 15 → f.obj .prefetchable_mem_base % 2 ^ 20 = 0 →
      f'.obj .prefetchable_mem_base = f.obj .prefetchable_mem_base / 2 ^ 32 * 2 ^ 32 + data / 2 ^ 4 % 2 ^ 12 * 2 ^ 20 ∧
      f'.obj .prefetchable_mem_limit = f.obj .prefetchable_mem_limit / 2 ^ 32 * 2 ^ 32 + (data / 2 ^ 20 % 2 ^ 12 + 1) * 2 ^ 20 - 1) := by
  have hb : 9 < 4 ∨ (if f.bridge then 6 else 10) ≤ 9 := by rw [hbr]; simp
  rw [write_hdr f (by omega) hb, hbr] at h
  obtain ⟨o, ho, rfl⟩ := Option.map_eq_some_iff.1 h
  have e1 : o .prefetchable_mem_base = byteMaskUpdate (f.obj .prefetchable_mem_base) (((mask &&& 3) <<< 2) >>> 0) ((data <<< 16) >>> 0) (some 0xfff00000) := by
    have := Option.some.inj ho; rw [← this]; rfl
  have e2 : o .prefetchable_mem_limit = byteMaskUpdate (f.obj .prefetchable_mem_limit) (((mask &&& 12) <<< 0) >>> 0) ((data <<< 0) >>> 0) (some 0xfff00000) ||| 0xfffff := by
    have := Option.some.inj ho; rw [← this]; rfl
  have w := window_bits (f.obj .prefetchable_mem_base) (f.obj .prefetchable_mem_limit) data mask
  dsimp only at w ⊢
  rw [← e1, ← e2] at w
  generalize o .prefetchable_mem_base = x at *
  generalize o .prefetchable_mem_limit = y at *
  obtain ⟨w1, w2, w3, w4, w5⟩ := w
  refine ⟨fun z => by omega, w2, fun hm z => ?_⟩
  have := w5 hm
  constructor <;> omega

/-- an endpoint with power management, PCIe and 64 bit MSI capabilities, one 64 kB BAR -/
def exampleFn (bridge : Bool) : Fn where
  obj := fun a => match a with
    | .vendor_id => 0x1234
    | .device_id => 0x1001
    | .capabilities_list => 1
    | .detected_parity_error => 1
    | .read_completion_boundary => 1
    | .max_link_speed => 2
    | .max_link_width => 16
    | .msi_64bit_address_capable => 1
    | .sec_status => 0x8000
    | .cap_ptr => 0x40
    | .aux_power_detected => 1
    | _ => 0
  bar := fun _ => 0
  barMask := fun b => if b = 0 then 0xffff0000 else 0
  bridge := bridge
  caps := [⟨.pm, 16, some 0x48⟩, ⟨.pcie, 18, some 0x84⟩, ⟨.msi, 33, some 0⟩]

/-- the hypotheses hold for the example -/
theorem example_layout (b : Bool) : Layout (exampleFn b) := by
  refine ⟨?_, ?_, ?_, ?_, ?_⟩
  · intro a; cases b <;> cases a <;> decide
  · intro k; show 0 < 2 ^ 32; decide
  · cases b <;> decide
  · cases b <;> decide
  · cases b <;> decide

/-- writes across registers: a BAR and the byte after it; status bits; MSI address and data; read back -/
example : ((configWrite 5 (exampleFn false) 0x12 [0xcd, 0xab, 0xff, 0xff, 0xff]).bind fun f => configRead f 0x10 8) = some [0, 0, 0xcd, 0xab, 0, 0, 0, 0] := by decide
example : ((configWrite 4 (exampleFn false) 4 [0x06, 0x04, 0, 0x80]).bind fun f => configRead f 4 4) = some [4, 4, 0x10, 0] := by decide
set_option maxRecDepth 100000 in
example : ((configWrite 10 (exampleFn false) 0x88 [0x7f, 0x56, 0x34, 0x12, 0xef, 0xcd, 0xab, 0x89, 0x20, 0]).bind fun f => configRead f 0x87 13) =
    some [0, 0x7c, 0x56, 0x34, 0x12, 0xef, 0xcd, 0xab, 0x89, 0x20, 0, 0, 0] := by decide +kernel
/-- the deviations in the example: the boundary is lost when its value is written back, the width of 16 lanes reads 0 and the speed 3, the parity error of the secondary side stays -/
example : (configRead (exampleFn false) 0x58 4 = some [8, 0, 0, 0]) ∧ ((configWrite 4 (exampleFn false) 0x58 [8, 0, 0, 0]).bind fun f => configRead f 0x58 4) = some [0, 0, 0, 0] := by decide +kernel
example : configRead (exampleFn false) 0x54 4 = some [3, 0, 0, 0] := by decide +kernel
example : ((configWrite 4 (exampleFn true) 0x1c [0, 0, 0, 0xff]).bind fun f => configRead f 0x1c 4) = some [0, 0, 0, 0x80] := by decide +kernel
example : (configWrite 1 (exampleFn true) 0x3c [5]).isNone = true := by decide +kernel
set_option maxRecDepth 100000 in
example : ((exampleFn true).write 8 0x5671234f 15).map (fun f => [f.obj .mem_base, f.obj .mem_limit]) = some [0x23400000, 0x567fffff] := by decide +kernel

end Corundum.CfgSpace
