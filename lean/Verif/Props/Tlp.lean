import Verif.Proof.Tlp

/-!
# PCIe transaction layer of the simulation models (pcie.py): memory transactions
-/

namespace Corundum.Pcie
open Corundum.Struct

/-! ## C48: byte enables -/

/-- **C48.** A request encoded by `set_be(addr, length)` names exactly the bytes `addr, …, addr+length-1`: the byte at offset `j` from the
request address is enabled iff it is one of them, and `get_first_be_offset`, `get_be_byte_count` recover `addr` and `length`. -/
theorem C48_set_be (t : Tlp) (addr length : Nat) (h : 1 ≤ length) :
    (setBe t addr length).address % 4 = 0 ∧
    (setBe t addr length).address + firstBeOffset (setBe t addr length) = addr ∧
    beByteCount (setBe t addr length) = length ∧
    (∀ j, j < 4 * (setBe t addr length).length →
      (enabled (setBe t addr length) j = true ↔
        addr ≤ (setBe t addr length).address + j ∧ (setBe t addr length).address + j < addr + length)) ∧
    4 * (setBe t addr length).length < length + 7 := by
  refine ⟨by rw [setBe_address]; omega, ?_, setBe_count t addr length h, ?_, ?_⟩
  · rw [setBe_address, setBe_first t addr length h]; omega
  · intro j hj
    rw [setBe_enabled t addr length h j hj, setBe_address, decide_eq_true_iff]
    omega
  · obtain ⟨h1, h2, h3⟩ := setBe_len t addr length h
    have : lastPad addr length = 3 - (addr + length + 3) % 4 := rfl
    omega

example : (setBe {} 0x1003 6).firstBe = 8 ∧ (setBe {} 0x1003 6).lastBe = 1 ∧ (setBe {} 0x1003 6).length = 3 := by decide

/-- **C48.** Whatever the byte enables, the byte count of a request is positive and the enabled bytes lie between the first and last offset. -/
theorem C48_count_pos (t : Tlp) (h : 1 ≤ t.length) :
    1 ≤ beByteCount t ∧ firstBeOffset t + beByteCount t ≤ 4 * t.length := by
  obtain ⟨h1, h2, h3⟩ := beOffsets t h
  unfold beByteCount; omega

/-- **C48, counterexample.** `get_lower_address` ignores the first-byte offset: `+` binds tighter than `&`, so for a request at any
double-word aligned address the offset bits are masked off, and the value differs from the low bits of the first byte's address
whenever the first byte enable is off. -/
theorem C48_lower_address_counterexample (t : Tlp) (ha : t.address % 4 = 0) :
    getLowerAddress t = t.address % 128 ∧
    (firstBeOffset t ≠ 0 → getLowerAddress t ≠ (t.address + firstBeOffset t) % 128) := by
  have hf : firstBeOffset t < 4 := by unfold firstBeOffset; split <;> (try split) <;> (try split) <;> omega
  have key : getLowerAddress t = t.address % 128 := by
    unfold getLowerAddress
    rw [← and_7f]
    apply Nat.eq_of_testBit_eq
    intro i
    rw [Nat.testBit_and, Nat.testBit_and]
    rcases Nat.lt_or_ge i 2 with hi | hi
    · have : t.address.testBit i = false := by
        have := Nat.testBit_mod_two_pow t.address 2 i
        rw [show (2 ^ 2 : Nat) = 4 from rfl, ha, Nat.zero_testBit] at this
        simpa [hi] using this.symm
      rw [this]; rfl
    · congr 1
      generalize firstBeOffset t = f at hf
      obtain ⟨j, rfl⟩ : ∃ j, i = j + 2 := ⟨i - 2, by omega⟩
      have e : ∀ x, Nat.testBit x (j + 2) = Nat.testBit (x / 4) j := by
        intro x
        rw [show x / 4 = x >>> 2 by rw [Nat.shiftRight_eq_div_pow], Nat.testBit_shiftRight, Nat.add_comm]
      rw [e, e, show (0x7c + f) / 4 = 0x7f / 4 by omega]
  refine ⟨key, fun hne => ?_⟩
  rw [key]
  omega

example : getLowerAddress (setBe {} 0x83 4) = 0 ∧ (setBe {} 0x83 4).address + firstBeOffset (setBe {} 0x83 4) = 0x83 := by decide

/-! ## C49: memory writes -/

/-- **C49.** A memory write request stores exactly its enabled bytes: byte `addr + j` of the region becomes payload byte `j` when enabled,
and every other byte of the region is unchanged (endpoint and root complex handlers). -/
theorem C49_write_enabled (t : Tlp) (region : List Nat) (addr chk : Nat) (bs : List Nat) (h1 : 1 ≤ t.length)
    (hd : toBytes t.data = some bs) (hl : t.data.length = t.length) (hchk : 4 * t.length + chk % 4096 ≤ 4096)
    (hr : addr + 4 * t.length ≤ region.length) :
    ∃ r', handleMemWrite region addr chk t = some r' ∧ r'.length = region.length ∧
      (∀ j, j < 4 * t.length → enabled t j = true → r'[addr + j]? = bs[j]?) ∧
      (∀ j, j < 4 * t.length → enabled t j = false → r'[addr + j]? = region[addr + j]?) ∧
      (∀ i, i < addr ∨ addr + 4 * t.length ≤ i → r'[i]? = region[i]?) := by
  obtain ⟨r', e1, e2, e3⟩ := handleMemWrite_spec t region addr chk bs h1 hd hl (by rw [and_fff]; omega) hr
  refine ⟨r', e1, e2, ?_, ?_, ?_⟩
  · intro j hj he
    rw [e3, Nat.add_sub_cancel_left, if_pos ⟨by omega, by omega, he⟩]
  · intro j hj he
    rw [e3, Nat.add_sub_cancel_left, if_neg (by simp [he])]
  · intro i hi
    rw [e3, if_neg (by omega)]

/-- A write with a hole in its byte enables. -/
example : handleMemWrite [10, 11, 12, 13, 14, 15, 16, 17] 0 0
    { fmt := 2, length := 2, firstBe := 0b1010, lastBe := 0b0101, data := [0x04030201, 0x08070605] } =
    some [10, 2, 12, 4, 5, 15, 7, 17] := by decide

/-- What holds of every request of a memory write. -/
def WriteReq (mps : Nat) (req : Id) (attr tc : Nat) (t : Tlp) : Prop :=
  check t = true ∧ t.length = t.data.length ∧ 1 ≤ t.length ∧ 4 * t.length ≤ 128 * 2 ^ mps ∧
    t.requester = req ∧ t.typ = 0 ∧ t.attr = attr ∧ t.tc = tc ∧ (t.fmt = 2 ∨ t.fmt = 3) ∧ (t.fmt = 3 ↔ 2 ^ 32 ≤ t.address)

/-- **C49.** `mem_write(addr, data)` to an endpoint BAR of size `2^k` at `base`: whatever address, length and maximum payload size, every
request passes `check` (length, 4 kB boundary), carries at most the maximum payload, uses 64-bit format iff its address needs it,
and after all requests the region holds `data` at `addr` and is otherwise unchanged. -/
theorem C49_write_endpoint (mps : Nat) (req : Id) (attr tc k base addr : Nat) (data region : List Nat) (hk : 2 ≤ k)
    (hb : base % 2 ^ k = 0) (hs : region.length ≤ 2 ^ k) (hs4 : region.length % 4 = 0) (hd : ∀ b ∈ data, b < 256)
    (h1 : base ≤ addr) (h2 : addr + data.length ≤ base + region.length) :
    ∃ ts, memWrite mps req attr tc data.length addr data = some ts ∧
      ts.foldlM (fun r t => epWrite k r t) region =
        some (region.take (addr - base) ++ data ++ region.drop (addr - base + data.length)) ∧
      ∀ t ∈ ts, WriteReq mps req attr tc t :=
  memWrite_spec mps req attr tc base _ _ data.length addr data region (Nat.le_refl _) hd (ep_maps hk hb hs hs4) h1 h2

/-- **C49.** The same for `mem_write` to a memory region of the root complex. -/
theorem C49_write_root (mps : Nat) (req : Id) (attr tc base addr : Nat) (data region : List Nat)
    (hb : base % 4 = 0) (hs4 : region.length % 4 = 0) (hd : ∀ b ∈ data, b < 256)
    (h1 : base ≤ addr) (h2 : addr + data.length ≤ base + region.length) :
    ∃ ts, memWrite mps req attr tc data.length addr data = some ts ∧
      ts.foldlM (fun r t => rcWrite base r t) region =
        some (region.take (addr - base) ++ data ++ region.drop (addr - base + data.length)) ∧
      ∀ t ∈ ts, WriteReq mps req attr tc t :=
  memWrite_spec mps req attr tc base _ _ data.length addr data region (Nat.le_refl _) hd (rc_maps hb hs4) h1 h2

example : (memWrite 0 {} 0 0 5 0x1ffd [1, 2, 3, 4, 5]).map (·.map fun t => (t.address, t.length, t.firstBe, t.lastBe, t.data)) =
    some [(0x1ffc, 1, 0b1110, 0, [0x03020100]), (0x2000, 1, 0b0011, 0, [0x0504])] := by decide

/-! ## C50: memory reads -/

/-- **C50.** Any memory read request whose bytes lie in the region (no 4 kB crossing) is answered by completions which pass `check`,
carry the request's ids, at most the maximum payload, and each ends at a 128-byte boundary or carries all remaining bytes;
reassembled by the requester they give exactly the bytes from the first to the last enabled byte. -/
theorem C50_completions (mps : Nat) (completer : Id) (t : Tlp) (region : List Nat) (addr chk : Nat) (h1 : 1 ≤ t.length)
    (ha : t.address % 4 = 0) (hb : ∀ b ∈ region, b < 256) (hc : 4 * t.length + chk % 4096 ≤ 4096)
    (hr : addr + 4 * t.length ≤ region.length) :
    ∃ cs, handleMemRead mps completer region addr chk t = some cs ∧ (∀ c ∈ cs, CplOk mps completer t c) ∧
      recv (beByteCount t) 0 cs = some (slice region (addr + firstBeOffset t) (addr + firstBeOffset t + beByteCount t)) := by
  obtain ⟨cs, c1, c2, c3⟩ := cplLoop_spec mps completer t (slice region addr (addr + t.length * 4)) h1 ha
    (bytes_slice hb _ _) (by rw [slice_length]; omega) t.length 0 0 (by omega) (by omega) rfl
  refine ⟨cs, ?_, c3, ?_⟩
  · unfold handleMemRead
    rw [if_neg (by rw [and_fff]; omega)]
    exact c1
  · obtain ⟨o1, o2, o3⟩ := beOffsets t h1
    rw [c2, slice_slice]
    have : beByteCount t + firstBeOffset t + lastBeOffset t = 4 * t.length := by unfold beByteCount; omega
    congr 2; omega

example : ((handleMemRead 0 {} (List.replicate 512 7) 0 0 (setBe {} 0x101 300)).map (·.map fun c => (c.length, c.byteCount, c.lowerAddress))) =
    some [(32, 300, 1), (32, 173, 0), (12, 45, 0)] := by
  set_option maxRecDepth 100000 in decide

/-- **C50.** `RootComplex.mem_read(addr, length)` of an endpoint BAR returns exactly the bytes there, whatever the address, the length, the
maximum read request size and the maximum payload size. -/
theorem C50_read_endpoint (mrrs mps : Nat) (req completer : Id) (attr tc k base addr length : Nat) (tag : Nat → Nat) (region : List Nat)
    (hk : 2 ≤ k) (hb : base % 2 ^ k = 0) (hs : region.length ≤ 2 ^ k) (hs4 : region.length % 4 = 0) (hd : ∀ b ∈ region, b < 256)
    (h1 : base ≤ addr) (h2 : addr + length ≤ base + region.length) :
    rcMemRead mrrs req attr tc tag (epRead mps completer k region) length addr length =
      some (slice region (addr - base) (addr - base + length)) :=
  rcMemRead_spec mrrs mps req completer attr tc base tag region _ _ hd (ep_maps hk hb hs hs4) length addr length (Nat.le_refl _) h1 h2

/-- **C50.** A read after a write returns the data written. -/
theorem C50_read_after_write (mrrs mps mps' : Nat) (req completer : Id) (attr tc attr' tc' k base addr : Nat) (tag : Nat → Nat)
    (data region : List Nat) (hk : 2 ≤ k) (hb : base % 2 ^ k = 0) (hs : region.length ≤ 2 ^ k) (hs4 : region.length % 4 = 0)
    (hd : ∀ b ∈ data, b < 256) (hr : ∀ b ∈ region, b < 256) (h1 : base ≤ addr) (h2 : addr + data.length ≤ base + region.length) :
    ∃ ts region', memWrite mps' req attr' tc' data.length addr data = some ts ∧
      ts.foldlM (fun r t => epWrite k r t) region = some region' ∧
      rcMemRead mrrs req attr tc tag (epRead mps completer k region') data.length addr data.length = some data := by
  obtain ⟨ts, t1, t2, _⟩ := C49_write_endpoint mps' req attr' tc' k base addr data region hk hb hs hs4 hd h1 h2
  refine ⟨ts, _, t1, t2, ?_⟩
  have hl : (sliceSet region (addr - base) data).length = region.length := sliceSet_length (by omega)
  show rcMemRead mrrs req attr tc tag (epRead mps completer k (sliceSet region (addr - base) data)) _ _ _ = _
  rw [C50_read_endpoint mrrs mps req completer attr tc k base addr data.length tag _ hk hb (by omega) (by omega) (by
    intro b hb
    unfold sliceSet at hb
    simp only [List.mem_append] at hb
    rcases hb with (hb | hb) | hb
    · exact hr b (List.mem_of_mem_take hb)
    · exact hd b hb
    · exact hr b (List.mem_of_mem_drop hb)) h1 (by omega)]
  congr 1
  apply List.ext_getElem?
  intro i
  rw [slice_get]
  by_cases hi : addr - base + i < addr - base + data.length
  · rw [if_pos hi, sliceSet_get (by omega), if_neg (by omega), if_pos hi]
    congr 1; omega
  · rw [if_neg hi, List.getElem?_eq_none (by omega)]

/-- **C50.** `Function.mem_read` (a device reading the root complex) is right when one request suffices. -/
theorem C50_device_read_partial (mrrs mps : Nat) (req completer : Id) (attr tc base addr length : Nat) (tag : Nat → Nat)
    (region : List Nat) (hb : base % 4 = 0) (hs4 : region.length % 4 = 0) (hd : ∀ b ∈ region, b < 256)
    (h1 : base ≤ addr) (h2 : addr + length ≤ base + region.length) (hone : readLen mrrs addr length = length) :
    fnMemRead mrrs req attr tc tag (rcRead mps completer base region) length length addr length =
      some (slice region (addr - base) (addr - base + length)) := by
  rcases Nat.eq_zero_or_pos length with hl | hl
  · subst hl
    rw [fnMemRead, slice_nil _ _ _ (by omega)]
  · have := rcMemRead_spec mrrs mps req completer attr tc base tag region _ _ hd (rc_maps hb hs4) length addr length (Nat.le_refl _) h1 h2
    obtain ⟨n, rfl⟩ : ∃ n, length = n + 1 := ⟨length - 1, by omega⟩
    rw [← this, fnMemRead, rcMemRead]
    simp only [hone, Nat.sub_self]
    have e1 : ∀ a, fnMemRead mrrs req attr tc tag (rcRead mps completer base region) (n + 1) n a 0 = some [] := by
      intro a; cases n <;> simp [fnMemRead]
    have e2 : ∀ a, rcMemRead mrrs req attr tc tag (rcRead mps completer base region) n a 0 = some [] := by
      intro a; cases n <;> simp [rcMemRead]
    rw [e1]
    show _ = if _ then _ else (do
      guard _
      let cpls ← rcRead mps completer base region _
      let d ← recv (n + 1) 0 cpls
      let rest ← rcMemRead mrrs req attr tc tag (rcRead mps completer base region) n (addr + (n + 1)) 0
      return d ++ rest)
    rw [e2]

/-- **C50, counterexample.** `Function.mem_read` of 132 bytes with 128-byte read requests fails: the byte enables of each request are taken
from the whole length instead of the length of the request. -/
theorem C50_device_read_counterexample :
    fnMemRead 0 {} 0 0 (fun _ => 0) (rcRead 0 {} 0 (List.replicate 256 7)) 132 132 0 132 = none ∧
    rcMemRead 0 {} 0 0 (fun _ => 0) (rcRead 0 {} 0 (List.replicate 256 7)) 132 0 132 = some (List.replicate 132 7) := by
  set_option maxRecDepth 100000 in decide

/-! ## C52: IO accesses -/

/-- **C52.** `io_write(addr, data)` of any length and alignment: every request passes `check`, moves one double word with no last byte
enables, and afterwards the IO region holds `data` at `addr` and is otherwise unchanged. -/
theorem C52_io_write (req : Id) (tag : Nat → Nat) (base addr k : Nat) (data region : List Nat) (hk : 2 ≤ k) (hb : base % 2 ^ k = 0)
    (hs : region.length ≤ 2 ^ k) (hs4 : region.length % 4 = 0) (hd : ∀ b ∈ data, b < 256) (h1 : base ≤ addr)
    (h2 : addr + data.length ≤ base + region.length) :
    ∃ ts, ioWrite req tag data.length addr data = some ts ∧
      ts.foldlM (fun r t => handleIoWrite r (t.address % 2 ^ k) t) region =
        some (region.take (addr - base) ++ data ++ region.drop (addr - base + data.length)) ∧
      ∀ t ∈ ts, check t = true ∧ t.length = 1 ∧ t.lastBe = 0 ∧ t.fmt = 2 ∧ t.typ = 2 ∧ t.requester = req :=
  ioWrite_spec req tag base (fun a => a % 2 ^ k) (fun a => a % 2 ^ k) data.length addr data region (Nat.le_refl _) hd (ep_maps hk hb hs hs4) h1 h2

/-- **C52.** `io_read(addr, length)` returns exactly the bytes of the IO region, for any length and alignment. -/
theorem C52_io_read (req completer : Id) (tag : Nat → Nat) (base addr k length : Nat) (region : List Nat) (hk : 2 ≤ k)
    (hb : base % 2 ^ k = 0) (hs : region.length ≤ 2 ^ k) (hs4 : region.length % 4 = 0) (hd : ∀ b ∈ region, b < 256) (h1 : base ≤ addr)
    (h2 : addr + length ≤ base + region.length) :
    ioRead req tag (fun t => handleIoRead completer region (t.address % 2 ^ k) t) addr length =
      some (slice region (addr - base) (addr - base + length)) := by
  obtain ⟨extra, hx⟩ := ioRead_spec req completer tag base region _ _ hd (ep_maps hk hb hs hs4) length addr length (Nat.le_refl _) h1 h2
  unfold ioRead
  rw [hx, Option.map_some, List.take_append_of_le_length (by rw [slice_length]; omega),
    List.take_of_length_le (by rw [slice_length]; omega)]

/-- **C52.** An IO read touches only the enabled bytes: the others read as zero. -/
theorem C52_io_read_enables (completer : Id) (region : List Nat) (addr : Nat) (t : Tlp) (h : t.length = 1) (hb : ∀ b ∈ region, b < 256)
    (hr : addr + 4 ≤ region.length) :
    ∃ c w bs, handleIoRead completer region addr t = some c ∧ c.data = [w] ∧ packLE 4 w = some bs ∧ check c = true ∧
      c.requester = t.requester ∧ c.tag = t.tag ∧
      ∀ j, j < 4 → bs[j]? = if t.firstBe.testBit j then region[addr + j]? else some 0 := by
  obtain ⟨c, w, bs, c1, c2, c3, c4, c5, c6, c7, c8, c9, c10⟩ := handleIoRead_spec completer region addr t h hb hr
  exact ⟨c, w, bs, c1, c2, c3, c6, c7, c8, c10⟩

example : ioRead {} (fun _ => 0) (fun t => handleIoRead {} [1, 2, 3, 4, 5, 6, 7, 8] (t.address % 2 ^ 3) t) 0x1003 4 = some [4, 5, 6, 7] := by
  decide

end Corundum.Pcie
