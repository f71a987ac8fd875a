import Verif.Proof.AxiRead

/-! C36, C37: the AXI master and memory bus models. -/

namespace Corundum.Axi

open Corundum.Spec

/-- C36. Any sequence of write commands: the master raises no exception, the memory accepts every
burst (no failed assertion, no data word left over or missing), the final contents are those of
storing the byte strings one command after the other, and the master reports every command complete
with its address, length and an OKAY response, consuming exactly the responses issued. -/
theorem C36_write (c : Cfg) (hc : c.Ok) (ms : Nat) (hms : 0 < ms) (hbm : c.bw ∣ ms) (id : Nat)
    (cmds : List WCmd)
    (hw : ∀ w ∈ cmds, w.burst = INCR ∧ (∀ s, w.size = some s → 2 ^ s ≤ c.bw) ∧ ∀ d ∈ w.data, d < 256)
    (m : Mem) :
    ∃ as ws cs rs, masterWrites c id cmds = some (as, ws, cs) ∧
      ramWrites c.bw ms as m ws =
        some (cmds.foldl (fun m w => flatWrite ms m w.addr w.data) m, [], rs) ∧
      masterResps cs rs = some (cmds.map fun w => (w.addr, w.data.length, 0), []) := by
  obtain ⟨as, ws, cs, h1, _, h3, h4⟩ := masterWrites_spec hc hms hbm cmds id hw
  refine ⟨as, ws, cs, as.map fun x => (x.id, 0), h1, ?_, ?_⟩
  · have := h3 m []; rwa [List.append_nil] at this
  · have := h4 []; rwa [List.append_nil] at this

/-- C36. One write of at most the memory size stores byte `i` at address `addr+i` (modulo the memory
size) and changes no other byte. -/
theorem C36_exact (c : Cfg) (hc : c.Ok) (ms : Nat) (hms : 0 < ms) (hbm : c.bw ∣ ms) (id : Nat)
    (addr : Nat) (data : List Nat) (size : Option Nat) (hs : ∀ s, size = some s → 2 ^ s ≤ c.bw)
    (hd : ∀ d ∈ data, d < 256) (hl : data.length ≤ ms) (m : Mem) :
    ∃ as ws n id' m' rs, masterWrite c id ⟨addr, data, INCR, size⟩ = some (as, ws, n, id') ∧
      ramWrites c.bw ms as m ws = some (m', [], rs) ∧ rs.length = n ∧
      (∀ i, (h : i < data.length) → m' ((addr + i) % ms) = data[i]) ∧
      (∀ x, (∀ i, i < data.length → (addr + i) % ms ≠ x) → m' x = m x) := by
  obtain ⟨as, ws, id', h1, _, _, h4⟩ := masterWrite_spec hc hms hbm id ⟨addr, data, INCR, size⟩ ⟨rfl, hs, hd⟩
  have := h4 m []
  rw [List.append_nil] at this
  exact ⟨as, ws, _, id', _, _, h1, this, by simp, fun i h => flatWrite_get ms data m addr i hl h,
    fun x h => flatWrite_other ms data m addr x h⟩

/-- C36. Every write burst has 1 to 256 beats, no more than the configured maximum, starts on a
multiple of its beat size, and its first and last byte lie in the same 4 KiB page. -/
theorem C36_bursts (c : Cfg) (hc : c.Ok) (id : Nat) (cmds : List WCmd)
    (hw : ∀ w ∈ cmds, w.burst = INCR ∧ (∀ s, w.size = some s → 2 ^ s ≤ c.bw) ∧ ∀ d ∈ w.data, d < 256) :
    ∃ as ws cs, masterWrites c id cmds = some (as, ws, cs) ∧
      ∀ x ∈ as, x.len + 1 ≤ 256 ∧ x.len + 1 ≤ max c.maxBurst 1 ∧ 2 ^ x.size ∣ x.addr ∧ 2 ^ x.size ≤ c.bw ∧
        x.addr / 4096 = (x.addr + 2 ^ x.size * (x.len + 1) - 1) / 4096 := by
  have hb : 0 < c.bw := by obtain ⟨w, _, h⟩ := hc; rw [h]; exact Nat.two_pow_pos _
  obtain ⟨as, ws, cs, h1, h2, _, _⟩ := masterWrites_spec hc hb (Nat.dvd_refl _) cmds id hw
  refine ⟨as, ws, cs, h1, fun x hx => ?_⟩
  obtain ⟨s, q1, ⟨e1, e2, e3, e4, e5⟩, q3⟩ := h2 x hx
  rw [e1]
  have : 0 < 2 ^ s * (x.len + 1) := Nat.mul_pos (Nat.two_pow_pos _) (by omega)
  exact ⟨e3, q3, e4, q1, by omega⟩

/-- C36. A write needs exactly as many beats as beat-sized units its bytes touch. -/
theorem C36_beats (c : Cfg) (hc : c.Ok) (id addr : Nat) (data : List Nat) (size : Option Nat)
    (hs : ∀ s, size = some s → 2 ^ s ≤ c.bw) (hd : ∀ d ∈ data, d < 256) (hne : data ≠ []) :
    ∃ as ws n id', masterWrite c id ⟨addr, data, INCR, size⟩ = some (as, ws, n, id') ∧
      ws.length = (addr + data.length - 1) / 2 ^ sizeOf c size - addr / 2 ^ sizeOf c size + 1 := by
  have hb : 0 < c.bw := by obtain ⟨w, _, h⟩ := hc; rw [h]; exact Nat.two_pow_pos _
  obtain ⟨as, ws, id', h1, h2, _, _⟩ :=
    masterWrite_spec hc hb (Nat.dvd_refl _) id ⟨addr, data, INCR, size⟩ ⟨rfl, hs, hd⟩
  refine ⟨as, ws, _, id', h1, ?_⟩
  rw [h2]
  have hp : 0 < data.length := List.length_pos_iff.mpr hne
  unfold cyclesOf
  simp only
  have hnb : 0 < 2 ^ sizeOf c size := Nat.two_pow_pos _
  generalize 2 ^ sizeOf c size = nb at *
  have ha := Nat.div_add_mod addr nb
  rw [show data.length + nb - 1 + addr % nb = addr % nb + data.length - 1 + nb by omega,
    Nat.add_div_right _ hnb]
  have e : addr + data.length - 1 = nb * (addr / nb) + (addr % nb + data.length - 1) := by omega
  rw [e, Nat.mul_add_div hnb]
  generalize (addr % nb + data.length - 1) / nb = z
  omega

/-- C37. Any sequence of read commands: the memory accepts every burst, the master's response
assertions hold, and each command gets exactly the bytes stored at its addresses, in order, with an
OKAY response. -/
theorem C37_read (c : Cfg) (hc : c.Ok) (ms : Nat) (hms : 0 < ms) (hbm : c.bw ∣ ms) (m : Mem)
    (hm : ∀ x, m x < 256) (id : Nat) (cmds : List RCmd)
    (hq : ∀ q ∈ cmds, q.burst = INCR ∧ ∀ s, q.size = some s → 2 ^ s ≤ c.bw) :
    ∃ as cs beats, masterReads c id cmds = some (as, cs) ∧ ramReads c.bw ms m as = some beats ∧
      masterData c cs beats = some (cmds.map fun q =>
        (q.addr, (List.range q.len).map (fun i => m ((q.addr + i) % ms)), 0), []) := by
  obtain ⟨as, cs, beats, h1, _, h3, h4⟩ := masterReads_spec hc hms hbm m hm cmds id hq
  have := h4 []
  rw [List.append_nil] at this
  exact ⟨as, cs, beats, h1, h3, this⟩

/-- C37. Every read burst obeys the same rules. -/
theorem C37_bursts (c : Cfg) (hc : c.Ok) (id : Nat) (cmds : List RCmd)
    (hq : ∀ q ∈ cmds, q.burst = INCR ∧ ∀ s, q.size = some s → 2 ^ s ≤ c.bw) :
    ∃ as cs, masterReads c id cmds = some (as, cs) ∧
      ∀ x ∈ as, x.len + 1 ≤ 256 ∧ x.len + 1 ≤ max c.maxBurst 1 ∧ 2 ^ x.size ∣ x.addr ∧ 2 ^ x.size ≤ c.bw ∧
        x.addr / 4096 = (x.addr + 2 ^ x.size * (x.len + 1) - 1) / 4096 := by
  have hb : 0 < c.bw := by obtain ⟨w, _, h⟩ := hc; rw [h]; exact Nat.two_pow_pos _
  obtain ⟨as, cs, _, h1, h2, _, _⟩ :=
    masterReads_spec hc hb (Nat.dvd_refl _) (fun _ => 0) (by simp) cmds id hq
  refine ⟨as, cs, h1, fun x hx => ?_⟩
  obtain ⟨s, q1, ⟨e1, e2, e3, e4, e5⟩, q3⟩ := h2 x hx
  rw [e1]
  have : 0 < 2 ^ s * (x.len + 1) := Nat.mul_pos (Nat.two_pow_pos _) (by omega)
  exact ⟨e3, q3, e4, q1, by omega⟩

/-- C37. Reading back a range just written returns the data, for any two transfer sizes. -/
theorem C37_read_back (c : Cfg) (hc : c.Ok) (ms : Nat) (hms : 0 < ms) (hbm : c.bw ∣ ms) (m : Mem)
    (hm : ∀ x, m x < 256) (id id2 addr : Nat) (data : List Nat) (size size2 : Option Nat)
    (hs : ∀ s, size = some s → 2 ^ s ≤ c.bw) (hs2 : ∀ s, size2 = some s → 2 ^ s ≤ c.bw)
    (hd : ∀ d ∈ data, d < 256) (hl : data.length ≤ ms) :
    ∃ as ws n id' m' rs as' cs beats, masterWrite c id ⟨addr, data, INCR, size⟩ = some (as, ws, n, id') ∧
      ramWrites c.bw ms as m ws = some (m', [], rs) ∧
      masterReads c id2 [⟨addr, data.length, INCR, size2⟩] = some (as', cs) ∧
      ramReads c.bw ms m' as' = some beats ∧ masterData c cs beats = some ([(addr, data, 0)], []) := by
  obtain ⟨as, ws, n, id', m', rs, h1, h2, _, h4, h5⟩ := C36_exact c hc ms hms hbm id addr data size hs hd hl m
  have hm' : ∀ x, m' x < 256 := by
    intro x
    by_cases h : ∃ i, i < data.length ∧ (addr + i) % ms = x
    · obtain ⟨i, hi, rfl⟩ := h
      rw [h4 i hi]
      exact hd _ (List.getElem_mem _)
    · rw [h5 x fun i hi e => h ⟨i, hi, e⟩]; exact hm x
  obtain ⟨as', cs, beats, g1, g2, g3⟩ := C37_read c hc ms hms hbm m' hm' id2 [⟨addr, data.length, INCR, size2⟩]
    (by intro q hq; rw [List.mem_singleton] at hq; subst hq; exact ⟨rfl, hs2⟩)
  refine ⟨as, ws, n, id', m', rs, as', cs, beats, h1, h2, g1, g2, ?_⟩
  rw [g3]
  have : (List.range data.length).map (fun i => m' ((addr + i) % ms)) = data := by
    apply List.ext_getElem
    · simp
    · intro i h1 h2
      simp only [List.getElem_map, List.getElem_range]
      exact h4 i h2
  simp only [List.map_cons, List.map_nil, this]

/-- the address of beat `i` of a wrapping burst at `a`: it runs through the aligned block of `ts` bytes that contains `a`,
starting at `a` and continuing at the start of the block after reaching its end -/
def wrapAddr (nb ts a i : Nat) : Nat := a / ts * ts + (a / nb * nb - a / ts * ts + i * nb) % ts

theorem wrap_next (nb ts a i : Nat) (hnb : 0 < nb) (hts : nb ∣ ts) (ht : 0 < ts) :
    nextAddr WRAP nb ts a (wrapAddr nb ts a i) = wrapAddr nb ts a (i + 1) := by
  obtain ⟨k, rfl⟩ := hts
  have hk : 0 < k := Nat.pos_of_ne_zero (by rintro rfl; simp at ht)
  have hb : a / (nb * k) * (nb * k) = nb * (a / (nb * k) * k) := by
    rw [Nat.mul_comm nb k, ← Nat.mul_assoc, Nat.mul_comm]
  have hal : a / nb * nb = nb * (a / nb) := Nat.mul_comm _ _
  unfold nextAddr wrapAddr
  rw [if_neg (by decide)]
  dsimp only
  obtain ⟨B, hB⟩ : ∃ B, B = a / (nb * k) * k := ⟨_, rfl⟩
  obtain ⟨A, hA⟩ : ∃ A, A = a / nb := ⟨_, rfl⟩
  have e1 : ∀ j, (nb * A - nb * B + j * nb) % (nb * k) = nb * ((A - B + j) % k) := by
    intro j; rw [← Nat.mul_sub, Nat.mul_comm j nb, ← Nat.mul_add, Nat.mul_mod_mul_left]
  rw [hb, hal, ← hB, ← hA, e1, e1]
  obtain ⟨x, hx⟩ : ∃ x, x = A - B + i := ⟨_, rfl⟩
  rw [show A - B + (i + 1) = x + 1 by omega, ← hx]
  have hm := Nat.mod_lt x hk
  have hs : (x + 1) % k = if x % k + 1 = k then 0 else x % k + 1 := by
    split
    · rename_i h
      rw [Nat.add_mod]
      by_cases h1 : k = 1
      · subst h1; simp [Nat.mod_one]
      · rw [Nat.mod_eq_of_lt (show 1 < k by omega), h, Nat.mod_self]
    · rw [Nat.add_mod]
      by_cases h1 : k = 1
      · subst h1; omega
      · rw [Nat.mod_eq_of_lt (show 1 < k by omega), Nat.mod_eq_of_lt (by omega)]
  rw [hs]
  have he : nb * B + nb * (x % k) + nb = nb * B + nb * (x % k + 1) := by rw [Nat.mul_add nb, Nat.mul_one, Nat.add_assoc]
  rw [he]
  by_cases h : x % k + 1 = k
  · rw [if_pos ⟨rfl, by rw [h]⟩, if_pos h]; simp
  · rw [if_neg, if_neg h]
    rintro ⟨_, g⟩
    have := Nat.eq_of_mul_eq_mul_left hnb (show nb * (x % k + 1) = nb * k by omega)
    exact h this

theorem fixed_beats (bw ms : Nat) (m : Mem) (b : Addr) (next : Nat → Nat)
    (hn : ∀ i, nextAddr b.burst (2 ^ b.size) (2 ^ b.size * (b.len + 1)) b.addr (next i) = next (i + 1)) :
    ∀ (r i : Nat) (t : List RBeat), ramReadBeats bw ms m b r (next i) = some t →
      t.map (·.data) = (List.range r).map fun j => ramWord bw ms m (next (i + j))
  | 0, i, t, h => by cases h; rfl
  | r + 1, i, t, h => by
    unfold ramReadBeats at h
    split at h
    · rw [hn] at h
      split at h
      · cases h
      · rename_i t' ht
        cases h
        rw [List.map_cons, fixed_beats bw ms m b next hn r (i + 1) t' ht, List.range_succ_eq_map, List.map_cons, List.map_map]
        congr 1
        apply List.map_congr_left
        intro j _
        simp only [Function.comp, Nat.succ_eq_add_one]
        rw [show i + 1 + j = i + (j + 1) by omega]
    · cases h

/-- C37: the memory serves a wrapping burst from the aligned block around its address: beat `i` is the word at the wrapped
address, every word of the block exactly once. -/
theorem C37_wrap_burst (bw ms : Nat) (m : Mem) (b : Addr) (hb : b.burst = WRAP) (t : List RBeat)
    (h : ramReadBeats bw ms m b (b.len + 1) (b.addr / 2 ^ b.size * 2 ^ b.size) = some t) :
    t.map (·.data) = (List.range (b.len + 1)).map fun i =>
      ramWord bw ms m (wrapAddr (2 ^ b.size) (2 ^ b.size * (b.len + 1)) b.addr i) := by
  have hnb : 0 < 2 ^ b.size := Nat.two_pow_pos _
  have hn : ∀ i, nextAddr b.burst (2 ^ b.size) (2 ^ b.size * (b.len + 1)) b.addr (wrapAddr (2 ^ b.size) (2 ^ b.size * (b.len + 1)) b.addr i) =
      wrapAddr (2 ^ b.size) (2 ^ b.size * (b.len + 1)) b.addr (i + 1) := by
    intro i; rw [hb]
    exact wrap_next _ _ _ _ hnb ⟨_, rfl⟩ (Nat.mul_pos hnb (by omega))
  have h0 : wrapAddr (2 ^ b.size) (2 ^ b.size * (b.len + 1)) b.addr 0 = b.addr / 2 ^ b.size * 2 ^ b.size := by
    unfold wrapAddr
    obtain ⟨n, hnn⟩ : ∃ n, n = 2 ^ b.size := ⟨_, rfl⟩
    rw [← hnn] at hnb ⊢
    have e1 : b.addr / (n * (b.len + 1)) * (n * (b.len + 1)) ≤ b.addr / n * n := by
      rw [← Nat.div_div_eq_div_mul, Nat.mul_comm n (b.len + 1), ← Nat.mul_assoc]
      exact Nat.mul_le_mul_right _ (Nat.div_mul_le_self _ _)
    have e2 : b.addr / n * n ≤ b.addr := Nat.div_mul_le_self _ _
    have e3 := Nat.lt_div_mul_add (a := b.addr) (b := n * (b.len + 1)) (Nat.mul_pos hnb (by omega))
    rw [Nat.zero_mul, Nat.add_zero, Nat.mod_eq_of_lt (by omega)]
    omega
  rw [← h0] at h
  rw [fixed_beats bw ms m b _ hn _ 0 t h]
  simp

/-- C37: a fixed burst reads the same word in every beat. -/
theorem C37_fixed_burst (bw ms : Nat) (m : Mem) (b : Addr) (hb : b.burst = FIXED) (t : List RBeat)
    (h : ramReadBeats bw ms m b (b.len + 1) (b.addr / 2 ^ b.size * 2 ^ b.size) = some t) :
    t.map (·.data) = List.replicate (b.len + 1) (ramWord bw ms m (b.addr / 2 ^ b.size * 2 ^ b.size)) := by
  rw [fixed_beats bw ms m b (fun _ => b.addr / 2 ^ b.size * 2 ^ b.size) (by intro i; rw [hb]; rfl) _ 0 t h]
  apply List.ext_getElem <;> simp

/-! A wrapping burst of four 4-byte beats at address 24 (block 16 to 31): words at 24, 28, 16, 20. -/

example : (ramReadBeats 4 64 (fun x => x) ⟨24, 0, 3, 2, WRAP⟩ 4 24).map (·.map fun r => r.data % 256) = some [24, 28, 16, 20] := by decide

/-! Concrete cases: an unaligned write crossing a 4 KiB boundary on a 4-byte bus with 2-byte beats and
bursts of at most three beats, into an 8 KiB memory; and reading it back with full-width beats. -/

example : (Cfg.mk 4 3 (some 1)).Ok := ⟨2, by omega, rfl⟩

example : masterWrite ⟨4, 3, some 1⟩ 0 ⟨4091, [1, 2, 3, 4, 5, 6, 7, 8, 9], INCR, some 1⟩ =
    some ([⟨4090, 0, 2, 1, 1⟩, ⟨4096, 1, 1, 1, 1⟩],
      [⟨0x01000000, 8, false⟩, ⟨0x0302, 3, false⟩, ⟨0x05040000, 12, true⟩, ⟨0x0706, 3, false⟩,
       ⟨0x09080000, 12, true⟩], 2, 0) := by decide

example : (ramReads 4 16 (fun x => x) [⟨4, 0, 1, 2, 1⟩]) =
    some [⟨0, 0x07060504, 0, false⟩, ⟨0, 0x0b0a0908, 0, true⟩] := by decide

end Corundum.Axi
