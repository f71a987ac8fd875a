import Verif.Proof.Axil
/-!
C141, C142: the AXI-Lite master and memory of the simulation.
-/
namespace Corundum.Axil
open Corundum.Spec

/-- C141. Any list of writes, of any lengths at any addresses, stores each byte at its own address modulo
the memory size, in the order of the commands, changes nothing else, and each command is answered
once, with response 0, by the words it was split into. -/
theorem C141_write (bw ms : Nat) (hb : 0 < bw) (hd : bw ∣ ms) (hms : 0 < ms) (cs : List Write)
    (hv : ∀ c ∈ cs, ∀ d ∈ c.data, d < 256) (m : Mem) :
    ∃ ws, writeCmds bw cs = some ws ∧
      ws.foldl (ramWrite bw ms) m = cs.foldl (fun m c => flatWrite ms m c.addr c.data) m ∧
      writeResps bw cs (ws.map fun _ => 0) = some (cs.map fun c => (c.addr, c.data.length, 0), []) := by
  obtain ⟨ws, h1, h2, h3⟩ := writeCmds_spec hb hd hms cs hv
  refine ⟨ws, h1, h3 m, ?_⟩
  have e : (ws.map fun _ => 0) = List.replicate (cs.map fun c => cycles bw c.addr c.data.length).sum 0 := by
    rw [← h2, List.map_const']
  rw [e]
  clear h1 h2 h3 e hv
  induction cs with
  | nil => rfl
  | cons c cs ih =>
    obtain ⟨x, g1, g2, _⟩ := bresp_spec (List.replicate (cycles bw c.addr c.data.length) 0) 0
      (List.replicate (cs.map fun c => cycles bw c.addr c.data.length).sum 0)
    rw [List.length_replicate] at g1
    have hx : x = 0 := by
      rcases g2 with g | g
      · exact List.eq_of_mem_replicate g
      · exact g
    subst hx
    rw [List.map_cons, List.sum_cons, ← List.replicate_append_replicate]
    simp only [writeResps, g1, ih, List.map_cons]

/-- C141. One write of at most the memory size, spelled out byte by byte. -/
theorem C141_exact (bw ms : Nat) (hb : 0 < bw) (hd : bw ∣ ms) (hms : 0 < ms) (addr : Nat) (data : List Nat)
    (hv : ∀ d ∈ data, d < 256) (hl : data.length ≤ ms) (m : Mem) :
    ∃ ws, writeCmds bw [⟨addr, data⟩] = some ws ∧
      (∀ i, (h : i < data.length) → ws.foldl (ramWrite bw ms) m ((addr + i) % ms) = data[i]) ∧
      (∀ x, (∀ i, i < data.length → (addr + i) % ms ≠ x) → ws.foldl (ramWrite bw ms) m x = m x) := by
  obtain ⟨ws, h1, h2, _⟩ := C141_write bw ms hb hd hms [⟨addr, data⟩] (by simpa using hv) m
  refine ⟨ws, h1, fun i h => ?_, fun x h => ?_⟩
  · rw [h2]; exact flatWrite_get ms data m addr i hl h
  · rw [h2]; exact flatWrite_other ms data m addr x h

/-- C141. Each word of a write lies inside one bus word: its address is inside the range written and
only lanes of bytes in the range are enabled, every one of them in exactly one word. -/
theorem C141_strobes (bw : Nat) (hb : 0 < bw) (addr : Nat) (data : List Nat) (hv : ∀ d ∈ data, d < 256) (b : Nat) :
    ∃ ws, writeCmds bw [⟨addr, data⟩] = some ws ∧
      (ws.countP fun w => decide (b / bw = w.addr / bw) && w.strb.testBit (b % bw)) =
        if addr ≤ b ∧ b < addr + data.length then 1 else 0 := by
  obtain ⟨ws, h1, _, _, h4⟩ := writeCmd_spec hb (Nat.dvd_refl bw) hb ⟨addr, data⟩ hv
  exact ⟨ws, by simp [writeCmds, h1], h4 b⟩

/-- C141. Whatever the other side answers, the responses are taken in order, one for each word of the command, and
the response reported for a command is an error exactly when one of its own words was answered with an
error, and then it is one of these. -/
theorem C141_response (bw : Nat) (cs : List Write) (qs : List (List Nat)) (hl : qs.length = cs.length)
    (hq : ∀ i (h : i < cs.length), (qs[i]'(hl ▸ h)).length =
      (cs[i].data.length + bw - 1 + cs[i].addr % bw) / bw) :
    ∃ rs, writeResps bw cs qs.flatten = some (rs, []) ∧ rs.length = cs.length ∧
      ∀ i (h : i < cs.length) (h' : i < rs.length), rs[i].1 = cs[i].addr ∧ rs[i].2.1 = cs[i].data.length ∧
        (rs[i].2.2 ≠ 0 ↔ ∃ y ∈ qs[i]'(hl ▸ h), y ≠ 0) ∧ (rs[i].2.2 ≠ 0 → rs[i].2.2 ∈ qs[i]'(hl ▸ h)) := by
  induction cs generalizing qs with
  | nil =>
    cases qs with
    | nil => exact ⟨[], rfl, rfl, fun i h => absurd h (Nat.not_lt_zero _)⟩
    | cons _ _ => cases hl
  | cons c cs ih =>
    cases qs with
    | nil => cases hl
    | cons q qs =>
      have hl' : qs.length = cs.length := by simpa using hl
      obtain ⟨rs, h1, h2, h3⟩ := ih qs hl' (fun i h => hq (i + 1) (by simpa using h))
      obtain ⟨x, g1, g2, g3⟩ := bresp_spec q 0 qs.flatten
      have hq0 : q.length = cycles bw c.addr c.data.length := hq 0 (by simp)
      rw [hq0] at g1
      refine ⟨(c.addr, c.data.length, x) :: rs, ?_, by simp [h2], ?_⟩
      · rw [List.flatten_cons]
        simp only [writeResps, g1, h1]
      · intro i h h'
        cases i with
        | zero =>
          refine ⟨rfl, rfl, ?_, ?_⟩
          · simpa using g3
          · intro hx
            rcases g2 with g | g
            · exact g
            · exact absurd g hx
        | succ i => exact h3 i (by simpa using h) (by simpa using h')

/-- a write of five bytes at address 3 on a 4 byte bus: two words, one lane of the first -/
example : writeCmds 4 [⟨3, [1, 2, 3, 4, 5]⟩] = some [⟨3, 0x01000000, 8⟩, ⟨4, 0x05040302, 15⟩] := by decide

/-- C142. Any list of reads, none of which is an empty read at an aligned address, returns for each command
the bytes the memory holds, in order, and nothing is left over. -/
theorem C142_read (bw ms : Nat) (hb : 0 < bw) (hd : bw ∣ ms) (hms : 0 < ms) (m : Mem) (hm : ∀ x, m x < 256)
    (cs : List Read) (hc : ∀ c ∈ cs, 0 < c.len ∨ c.addr % bw ≠ 0) :
    readData bw cs ((readCmds bw cs).map fun a => (ramRead bw ms m a, 0)) =
      some (cs.map fun c => (c.addr, (List.range c.len).map (fun i => m ((c.addr + i) % ms)), 0), []) := by
  have := readData_spec hb hd hms m hm cs [] hc
  rwa [List.append_nil] at this

example : readCmds 4 [⟨6, 9⟩, ⟨1, 0⟩] = [6, 8, 12, 1] ∧
    readData 4 [⟨6, 9⟩, ⟨1, 0⟩] ((readCmds 4 [⟨6, 9⟩, ⟨1, 0⟩]).map fun a => (ramRead 4 16 (fun x => x) a, 0)) =
      some ([(6, [6, 7, 8, 9, 10, 11, 12, 13, 14], 0), (1, [], 0)], []) := by decide

/-- C142. Whatever the other side answers, the answers are taken in order, as many for each command as it has
words, and the response reported is an error exactly when one of its own answers was one, and then it is one of these. -/
theorem C142_response (bw : Nat) (cs : List Read) (qs : List (List (Nat × Nat))) (hl : qs.length = cs.length)
    (hq : ∀ i (h : i < cs.length), (qs[i]'(hl ▸ h)).length = (cs[i].len + bw - 1 + cs[i].addr % bw) / bw) :
    ∃ rs, readData bw cs qs.flatten = some (rs, []) ∧ rs.length = cs.length ∧
      ∀ i (h : i < cs.length) (h' : i < rs.length), rs[i].1 = cs[i].addr ∧
        (rs[i].2.2 ≠ 0 ↔ ∃ y ∈ qs[i]'(hl ▸ h), y.2 ≠ 0) ∧
        (rs[i].2.2 ≠ 0 → ∃ y ∈ qs[i]'(hl ▸ h), y.2 = rs[i].2.2) := by
  induction cs generalizing qs with
  | nil =>
    cases qs with
    | nil => exact ⟨[], rfl, rfl, fun i h => absurd h (Nat.not_lt_zero _)⟩
    | cons _ _ => cases hl
  | cons c cs ih =>
    cases qs with
    | nil => cases hl
    | cons q qs =>
      have hl' : qs.length = cs.length := by simpa using hl
      obtain ⟨rs, h1, h2, h3⟩ := ih qs hl' (fun i h => hq (i + 1) (by simpa using h))
      obtain ⟨d, x, g1, g2, g3⟩ := rdata_resp bw c q 0 [] 0 qs.flatten
      have hq0 : q.length = cycles bw c.addr c.len := hq 0 (by simp)
      rw [hq0] at g1
      refine ⟨(c.addr, d, x) :: rs, ?_, by simp [h2], ?_⟩
      · rw [List.flatten_cons]
        simp only [readData, g1, h1]
      · intro i h h'
        cases i with
        | zero =>
          refine ⟨rfl, ?_, ?_⟩
          · simpa using g3
          · intro hx
            rcases g2 with g | g
            · exact List.mem_map.1 g
            · exact absurd g hx
        | succ i => exact h3 i (by simpa using h) (by simpa using h')

/-- C142. Data written is what a later read of the same range returns. -/
theorem C142_roundtrip (bw ms : Nat) (hb : 0 < bw) (hd : bw ∣ ms) (hms : 0 < ms) (m : Mem) (hm : ∀ x, m x < 256)
    (addr : Nat) (data : List Nat) (hv : ∀ d ∈ data, d < 256) (hne : data ≠ []) (hl : data.length ≤ ms) :
    ∃ ws, writeCmds bw [⟨addr, data⟩] = some ws ∧
      readData bw [⟨addr, data.length⟩] ((readCmds bw [⟨addr, data.length⟩]).map fun a =>
        (ramRead bw ms (ws.foldl (ramWrite bw ms) m) a, 0)) = some ([(addr, data, 0)], []) := by
  obtain ⟨ws, h1, h2, h3⟩ := C141_exact bw ms hb hd hms addr data hv hl m
  have hb' : ∀ x, ws.foldl (ramWrite bw ms) m x < 256 := by
    intro x
    by_cases hx : ∃ i, i < data.length ∧ (addr + i) % ms = x
    · obtain ⟨i, hi, e⟩ := hx
      rw [← e, h2 i hi]
      exact hv _ (List.getElem_mem _)
    · rw [h3 x fun i hi e => hx ⟨i, hi, e⟩]
      exact hm x
  refine ⟨ws, h1, ?_⟩
  rw [C142_read bw ms hb hd hms _ hb' _ (by
    intro c h
    simp only [List.mem_singleton] at h
    rw [h]
    exact Or.inl (List.length_pos_iff.2 hne))]
  simp only [List.map_cons, List.map_nil]
  congr 4
  congr 1
  apply List.ext_getElem (by simp)
  intro i h i'
  simp only [List.getElem_map, List.getElem_range]
  exact h2 i i'

/-- C142. The code as it is: an empty read at an aligned address puts one address on the bus whose answer
nobody takes. The next read of a word gets this answer: the bytes of the wrong address, and its own answer is
left for the read after it. -/
theorem C142_empty_counterexample (bw ms : Nat) (hb : 0 < bw) (hd : bw ∣ ms) (hms : 0 < ms) (m : Mem)
    (hm : ∀ x, m x < 256) (a b : Nat) (ha : a % bw = 0) (hb' : b % bw = 0) :
    readData bw [⟨a, 0⟩, ⟨b, bw⟩] ((readCmds bw [⟨a, 0⟩, ⟨b, bw⟩]).map fun x => (ramRead bw ms m x, 0)) =
      some ([(a, [], 0), (b, (List.range bw).map (fun i => m ((a + i) % ms)), 0)], [(ramRead bw ms m b, 0)]) := by
  have c0 : cycles bw a 0 = 0 := by
    unfold cycles
    rw [ha]
    exact Nat.div_eq_of_lt (by omega)
  have c1 : cycles bw b bw = 1 := by
    unfold cycles
    rw [hb', Nat.div_eq_iff hb]
    omega
  have eo : endOffset bw b bw = bw := by
    have sh := (shape bw b bw hb).last 0 c1.symm
    rw [hb'] at sh
    omega
  have e : readCmds bw [⟨a, 0⟩, ⟨b, bw⟩] = [a / bw * bw + a % bw, b / bw * bw + b % bw] := by
    simp [readCmds, readCmd, c0, c1]
  have ea : a / bw * bw + a % bw = a := by rw [Nat.mul_comm]; exact Nat.div_add_mod _ _
  have eb : b / bw * bw + b % bw = b := by rw [Nat.mul_comm]; exact Nat.div_add_mod _ _
  rw [e, ea, eb]
  have hu := unpack_read hd hms m hm a 0 bw (Nat.le_refl _)
  rw [show a / bw * bw + 0 = a from by omega] at hu
  simp [readData, c0, c1, rdata, eo, hb', hu, flatRead]

example : readData 4 [⟨0, 0⟩, ⟨8, 4⟩] ((readCmds 4 [⟨0, 0⟩, ⟨8, 4⟩]).map fun a => (ramRead 4 16 (fun x => x) a, 0)) =
    some ([(0, [], 0), (8, [0, 1, 2, 3], 0)], [(0x0b0a0908, 0)]) := by decide

end Corundum.Axil
