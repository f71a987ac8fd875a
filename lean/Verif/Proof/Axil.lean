import Verif.Model.Axil
import Verif.Proof.AxiRead

namespace Corundum.Axil
open Corundum.Spec

theorem pack_eq : ∀ (ds : List Nat) (v j : Nat), pack v j ds = Axi.putLanes v j ds
  | [], _, _ => rfl
  | d :: ds, v, j => by simp only [pack, Axi.putLanes, pack_eq ds]

theorem unpack_eq (v a b : Nat) : unpack v a b = Axi.getLanes v a b := rfl

theorem ramWrite_eq (bw ms : Nat) (m : Mem) (a v s : Nat) :
    ramWrite bw ms m ⟨a, v, s⟩ = Axi.ramBeat bw ms m a ⟨v, s, true⟩ := rfl

theorem ramRead_eq (bw ms : Nat) (m : Mem) (a : Nat) : ramRead bw ms m a = Axi.ramWord bw ms m a := rfl

/-- number of words and end offset of a command -/
structure Shape (bw addr len n eo : Nat) : Prop where
  lo : len + addr % bw ≤ n * bw
  hi : n * bw < len + addr % bw + bw
  last : ∀ k, k + 1 = n → eo + k * bw = addr % bw + len
  eo : 0 < eo ∧ eo ≤ bw

theorem shape (bw addr len : Nat) (hb : 0 < bw) : Shape bw addr len (cycles bw addr len) (endOffset bw addr len) := by
  have hn : cycles bw addr len * bw ≤ len + bw - 1 + addr % bw := Nat.div_mul_le_self _ _
  have hn' : len + bw - 1 + addr % bw < cycles bw addr len * bw + bw := by
    have := Nat.lt_div_mul_add (a := len + bw - 1 + addr % bw) hb
    exact this
  have hlt := Nat.mod_lt (addr + len + bw - 1) hb
  refine ⟨by omega, by omega, fun k hk => ?_, ⟨Nat.succ_pos _, hlt⟩⟩
  rw [← hk] at hn hn'
  rw [Nat.succ_mul] at hn hn'
  unfold endOffset
  have e : (addr + len + bw - 1) % bw = addr % bw + len - k * bw - 1 := by
    have hd := Nat.div_add_mod addr bw
    have hz : 0 < addr % bw + len - k * bw ∨ (k = 0 ∧ addr % bw + len = 0) ∨ addr % bw + len = k * bw := by omega
    have : 0 < addr % bw + len - k * bw := by omega
    have : addr + len + bw - 1 = (addr % bw + len - k * bw - 1) + bw * (addr / bw + k + 1) := by
      rw [Nat.mul_add, Nat.mul_add, Nat.mul_comm bw k]
      omega
    rw [this, Nat.add_mul_mod_self_left]
    exact Nat.mod_eq_of_lt (by omega)
  rw [e]
  omega

theorem strb_eq (bw so eo : Nat) (k r : Prop) [Decidable k] [Decidable r] (he : eo ≤ bw) :
    (if r then (if k then (2 ^ bw - 1) &&& (((2 ^ bw - 1) <<< so) &&& (2 ^ bw - 1)) else 2 ^ bw - 1) &&&
        ((2 ^ bw - 1) >>> (bw - eo))
      else (if k then (2 ^ bw - 1) &&& (((2 ^ bw - 1) <<< so) &&& (2 ^ bw - 1)) else 2 ^ bw - 1)) =
      Axi.strobe bw (if k then so else 0) (if r then eo else bw) := by
  apply Nat.eq_of_testBit_eq
  intro i
  rw [Axi.strobe_bit _ _ _ _ (by split <;> omega)]
  rw [Bool.eq_iff_iff]
  by_cases hk : k <;> by_cases hr : r <;>
    simp only [hk, hr, if_true, if_false, Nat.testBit_and, Nat.testBit_shiftLeft, Nat.testBit_two_pow_sub_one,
      Nat.testBit_shiftRight, Bool.and_eq_true, decide_eq_true_eq] <;> omega

/-- byte `b` is on an enabled lane of the word -/
def covers (bw b : Nat) (w : Word) : Bool := decide (b / bw = w.addr / bw) && w.strb.testBit (b % bw)

theorem words_spec {bw ms : Nat} (hb : 0 < bw) (hd : bw ∣ ms) (hms : 0 < ms) (c : Write)
    (hv : ∀ d ∈ c.data, d < 256) :
    ∀ (r k off : Nat), k + r = cycles bw c.addr c.data.length → off ≤ c.data.length →
      (r = 0 → off = c.data.length) →
      (0 < r → off + c.addr % bw = k * bw + if k = 0 then c.addr % bw else 0) →
      ∃ ws, words bw c r k off = some ws ∧ ws.length = r ∧
        (∀ m, ws.foldl (ramWrite bw ms) m = flatWrite ms m (c.addr + off) (c.data.drop off)) ∧
        ∀ b, ws.countP (covers bw b) = if c.addr + off ≤ b ∧ b < c.addr + c.data.length then 1 else 0
  | 0, k, off, _, _, h0, _ => by
    refine ⟨[], rfl, rfl, fun m => ?_, fun b => ?_⟩
    · rw [h0 rfl, List.drop_length]
      rfl
    · rw [h0 rfl, if_neg (by omega)]
      rfl
  | r + 1, k, off, hn, hl, _, h1 => by
    have sh := shape bw c.addr c.data.length hb
    rw [← hn] at sh
    have hso := Nat.mod_lt c.addr hb
    have hdm := Nat.div_add_mod c.addr bw
    rw [Nat.mul_comm] at hdm
    specialize h1 (by omega)
    obtain ⟨start, hstart⟩ : ∃ x, (if k = 0 then c.addr % bw else 0) = x := ⟨_, rfl⟩
    obtain ⟨stop, hstop⟩ : ∃ x, (if r = 0 then endOffset bw c.addr c.data.length else bw) = x := ⟨_, rfl⟩
    rw [hstart] at h1
    have hs : start < bw := by rw [← hstart]; split <;> omega
    have hst : stop ≤ bw := by rw [← hstop]; split; exact sh.eo.2; omega
    have hsk : k = 0 → start = c.addr % bw := fun h => by rw [← hstart, if_pos h]
    have hsk' : k ≠ 0 → start = 0 := fun h => by rw [← hstart, if_neg h]
    have key : start ≤ stop ∧ off + (stop - start) ≤ c.data.length ∧
        (r = 0 → off + (stop - start) = c.data.length) ∧
        (0 < r → off + (stop - start) + c.addr % bw = (k + 1) * bw) := by
      have hsm : (k + 1) * bw = k * bw + bw := Nat.succ_mul _ _
      by_cases hr : r = 0
      · rw [if_pos hr] at hstop
        have hl' := sh.last k (by omega)
        rw [hstop] at hl'
        by_cases hk : k = 0
        · have := hsk hk
          subst hk
          simp only [Nat.zero_mul] at *
          omega
        · have := hsk' hk
          omega
      · rw [if_neg hr] at hstop
        have hl' := sh.hi
        have hm : (k + 1) * bw + bw ≤ (k + (r + 1)) * bw := by
          rw [← Nat.succ_mul]
          exact Nat.mul_le_mul_right _ (by omega)
        omega
    obtain ⟨k1, k2, k3, k4⟩ := key
    obtain ⟨ws, e1, e2, e3, e4⟩ := words_spec hb hd hms c hv r (k + 1) (off + (stop - start)) (by omega) k2 k3
      (fun h => by rw [k4 h]; simp)
    have hlen : ((c.data.drop off).take (stop - start)).length = stop - start := by
      rw [List.length_take, List.length_drop]; omega
    have hval := fun m cur => Axi.beat_flat hb hd hms m cur start ((c.data.drop off).take (stop - start))
      true (by rw [hlen]; omega)
      (fun d h => hv d (List.mem_of_mem_drop (List.mem_of_mem_take h)))
    rw [hlen, Nat.add_sub_cancel' k1] at hval
    refine ⟨⟨c.addr / bw * bw + start + k * bw, pack 0 start ((c.data.drop off).take (stop - start)),
      Axi.strobe bw start stop⟩ :: ws, ?_, by rw [List.length_cons, e2], fun m => ?_, fun b => ?_⟩
    · simp only [words]
      rw [strb_eq bw (c.addr % bw) _ (k = 0) (r = 0) sh.eo.2, hstart, hstop, if_pos k2, e1]
    · rw [List.foldl_cons, e3, ramWrite_eq, pack_eq, hval]
      have ea : (c.addr / bw * bw + start + k * bw) / bw * bw = c.addr / bw * bw + k * bw := by
        rw [show c.addr / bw * bw + start + k * bw = start + bw * (c.addr / bw + k) from by
          rw [Nat.mul_add, Nat.mul_comm bw k, Nat.mul_comm bw (c.addr / bw)]; omega, Nat.add_mul_div_left _ _ hb,
          Nat.div_eq_of_lt hs, Nat.zero_add, Nat.add_mul]
      rw [ea, show c.addr / bw * bw + k * bw + start = c.addr + off from by omega,
        show c.addr + (off + (stop - start)) = c.addr + off + ((c.data.drop off).take (stop - start)).length from by
          rw [hlen]; omega, ← List.drop_drop, ← flatWrite_append, List.take_append_drop]
    · rw [List.countP_cons, e4]
      have ea : (c.addr / bw * bw + start + k * bw) / bw = c.addr / bw + k := by
        rw [show c.addr / bw * bw + start + k * bw = start + bw * (c.addr / bw + k) from by
          rw [Nat.mul_add, Nat.mul_comm bw k, Nat.mul_comm bw (c.addr / bw)]; omega, Nat.add_mul_div_left _ _ hb,
          Nat.div_eq_of_lt hs, Nat.zero_add]
      have ec : (covers bw b ⟨c.addr / bw * bw + start + k * bw,
          pack 0 start ((c.data.drop off).take (stop - start)), Axi.strobe bw start stop⟩ = true) ↔
          c.addr + off ≤ b ∧ b < c.addr + off + (stop - start) := by
        unfold covers
        rw [Bool.and_eq_true, decide_eq_true_eq, ea, Axi.strobe_bit _ _ _ _ hst, decide_eq_true_eq]
        have hbd := Nat.div_add_mod b bw
        have hbm := Nat.mod_lt b hb
        have hw : c.addr / bw * bw + k * bw = (c.addr / bw + k) * bw := (Nat.add_mul _ _ _).symm
        rw [Nat.mul_comm] at hbd
        constructor
        · rintro ⟨h1, h2⟩
          rw [h1] at hbd
          omega
        · intro h
          have : b / bw = c.addr / bw + k := by
            rw [Nat.div_eq_iff hb]
            omega
          rw [this] at hbd
          exact ⟨this, by omega⟩
      by_cases hc : c.addr + off ≤ b ∧ b < c.addr + off + (stop - start)
      · rw [if_pos (ec.2 hc), if_neg (by omega), if_pos (by omega)]
      · rw [if_neg (fun h => hc (ec.1 h))]
        by_cases h2 : c.addr + (off + (stop - start)) ≤ b ∧ b < c.addr + c.data.length
        · rw [if_pos h2, if_pos (by omega)]
        · rw [if_neg h2, if_neg (by omega)]

theorem writeCmd_spec {bw ms : Nat} (hb : 0 < bw) (hd : bw ∣ ms) (hms : 0 < ms) (c : Write)
    (hv : ∀ d ∈ c.data, d < 256) :
    ∃ ws, writeCmd bw c = some ws ∧ ws.length = cycles bw c.addr c.data.length ∧
      (∀ m, ws.foldl (ramWrite bw ms) m = flatWrite ms m c.addr c.data) ∧
      ∀ b, ws.countP (covers bw b) = if c.addr ≤ b ∧ b < c.addr + c.data.length then 1 else 0 := by
  have sh := shape bw c.addr c.data.length hb
  obtain ⟨ws, h1, h2, h3, h4⟩ := words_spec hb hd hms c hv (cycles bw c.addr c.data.length) 0 0 (Nat.zero_add _)
    (Nat.zero_le _) (fun h => by
      have := sh.lo
      rw [h, Nat.zero_mul] at this
      omega) (fun _ => by simp)
  exact ⟨ws, h1, h2, fun m => by have := h3 m; rwa [Nat.add_zero, List.drop_zero] at this, h4⟩

theorem writeCmds_spec {bw ms : Nat} (hb : 0 < bw) (hd : bw ∣ ms) (hms : 0 < ms) :
    ∀ (cs : List Write), (∀ c ∈ cs, ∀ d ∈ c.data, d < 256) →
    ∃ ws, writeCmds bw cs = some ws ∧
      ws.length = (cs.map fun c => cycles bw c.addr c.data.length).sum ∧
      ∀ m, ws.foldl (ramWrite bw ms) m = cs.foldl (fun m c => flatWrite ms m c.addr c.data) m
  | [], _ => ⟨[], rfl, rfl, fun _ => rfl⟩
  | c :: cs, hv => by
    obtain ⟨ws, h1, h2, h3, _⟩ := writeCmd_spec hb hd hms c (hv c (List.mem_cons_self ..))
    obtain ⟨ws', g1, g2, g3⟩ := writeCmds_spec hb hd hms cs fun c' h => hv c' (List.mem_cons_of_mem _ h)
    refine ⟨ws ++ ws', by simp only [writeCmds, h1, g1], by simp [h2, g2], fun m => ?_⟩
    rw [List.foldl_append, h3, g3, List.foldl_cons]

/-- the response kept: the last one that is not zero -/
theorem bresp_spec : ∀ (q : List Nat) (resp : Nat) (rest : List Nat),
    ∃ x, bresp q.length resp (q ++ rest) = some (x, rest) ∧ (x ∈ q ∨ x = resp) ∧
      (x ≠ 0 ↔ resp ≠ 0 ∨ ∃ y ∈ q, y ≠ 0)
  | [], resp, rest => ⟨resp, rfl, Or.inr rfl, by simp⟩
  | y :: q, resp, rest => by
    obtain ⟨x, h1, h2, h3⟩ := bresp_spec q (if y ≠ 0 then y else resp) rest
    refine ⟨x, h1, ?_, ?_⟩
    · rcases h2 with h | h
      · exact Or.inl (List.mem_cons_of_mem _ h)
      · by_cases hy : y ≠ 0
        · rw [if_pos hy] at h; exact Or.inl (h ▸ List.mem_cons_self ..)
        · rw [if_neg hy] at h; exact Or.inr h
    · rw [h3]
      by_cases hy : y = 0 <;> simp [hy]

theorem unpack_read {bw ms : Nat} (hd : bw ∣ ms) (hms : 0 < ms) (m : Mem) (hm : ∀ x, m x < 256)
    (a start stop : Nat) (hs : stop ≤ bw) :
    unpack (ramRead bw ms m a) start stop = flatRead ms m (a / bw * bw + start) (stop - start) :=
  Axi.getLanes_ramWord hd hms m hm a start stop hs

/-- address of word `k` of a read -/
def wordAddr (bw : Nat) (c : Read) (k : Nat) : Nat := c.addr / bw * bw + k * bw + if k = 0 then c.addr % bw else 0

theorem wordAddr_div {bw : Nat} (hb : 0 < bw) (c : Read) (k : Nat) :
    wordAddr bw c k / bw * bw = c.addr / bw * bw + k * bw := by
  unfold wordAddr
  have hs : (if k = 0 then c.addr % bw else 0) < bw := by
    have := Nat.mod_lt c.addr hb
    split <;> omega
  generalize (if k = 0 then c.addr % bw else 0) = s at hs
  rw [show c.addr / bw * bw + k * bw + s = s + bw * (c.addr / bw + k) from by
    rw [Nat.mul_add, Nat.mul_comm bw k, Nat.mul_comm bw (c.addr / bw)]; omega, Nat.add_mul_div_left _ _ hb,
    Nat.div_eq_of_lt hs, Nat.zero_add, Nat.add_mul]

theorem rdata_spec {bw ms : Nat} (hb : 0 < bw) (hd : bw ∣ ms) (hms : 0 < ms) (m : Mem) (hm : ∀ x, m x < 256)
    (c : Read) (rest : List (Nat × Nat)) :
    ∀ (r k off : Nat), k + r = cycles bw c.addr c.len → off ≤ c.len →
      (r = 0 → off = c.len) →
      (0 < r → off + c.addr % bw = k * bw + if k = 0 then c.addr % bw else 0) →
      rdata bw c r k (flatRead ms m c.addr off) 0
        ((List.range' k r).map (fun k => (ramRead bw ms m (wordAddr bw c k), 0)) ++ rest) =
        some ((flatRead ms m c.addr c.len, 0), rest)
  | 0, k, off, _, _, h0, _ => by
    rw [h0 rfl]
    rfl
  | r + 1, k, off, hn, hl, _, h1 => by
    have sh := shape bw c.addr c.len hb
    rw [← hn] at sh
    have hso := Nat.mod_lt c.addr hb
    have hdm := Nat.div_add_mod c.addr bw
    rw [Nat.mul_comm] at hdm
    specialize h1 (by omega)
    obtain ⟨start, hstart⟩ : ∃ x, (if k = 0 then c.addr % bw else 0) = x := ⟨_, rfl⟩
    obtain ⟨stop, hstop⟩ : ∃ x, (if r = 0 then endOffset bw c.addr c.len else bw) = x := ⟨_, rfl⟩
    rw [hstart] at h1
    have hs : start < bw := by rw [← hstart]; split <;> omega
    have hst : stop ≤ bw := by rw [← hstop]; split; exact sh.eo.2; omega
    have hsk : k = 0 → start = c.addr % bw := fun h => by rw [← hstart, if_pos h]
    have hsk' : k ≠ 0 → start = 0 := fun h => by rw [← hstart, if_neg h]
    have key : start ≤ stop ∧ off + (stop - start) ≤ c.len ∧
        (r = 0 → off + (stop - start) = c.len) ∧
        (0 < r → off + (stop - start) + c.addr % bw = (k + 1) * bw) := by
      have hsm : (k + 1) * bw = k * bw + bw := Nat.succ_mul _ _
      by_cases hr : r = 0
      · rw [if_pos hr] at hstop
        have hl' := sh.last k (by omega)
        rw [hstop] at hl'
        by_cases hk : k = 0
        · have := hsk hk
          subst hk
          simp only [Nat.zero_mul] at *
          omega
        · have := hsk' hk
          omega
      · rw [if_neg hr] at hstop
        have hl' := sh.hi
        have hm : (k + 1) * bw + bw ≤ (k + (r + 1)) * bw := by
          rw [← Nat.succ_mul]
          exact Nat.mul_le_mul_right _ (by omega)
        omega
    obtain ⟨k1, k2, k3, k4⟩ := key
    have ih := rdata_spec hb hd hms m hm c rest r (k + 1) (off + (stop - start)) (by omega) k2 k3
      (fun h => by rw [k4 h]; simp)
    rw [List.range'_succ, List.map_cons, List.cons_append]
    simp only [rdata]
    rw [hstart, hstop, unpack_read hd hms m hm _ _ _ hst, wordAddr_div hb,
      show c.addr / bw * bw + k * bw + start = c.addr + off from by omega, Axi.flatRead_append]
    simpa using ih

theorem readCmd_eq (bw : Nat) (c : Read) (h : 0 < cycles bw c.addr c.len) :
    readCmd bw c = (List.range' 0 (cycles bw c.addr c.len)).map (wordAddr bw c) := by
  obtain ⟨n, hn⟩ : ∃ n, cycles bw c.addr c.len = n + 1 := ⟨_, (Nat.succ_pred_eq_of_pos h).symm⟩
  unfold readCmd
  rw [hn, List.range'_succ, List.map_cons]
  congr 1
  · simp [wordAddr]
  · apply List.map_congr_left
    intro k hk
    rw [List.mem_range'_1] at hk
    unfold wordAddr
    rw [if_neg (by omega), Nat.add_zero]

theorem cycles_pos {bw addr len : Nat} (hb : 0 < bw) (h : 0 < len ∨ addr % bw ≠ 0) : 0 < cycles bw addr len := by
  have sh := shape bw addr len hb
  have := sh.lo
  rcases Nat.eq_zero_or_pos (cycles bw addr len) with e | e
  · rw [e, Nat.zero_mul] at this
    omega
  · exact e

theorem readData_spec {bw ms : Nat} (hb : 0 < bw) (hd : bw ∣ ms) (hms : 0 < ms) (m : Mem) (hm : ∀ x, m x < 256) :
    ∀ (cs : List Read) (rest : List (Nat × Nat)), (∀ c ∈ cs, 0 < c.len ∨ c.addr % bw ≠ 0) →
      readData bw cs ((readCmds bw cs).map (fun a => (ramRead bw ms m a, 0)) ++ rest) =
        some (cs.map fun c => (c.addr, flatRead ms m c.addr c.len, 0), rest)
  | [], rest, _ => rfl
  | c :: cs, rest, h => by
    have hp := cycles_pos hb (h c (List.mem_cons_self ..))
    have ih := readData_spec hb hd hms m hm cs rest fun c' h' => h c' (List.mem_cons_of_mem _ h')
    have e : readCmds bw (c :: cs) = readCmd bw c ++ readCmds bw cs := by simp [readCmds]
    have h1 := rdata_spec hb hd hms m hm c ((readCmds bw cs).map (fun a => (ramRead bw ms m a, 0)) ++ rest)
      (cycles bw c.addr c.len) 0 0 (Nat.zero_add _) (Nat.zero_le _) (fun h => by omega) (fun _ => by simp)
    rw [e, List.map_append, readCmd_eq bw c hp, List.map_map, List.append_assoc]
    simp only [readData]
    rw [show flatRead ms m c.addr 0 = [] from rfl] at h1
    have h2 : rdata bw c (cycles bw c.addr c.len) 0 [] 0
        ((List.range' 0 (cycles bw c.addr c.len)).map ((fun a => (ramRead bw ms m a, 0)) ∘ wordAddr bw c) ++
          ((readCmds bw cs).map (fun a => (ramRead bw ms m a, 0)) ++ rest)) = _ := h1
    rw [h2]
    simp only [ih, List.map_cons]

theorem rdata_resp (bw : Nat) (c : Read) : ∀ (q : List (Nat × Nat)) (k : Nat) (data : List Nat) (resp : Nat)
    (rest : List (Nat × Nat)),
    ∃ d x, rdata bw c q.length k data resp (q ++ rest) = some ((d, x), rest) ∧ (x ∈ q.map Prod.snd ∨ x = resp) ∧
      (x ≠ 0 ↔ resp ≠ 0 ∨ ∃ y ∈ q, y.2 ≠ 0)
  | [], k, data, resp, rest => ⟨data, resp, rfl, Or.inr rfl, by simp⟩
  | y :: q, k, data, resp, rest => by
    obtain ⟨d, x, h1, h2, h3⟩ := rdata_resp bw c q (k + 1)
      (data ++ unpack y.1 (if k = 0 then c.addr % bw else 0) (if q.length = 0 then endOffset bw c.addr c.len else bw))
      (if y.2 ≠ 0 then y.2 else resp) rest
    refine ⟨d, x, h1, ?_, ?_⟩
    · rcases h2 with h | h
      · exact Or.inl (List.mem_cons_of_mem _ h)
      · by_cases hy : y.2 ≠ 0
        · rw [if_pos hy] at h; exact Or.inl (h ▸ List.mem_cons_self ..)
        · rw [if_neg hy] at h; exact Or.inr h
    · rw [h3]
      by_cases hy : y.2 = 0 <;> simp [hy]

end Corundum.Axil
