import Verif.Proof.PtpLock

/-! C39, C40: PTP time counters and their distribution. -/

namespace Corundum.Ptp

/-! ### C39 -/

/-- Sensible counters: increments below one second per clock. -/
structure OkClk (k : Clk) : Prop where
  pns : k.pns ≤ 999999997
  pfns : k.pfns < 2 ^ 32
  num : k.num < 2 ^ 32
  ns : k.ns < 1000000000
  fns : k.fns < 2 ^ 32
  rel : k.rel < 2 ^ 48

/-- Sensible arguments. -/
def OkOp : Op → Prop
  | .period ns _ => ns ≤ 999999997
  | .drift num _ => num < 2 ^ 32
  | .tod _ ns fns => ns < 1000000000 ∧ fns < 2 ^ 32
  | .rel ns fns => ns < 2 ^ 48 ∧ fns < 2 ^ 32

/-- C39. Whatever the sequence of clocks and calls, the nanosecond field stays below one second and the other
fields stay in range. -/
theorem C39_wellformed (k : Clk) (h : OkClk k) (l : List (Option Op)) (hl : ∀ o, some o ∈ l → OkOp o) :
    (exec k l).ns < 1000000000 ∧ (exec k l).fns < 2 ^ 32 ∧ (exec k l).rel < 2 ^ 48 := by
  have key : ∀ (l : List (Option Op)) (k : Clk), OkClk k → (∀ o, some o ∈ l → OkOp o) → OkClk (exec k l) := by
    intro l
    induction l with
    | nil => intro k h _; exact h
    | cons e l ih =>
      intro k h hl
      apply ih
      · cases e with
        | none =>
          have hf := tick_fns k
          refine ⟨h.pns, h.pfns, h.num, ?_, hf.1, hf.2⟩
          apply tick_ns k h.ns
          have := drift_le k
          have h1 := h.fns
          have h2 := h.pns
          have h3 := h.pfns
          have h4 := h.num
          omega
        | some o =>
          have := hl o (by simp)
          cases o with
          | period ns fns =>
            refine ⟨this, ?_, h.num, h.ns, h.fns, h.rel⟩
            show fns &&& 0xffffffff < 2 ^ 32
            rw [and32]; exact Nat.mod_lt _ (by decide)
          | drift num denom => exact ⟨h.pns, h.pfns, this, h.ns, h.fns, h.rel⟩
          | tod s ns fns => exact ⟨h.pns, h.pfns, h.num, this.1, this.2, h.rel⟩
          | rel ns fns => exact ⟨h.pns, h.pfns, h.num, h.ns, this.2, this.1⟩
      · intro o ho; exact hl o (by simp [ho])
  have := key l k h hl
  exact ⟨this.ns, this.fns, this.rel⟩

/-- C39. Over any number of clocks without calls the time of day advances by exactly the sum of the periods plus
the drift numerator once per `denom` clocks, and the relative time by the same amount modulo 2^48 ns. -/
theorem C39_advance (k : Clk) (n : Nat) :
    ((exec k (List.replicate n none)).s * 1000000000 + (exec k (List.replicate n none)).ns) * 2 ^ 32 +
        (exec k (List.replicate n none)).fns =
      (k.s * 1000000000 + k.ns) * 2 ^ 32 + k.fns + n * (k.pns * 2 ^ 32 + k.pfns) +
        k.num * (if k.denom = 0 then 0 else if n ≤ k.cnt then 0 else (n - k.cnt - 1) / k.denom + 1) ∧
    (k.rel < 2 ^ 48 → k.fns < 2 ^ 32 →
      (exec k (List.replicate n none)).rel * 2 ^ 32 + (exec k (List.replicate n none)).fns =
      (k.rel * 2 ^ 32 + k.fns + n * (k.pns * 2 ^ 32 + k.pfns) +
        k.num * (if k.denom = 0 then 0 else if n ≤ k.cnt then 0 else (n - k.cnt - 1) / k.denom + 1)) % 2 ^ 80) := by
  have e : ∀ (n : Nat) (k : Clk), exec k (List.replicate n none) = ticks n k := by
    intro n
    induction n with
    | zero => intro k; rfl
    | succ n ih => intro k; rw [List.replicate_succ]; exact ih (tick k)
  rw [e]
  refine ⟨ticks_tot n k, fun h1 h2 => ticks_rel n k ?_⟩
  unfold relTot
  omega

/-- C39. From any phase of the drift counter, `m * denom` clocks add the drift numerator exactly `m` times: the
mean increment is `period + num/denom`. -/
theorem C39_rate (k : Clk) (m : Nat) (hc : k.cnt < k.denom) :
    ((exec k (List.replicate (m * k.denom) none)).s * 1000000000 + (exec k (List.replicate (m * k.denom) none)).ns) * 2 ^ 32 +
        (exec k (List.replicate (m * k.denom) none)).fns =
      (k.s * 1000000000 + k.ns) * 2 ^ 32 + k.fns + m * (k.denom * (k.pns * 2 ^ 32 + k.pfns) + k.num) := by
  rw [(C39_advance k (m * k.denom)).1]
  have : (if k.denom = 0 then 0 else if m * k.denom ≤ k.cnt then 0 else (m * k.denom - k.cnt - 1) / k.denom + 1) = m := by
    rw [if_neg (by omega)]
    cases m with
    | zero => rw [if_pos (by omega)]
    | succ m =>
      rw [if_neg (by rw [Nat.succ_mul]; omega)]
      have : (m + 1) * k.denom - k.cnt - 1 = (k.denom - k.cnt - 1) + k.denom * m := by
        rw [Nat.succ_mul, Nat.mul_comm k.denom]; omega
      rw [this, Nat.add_mul_div_left _ _ (by omega), Nat.div_eq_of_lt (by omega)]
      omega
  rw [this]
  have arith : ∀ A P d q : Nat, A + m * d * P + q * m = A + m * (d * P + q) := by
    intro A P d q
    rw [Nat.mul_add, Nat.mul_assoc, Nat.mul_comm q m, Nat.add_assoc]
  exact arith _ _ _ _

/-- C39. Time never stands still or runs backwards between calls: with well-formed fields and a non-zero period
each clock moves the triple (seconds, ns, fns) strictly forward. -/
theorem C39_monotone (k : Clk) (h : OkClk k) (hp : 0 < k.pns ∨ 0 < k.pfns) :
    k.s < (tick k).s ∨ (k.s = (tick k).s ∧ (k.ns < (tick k).ns ∨ (k.ns = (tick k).ns ∧ k.fns < (tick k).fns))) := by
  have ht := tick_tot k
  have hf := tick_fns k
  have hle := tick_s_le k
  have h1 := h.ns
  have h2 := h.fns
  unfold tot at ht
  have hn : (tick k).ns < 1000000000 := by
    apply tick_ns k h.ns
    have := drift_le k
    have h1 := h.fns
    have h2 := h.pns
    have h3 := h.pfns
    have h4 := h.num
    omega
  generalize (tick k).s = s' at *
  generalize (tick k).ns = n' at *
  generalize (tick k).fns = f' at *
  omega

/-- C39. The published offsets recover the time of day from the relative time: for the current second and, with
the alternate second, for the neighbouring one. -/
theorem C39_offset (k : Clk) :
    (k.rel + offsetNs k) % 2 ^ 32 = k.ns % 2 ^ 32 ∧
    ((k.rel : Int) + altOffsetNs k - (((k.s : Int) * 1000000000 + k.ns) - altS k * 1000000000)) % 2 ^ 32 = 0 ∧
    (altS k = k.s + 1 ∨ altS k = k.s - 1) := by
  refine ⟨offset_spec k, ?_, ?_⟩
  · have := altOffset_spec k
    rw [Int.sub_mul] at this
    have e : (k.ns : Int) + (k.s * 1000000000 - altS k * 1000000000) = k.s * 1000000000 + k.ns - altS k * 1000000000 := by omega
    rwa [e] at this
  · unfold altS
    split <;> simp

/-! 6.4 ns clock: period 6 ns + 0x66666666, drift 2/5. -/

def k64 : Clk := ⟨6, 0x66666666, 2, 5, 3, 0xfffffff0, 0xfffffffffffe, 7, 999999998⟩

example : OkClk k64 := by constructor <;> decide

example : exec k64 (List.replicate 5 none) = ⟨6, 0x66666666, 2, 5, 3, 0xfffffff0, 30, 8, 30⟩ := by decide

example : OkOp (.tod 3 999999999 0) := by unfold OkOp; decide

/-! ### C40 -/

/-- Inputs that send the messages in order, each followed by its own number of extra idle clocks. -/
def sends : List (List Nat × Nat) → List (Option (List Nat))
  | [] => []
  | (ws, g) :: t => some ws :: (List.replicate (17 * ws.length + g) none ++ sends t)

/-- C40. Any sequence of non-empty messages of any length and content, with any idle gaps, arrives word for word
(the low sixteen bits of each word), in order, with nothing added. -/
theorem C40_words (ms : List (List Nat × Nat)) (hne : ∀ m ∈ ms, m.1 ≠ []) :
    ((sends ms ++ [none]).foldl wire ((⟨[], none, 0, true⟩, ⟨[], none, 0⟩, []) : Ser × Des × List (List Nat))).2.2 =
      ms.map fun m => m.1.map (· % 2 ^ 16) := by
  -- one message, up to clock `p`
  have one : ∀ (ws : List Nat) (hw : ws ≠ []) (b : Nat) (out : List (List Nat)) (n p : Nat),
      (List.replicate n none).foldl wire (serAt ws p, desAt ws b p, out) =
        (serAt ws (p + n), desAt ws b (p + n),
          out ++ if p ≤ 17 * ws.length ∧ 17 * ws.length < p + n then [ws.map (· % 2 ^ 16)] else []) := by
    intro ws hw b out n
    induction n generalizing out with
    | zero => intro p; rw [if_neg (by omega)]; simp
    | succ n ih =>
      intro p
      have hd := des_next ws hw b p
      rw [List.replicate_succ, List.foldl_cons]
      have hs : wire (serAt ws p, desAt ws b p, out) none =
          (serAt ws (p + 1), desAt ws b (p + 1), out ++ (if p = 17 * ws.length then some (ws.map (· % 2 ^ 16)) else none).toList) := by
        unfold wire
        simp only [hd, Option.getD_none]
        rw [← ser_next ws hw]
      rw [hs, ih]
      have e : p + 1 + n = p + (n + 1) := by omega
      rw [e, List.append_assoc]
      congr 3
      by_cases h : p = 17 * ws.length
      · rw [if_pos h, if_neg (by omega), if_pos (by omega)]; rfl
      · rw [if_neg h]
        by_cases h2 : p + 1 ≤ 17 * ws.length ∧ 17 * ws.length < p + (n + 1)
        · rw [if_pos h2, if_pos (by omega)]; rfl
        · rw [if_neg h2, if_neg (by omega)]; rfl
  -- whole sequence; the last message is seen one clock later
  have key : ∀ (ms : List (List Nat × Nat)), (∀ m ∈ ms, m.1 ≠ []) → ∀ (z : Ser) (d : Des) (out : List (List Nat)),
      z.word = none → (d.step z.data).1.cur = [] → (d.step z.data).1.word = none →
      ((sends ms).foldl wire (z, d, out)).2.2 ++
        (((sends ms).foldl wire (z, d, out)).2.1.step ((sends ms).foldl wire (z, d, out)).1.data).2.toList =
      out ++ (d.step z.data).2.toList ++ ms.map fun m => m.1.map (· % 2 ^ 16) := by
    intro ms
    induction ms with
    | nil => intro _ z d out _ _ _; simp [sends]
    | cons m ms ih =>
      intro hne z d out hz hd1 hd2
      obtain ⟨ws, g⟩ := m
      have hw : ws ≠ [] := hne (ws, g) (by simp)
      obtain ⟨w, t, rfl⟩ : ∃ w t, ws = w :: t := by cases ws with | nil => exact absurd rfl hw | cons w t => exact ⟨w, t, rfl⟩
      have hload : wire (z, d, out) (some (w :: t)) =
          (serAt (w :: t) 0, desAt (w :: t) (d.step z.data).1.bit 0, out ++ (d.step z.data).2.toList) := by
        unfold wire
        simp only [Option.getD_some]
        rw [ser_load z hz w t]
        congr 2
        unfold desAt
        rw [if_pos rfl]
        generalize (d.step z.data).1 = d1 at *
        obtain ⟨_, _, _⟩ := d1
        simp_all
      have hone := one (w :: t) hw (d.step z.data).1.bit (out ++ (d.step z.data).2.toList) (17 * (w :: t).length + g) 0
      generalize hL : (w :: t).length = L at *
      generalize hW : w :: t = W at *
      have hst : sends ((W, g) :: ms) = some W :: (List.replicate (17 * L + g) none ++ sends ms) := by
        rw [sends, hL]
      rw [hst, List.foldl_cons, List.foldl_append, hload, hone, Nat.zero_add]
      have hdn := des_next W hw (d.step z.data).1.bit (17 * L + g)
      have hLpos : 0 < L := by rw [← hL, ← hW]; simp
      have hafter : desAt W (d.step z.data).1.bit (17 * L + g + 1) = ⟨[], none, 16⟩ := by
        unfold desAt
        rw [if_neg (by omega), dif_neg (by rw [← hL] at hLpos ⊢; omega)]
      rw [ih (fun m hm => hne m (by simp [hm])) _ _ _ (ser_free _ _ (by rw [hL]; omega))
        (by rw [hdn, hafter]) (by rw [hdn, hafter])]
      rw [hdn, hL, List.map_cons]
      simp only [List.append_assoc]
      congr 2
      by_cases hg : g = 0
      · rw [if_neg (by omega), if_pos (by omega)]; rfl
      · rw [if_pos (by omega), if_neg (by omega)]; rfl
  have := key ms hne ⟨[], none, 0, true⟩ ⟨[], none, 0⟩ [] rfl rfl rfl
  rw [List.foldl_append]
  exact this

/-- C40. Source and sink started together, with user calls on the source at any time: the sink never fails, and
239 + `td_delay` clocks after each message is built the sink's counters carried by it are exactly the source's at
that moment. Messages of kind 0 carry the time of day, kind 1 the drift setting and phase and the offset, kind 2
the alternate second. -/
theorem C40_message (td : Nat) (h1 : 1 ≤ td) (h2 : td ≤ 255) (ops : Nat → List Op) (k0 k1 : Clk) (j : Nat) (c : Clk)
    (hcdef : c = (joint td ops k0 k1 (256 * j + 1)).1.clk) (hr : Rng c) :
    ∃ k, (joint td ops k0 k1 (256 * j + 1 + 239 + td)).2 = some k ∧
      k.clk.fns = c.fns ∧ k.clk.rel = c.rel ∧ k.clk.pns = c.pns ∧ k.clk.pfns = c.pfns ∧
      (j % 3 = 0 → k.clk.s = c.s ∧ k.clk.ns = c.ns) ∧
      (j % 3 = 1 → k.clk.num = c.num ∧ k.clk.denom = c.denom ∧ k.clk.cnt = c.cnt ∧ k.off = offsetNs c) ∧
      (j % 3 = 2 → k.altOff = altOffsetNs c ∧ (k.altS : Int) = altS c % 2 ^ 48) := by
  obtain ⟨k, k', hk, hk', h⟩ := snk_step td ops k0 k1 h1 h2 (256 * j + 239 + (td - 1))
  rw [if_pos (by omega)] at h
  have e1 : 256 * j + 239 + (td - 1) + 2 = 256 * j + 1 + 239 + td := by omega
  have e2 : (256 * j + 239 + (td - 1) - 239) / 256 = j := by omega
  rw [e1] at hk'
  rw [e2] at h
  obtain ⟨ru, tu, he⟩ := rxMsg_eq td ops k0 k1 j
  have hce : srcClk td ops k0 k1 (256 * j + 1) = c := hcdef.symm
  rw [he, hce] at h
  refine ⟨k', hk', ?_⟩
  rcases (show j % 3 = 0 ∨ j % 3 = 1 ∨ j % 3 = 2 by omega) with hx | hx | hx
  · rw [hx, process0 _ c hr ru tu] at h
    rw [h.1, hx]
    simp
  · rw [hx, (process1 _ c hr ru tu).1, (process1 _ c hr ru tu).2] at h
    rw [h.1, h.2.1, hx]
    simp
  · rw [hx, (process2 _ c hr ru tu).1, (process2 _ c hr ru tu).2.1, (process2 _ c hr ru tu).2.2] at h
    rw [h.1, h.2.2.1, h.2.2.2, hx]
    refine ⟨rfl, rfl, rfl, rfl, by simp, by simp, fun _ => ⟨rfl, ?_⟩⟩
    omega

/-- C40. If no calls are made on the source during clocks `a .. N`, then from `a + 1281` on the sink's whole state
(time of day, relative time, period, drift setting and drift phase) is the source's state `239 + td_delay` clocks
earlier, whatever the sink held before. -/
theorem C40_lock (td : Nat) (h1 : 1 ≤ td) (h2 : td ≤ 255) (ops : Nat → List Op) (k0 k1 : Clk) (a N : Nat)
    (hq : ∀ n, a ≤ n → n < N → ops n = [])
    (hr : Rng (joint td ops k0 k1 a).1.clk) (hns : (joint td ops k0 k1 a).1.clk.ns < 1000000000)
    (hs : (joint td ops k0 k1 N).1.clk.s < 2 ^ 48) (n : Nat) (ha : a + 1281 ≤ n) (hN : n ≤ N) :
    ∃ k, (joint td ops k0 k1 (n + 239 + td)).2 = some k ∧ k.clk = (joint td ops k0 k1 n).1.clk := by
  have hrng := rng_stay td ops k0 k1 a N hq hr hns hs
  obtain ⟨j, hj, hj1, hj2⟩ : ∃ j, j % 3 = 1 ∧ a ≤ 256 * j + 1 ∧ 256 * (j + 2) + 1 ≤ a + 1281 := by
    have hx : (a / 256) % 3 = 0 ∨ (a / 256) % 3 = 1 ∨ (a / 256) % 3 = 2 := by omega
    rcases hx with hx | hx | hx
    · exact ⟨a / 256 + 1, by omega, by omega, by omega⟩
    · by_cases h0 : a % 256 ≤ 1
      · exact ⟨a / 256, by omega, by omega, by omega⟩
      · exact ⟨a / 256 + 3, by omega, by omega, by omega⟩
    · exact ⟨a / 256 + 2, by omega, by omega, by omega⟩
  have hf := full_sync td ops k0 k1 h1 h2 a j hj hj1 N hq hrng (n - (256 * (j + 2) + 1)) (by omega)
  have e1 : 256 * (j + 2) + 1 + (n - (256 * (j + 2) + 1)) = n := by omega
  rw [e1] at hf
  obtain ⟨k, hk, _⟩ := snk_state td ops k0 k1 h1 h2 (n + 239 + td - 1)
  rw [show n + 239 + td - 1 + 1 = n + 239 + td by omega] at hk
  refine ⟨k, hk, ?_⟩
  rw [← Nat.add_assoc] at hf
  unfold snkClk at hf
  rw [hk] at hf
  exact hf

/-! Two messages of different lengths, one word wider than sixteen bits, one with no extra idle clock. -/

example : ((sends [([0x12345, 0xffff], 0), ([0, 7, 0x8000], 3)]).foldl wire
    ((⟨[], none, 0, true⟩, ⟨[], none, 0⟩, []) : Ser × Des × List (List Nat))).2.2 =
    [[0x2345, 0xffff], [0, 7, 0x8000]] := by decide

/-- The idle clock is needed: a message loaded as soon as the last bit is out merges with its predecessor. -/
example : (([some [1, 2]] ++ List.replicate 33 none ++ [some [3]] ++ List.replicate 20 none).foldl wire
    ((⟨[], none, 0, true⟩, ⟨[], none, 0⟩, []) : Ser × Des × List (List Nat))).2.2 = [[1, 2, 3]] := by decide

example : Rng k64 := by constructor <;> decide

end Corundum.Ptp
