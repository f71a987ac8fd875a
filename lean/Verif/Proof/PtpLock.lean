import Verif.Proof.PtpJoint

/-! The sink locks to the source. -/

namespace Corundum.Ptp

theorem or_sh (a b k : Nat) (h : a < 2 ^ k) : (b <<< k) ||| a = b * 2 ^ k + a := by
  rw [← Nat.shiftLeft_add_eq_or_of_lt h, Nat.shiftLeft_eq]

theorem join2 (x : Nat) (h : x < 2 ^ 32) :
    ((((x >>> 16) &&& 0xffff) % 2 ^ 16) <<< 16) ||| ((x &&& 0xffff) % 2 ^ 16) = x := by
  rw [or_sh _ _ _ (Nat.mod_lt _ (by decide)), and16', and16', Nat.shiftRight_eq_div_pow]
  omega

theorem or3 (a b c : Nat) (hb : b < 2 ^ 16) (hc : c < 2 ^ 16) :
    (a <<< 32) ||| (b <<< 16) ||| c = a * 2 ^ 32 + b * 2 ^ 16 + c := by
  have e : (a <<< 32) ||| (b <<< 16) = (a * 2 ^ 16 + b) <<< 16 := by
    rw [or_sh _ _ _ (by rw [Nat.shiftLeft_eq]; omega), Nat.shiftLeft_eq, Nat.shiftLeft_eq]
    omega
  rw [e, or_sh _ _ _ hc]
  omega

theorem join3 (x : Nat) (h : x < 2 ^ 48) :
    ((((x >>> 32) &&& 0xffff) % 2 ^ 16) <<< 32) ||| ((((x >>> 16) &&& 0xffff) % 2 ^ 16) <<< 16) |||
      ((x &&& 0xffff) % 2 ^ 16) = x := by
  rw [or3 _ _ _ (Nat.mod_lt _ (by decide)) (Nat.mod_lt _ (by decide)), and16', and16', and16',
    Nat.shiftRight_eq_div_pow, Nat.shiftRight_eq_div_pow]
  omega

theorem join3' (v : Int) :
    ((slice v 2 % 2 ^ 16) <<< 32) ||| ((slice v 1 % 2 ^ 16) <<< 16) ||| (slice v 0 % 2 ^ 16) = (v % 2 ^ 48).toNat := by
  rw [or3 _ _ _ (Nat.mod_lt _ (by decide)) (Nat.mod_lt _ (by decide))]
  unfold slice
  omega

theorem join_ns (x : Nat) (h : x < 2 ^ 30) (tu : Bool) :
    (((((x >>> 16) &&& 0x3fff) ||| (if tu then 0x8000 else 0)) % 2 ^ 16 &&& 0x3fff) <<< 16) ||| ((x &&& 0xffff) % 2 ^ 16) = x := by
  have hb : x >>> 16 < 2 ^ 14 := by rw [Nat.shiftRight_eq_div_pow]; omega
  have e : (((x >>> 16) &&& 0x3fff) ||| (if tu then 0x8000 else 0)) % 2 ^ 16 &&& 0x3fff = x >>> 16 := by
    generalize x >>> 16 = y at *
    have hm : y &&& 0x3fff = y := by
      rw [Nat.and_two_pow_sub_one_eq_mod y 14, Nat.mod_eq_of_lt hb]
    rw [hm]
    cases tu with
    | false => simp; rw [Nat.mod_eq_of_lt (by omega)]; exact hm
    | true =>
      have : y ||| 0x8000 = 2 ^ 15 + y := by
        rw [Nat.or_comm, show 0x8000 = 1 <<< 15 from rfl, or_sh _ _ _ (by omega)]
      simp only [if_true]
      rw [this, Nat.and_two_pow_sub_one_eq_mod _ 14]
      omega
  rw [e, or_sh _ _ _ (Nat.mod_lt _ (by decide)), and16', Nat.shiftRight_eq_div_pow]
  omega

theorem ctrl_idx (i : Nat) (hi : i < 3) (ru : Bool) (s : Nat) :
    (((i &&& 0xf) ||| (ru.toNat <<< 8) ||| ((s &&& 1) <<< 9)) % 2 ^ 16) &&& 0xf = i := by
  have hs : s &&& 1 = 0 ∨ s &&& 1 = 1 := by rw [Nat.and_one_is_mod]; omega
  rcases i with _ | _ | _ | i
  · rcases hs with h | h <;> rw [h] <;> cases ru <;> decide
  · rcases hs with h | h <;> rw [h] <;> cases ru <;> decide
  · rcases hs with h | h <;> rw [h] <;> cases ru <;> decide
  · omega

/-- Counters that fit their message fields. -/
structure Rng (c : Clk) : Prop where
  pns : c.pns < 256
  pfns : c.pfns < 2 ^ 32
  num : c.num < 2 ^ 16
  denom : c.denom < 2 ^ 16
  cnt : c.cnt < 2 ^ 16
  fns : c.fns < 2 ^ 32
  rel : c.rel < 2 ^ 48
  s : c.s < 2 ^ 48
  ns : c.ns < 2 ^ 30

theorem and_ff (x : Nat) (h : x < 256) : (x &&& 0xff) % 2 ^ 16 &&& 0xff = x := by
  rw [Nat.and_two_pow_sub_one_eq_mod x 8, Nat.and_two_pow_sub_one_eq_mod _ 8]
  omega

theorem process0 (b : Snk) (c : Clk) (h : Rng c) (ru tu : Bool) :
    (b.process ((build c 0 ru tu).map (· % 2 ^ 16))).clk =
      { c with num := b.clk.num, denom := b.clk.denom, cnt := b.clk.cnt } := by
  have hc := ctrl_idx 0 (by omega) ru c.s
  unfold Snk.process build
  simp only [if_true, List.map_cons, List.map_nil, List.cons_append, List.nil_append]
  simp only [List.getD_cons_zero, List.getD_cons_succ, hc]
  simp only [if_true, join2 _ h.pfns, join2 _ h.fns, join3 _ h.rel, join3 _ h.s, join_ns _ h.ns, and_ff _ h.pns]
  rfl

theorem process1 (b : Snk) (c : Clk) (h : Rng c) (ru tu : Bool) :
    (b.process ((build c 1 ru tu).map (· % 2 ^ 16))).clk = { c with s := b.clk.s, ns := b.clk.ns } ∧
    (b.process ((build c 1 ru tu).map (· % 2 ^ 16))).off = offsetNs c := by
  have hc := ctrl_idx 1 (by omega) ru c.s
  have ho : offsetNs c < 2 ^ 32 := by unfold offsetNs; omega
  unfold Snk.process build
  simp only [Nat.one_ne_zero, if_false, if_true, List.map_cons, List.map_nil, List.cons_append, List.nil_append]
  simp only [List.getD_cons_zero, List.getD_cons_succ, hc]
  simp only [if_true, Nat.one_ne_zero, if_false, join2 _ h.pfns, join2 _ h.fns, join3 _ h.rel, and_ff _ h.pns,
    Nat.mod_eq_of_lt h.num, Nat.mod_eq_of_lt h.denom, Nat.mod_eq_of_lt h.cnt, join2 _ ho]
  exact ⟨trivial, trivial⟩

theorem process2 (b : Snk) (c : Clk) (h : Rng c) (ru tu : Bool) :
    (b.process ((build c 2 ru tu).map (· % 2 ^ 16))).clk =
      { c with num := b.clk.num, denom := b.clk.denom, cnt := b.clk.cnt, s := b.clk.s, ns := b.clk.ns } ∧
    (b.process ((build c 2 ru tu).map (· % 2 ^ 16))).altOff = altOffsetNs c ∧
    (b.process ((build c 2 ru tu).map (· % 2 ^ 16))).altS = (altS c % 2 ^ 48).toNat := by
  have hc := ctrl_idx 2 (by omega) ru c.s
  have ho : altOffsetNs c < 2 ^ 32 := by unfold altOffsetNs; split <;> omega
  unfold Snk.process build
  simp only [Nat.succ_ne_zero, show ¬ (2 = 1) by omega, if_false, if_true, List.map_cons, List.map_nil,
    List.cons_append, List.nil_append]
  simp only [List.getD_cons_zero, List.getD_cons_succ, hc]
  simp only [if_true, Nat.succ_ne_zero, show ¬ (2 = 1) by omega, if_false, join2 _ h.pfns, join2 _ h.fns,
    join3 _ h.rel, and_ff _ h.pns, join2 _ ho, join3']
  exact ⟨trivial, trivial, trivial⟩

/-- The counters that do not involve the time of day. -/
def core (c : Clk) : Clk := { c with s := 0, ns := 0 }

theorem core_tick {a b : Clk} (h : core a = core b) : core (tick a) = core (tick b) := by
  unfold core at h
  simp only [Clk.mk.injEq] at h
  obtain ⟨h1, h2, h3, h4, h5, h6, h7, -, -⟩ := h
  unfold core tick drift
  simp only [h1, h2, h3, h4, h5, h6, h7]

theorem core_full {a b : Clk} (h : core a = core b) (hs : a.s = b.s) (hn : a.ns = b.ns) : a = b := by
  unfold core at h
  simp only [Clk.mk.injEq] at h
  obtain ⟨h1, h2, h3, h4, h5, h6, h7, -, -⟩ := h
  obtain ⟨_, _, _, _, _, _, _, _, _⟩ := a
  simp_all

section
variable (td : Nat) (ops : Nat → List Op) (k0 k1 : Clk)

/-- Sink counters after `n` edges. -/
def snkClk (n : Nat) : Clk := (((joint td ops k0 k1 n).2).map (·.clk)).getD k1

theorem srcClk_succ (n : Nat) : srcClk td ops k0 k1 (n + 1) = tick (pre td ops k0 k1 n).clk := step_clk _

theorem srcClk_free (n : Nat) (h : ops n = []) : srcClk td ops k0 k1 (n + 1) = tick (srcClk td ops k0 k1 n) := by
  rw [srcClk_succ]
  unfold pre srcClk
  rw [h]; rfl

theorem rxMsg_eq (j : Nat) : ∃ ru tu, rxMsg td ops k0 k1 j =
    (build (srcClk td ops k0 k1 (256 * j + 1)) (j % 3) ru tu).map (· % 2 ^ 16) := by
  refine ⟨(pre td ops k0 k1 (256 * j)).relUpd, (pre td ops k0 k1 (256 * j)).todUpd, ?_⟩
  unfold rxMsg theMsg
  rw [srcClk_succ]

theorem snk_clk_step (h1 : 1 ≤ td) (h2 : td ≤ 255) (n : Nat) :
    (¬ (n ≥ 239 ∧ (n - 239) % 256 + 1 = td) ∧
      snkClk td ops k0 k1 (n + 2) = tick (snkClk td ops k0 k1 (n + 1))) ∨
    ((n ≥ 239 ∧ (n - 239) % 256 + 1 = td) ∧
      ∃ b : Snk, b.clk = tick (snkClk td ops k0 k1 (n + 1)) ∧
        snkClk td ops k0 k1 (n + 2) = (b.process (rxMsg td ops k0 k1 ((n - 239) / 256))).clk) := by
  obtain ⟨k, k', hk, hk', h⟩ := snk_step td ops k0 k1 h1 h2 n
  have e1 : snkClk td ops k0 k1 (n + 1) = k.clk := by unfold snkClk; rw [hk]; rfl
  have e2 : snkClk td ops k0 k1 (n + 2) = k'.clk := by unfold snkClk; rw [hk']; rfl
  rw [e1, e2]
  by_cases hc : n ≥ 239 ∧ (n - 239) % 256 + 1 = td
  · rw [if_pos hc] at h
    exact Or.inr ⟨hc, { k with clk := tick k.clk }, rfl, h.1⟩
  · rw [if_neg hc] at h
    exact Or.inl ⟨hc, h.1⟩

theorem core_sync (h1 : 1 ≤ td) (h2 : td ≤ 255) (a j : Nat) (hj : j % 3 = 1) (ha : a ≤ 256 * j + 1) (N : Nat)
    (hq : ∀ n, a ≤ n → n < N → ops n = [])
    (hr : ∀ n, a ≤ n → n ≤ N → Rng (srcClk td ops k0 k1 n)) :
    ∀ n, 256 * j + 1 + n ≤ N →
      core (snkClk td ops k0 k1 (256 * j + 1 + n + (239 + td))) = core (srcClk td ops k0 k1 (256 * j + 1 + n)) := by
  intro n
  induction n with
  | zero =>
    intro hN
    rcases snk_clk_step td ops k0 k1 h1 h2 (256 * j + 239 + (td - 1)) with h | h
    · omega
    · obtain ⟨_, b, hb, h⟩ := h
      have e1 : 256 * j + 239 + (td - 1) + 2 = 256 * j + 1 + 0 + (239 + td) := by omega
      have e2 : (256 * j + 239 + (td - 1) - 239) / 256 = j := by omega
      rw [e1, e2] at h
      obtain ⟨ru, tu, he⟩ := rxMsg_eq td ops k0 k1 j
      rw [h, he, hj, (process1 b _ (hr _ ha (by omega)) ru tu).1]
      rfl
  | succ n ih =>
    intro hN
    have ih := ih (by omega)
    have hs := srcClk_free td ops k0 k1 (256 * j + 1 + n) (hq _ (by omega) (by omega))
    have e0 : 256 * j + 1 + n + (239 + td) = (256 * j + 1 + n + (239 + td) - 1) + 1 := by omega
    have e0' : 256 * j + 1 + (n + 1) + (239 + td) = (256 * j + 1 + n + (239 + td) - 1) + 2 := by omega
    have hct : core (tick (snkClk td ops k0 k1 (256 * j + 1 + n + (239 + td)))) =
        core (srcClk td ops k0 k1 (256 * j + 1 + (n + 1))) := by
      show _ = core (srcClk td ops k0 k1 (256 * j + 1 + n + 1))
      rw [hs]; exact core_tick ih
    rw [e0'] 
    rw [e0] at hct
    generalize hm : 256 * j + 1 + n + (239 + td) - 1 = m at *
    rcases snk_clk_step td ops k0 k1 h1 h2 m with h | h
    · rw [h.2]; exact hct
    · obtain ⟨hc, b, hb, h⟩ := h
      obtain ⟨ru, tu, he⟩ := rxMsg_eq td ops k0 k1 ((m - 239) / 256)
      have et : 256 * ((m - 239) / 256) + 1 = 256 * j + 1 + (n + 1) := by omega
      have hrr := hr (256 * j + 1 + (n + 1)) (by omega) (by omega)
      rw [et] at he
      generalize srcClk td ops k0 k1 (256 * j + 1 + (n + 1)) = C at *
      rw [h, he]
      rw [← hb] at hct
      have hx : (m - 239) / 256 % 3 = 0 ∨ (m - 239) / 256 % 3 = 1 ∨ (m - 239) / 256 % 3 = 2 := by omega
      have hcc := hct
      unfold core at hct
      simp only [Clk.mk.injEq] at hct
      obtain ⟨_, _, g3, g4, g5, _, _, -, -⟩ := hct
      rcases hx with hx | hx | hx
      · rw [hx, process0 b C hrr ru tu, g3, g4, g5]
      · rw [hx, (process1 b C hrr ru tu).1]; rfl
      · rw [hx, (process2 b C hrr ru tu).1, g3, g4, g5]; rfl

theorem full_sync (h1 : 1 ≤ td) (h2 : td ≤ 255) (a j : Nat) (hj : j % 3 = 1) (ha : a ≤ 256 * j + 1) (N : Nat)
    (hq : ∀ n, a ≤ n → n < N → ops n = [])
    (hr : ∀ n, a ≤ n → n ≤ N → Rng (srcClk td ops k0 k1 n)) :
    ∀ n, 256 * (j + 2) + 1 + n ≤ N →
      snkClk td ops k0 k1 (256 * (j + 2) + 1 + n + (239 + td)) = srcClk td ops k0 k1 (256 * (j + 2) + 1 + n) := by
  have hcore := core_sync td ops k0 k1 h1 h2 a j hj ha N hq hr
  intro n
  induction n with
  | zero =>
    intro hN
    have hc0 := hcore 511 (by omega)
    have hc1 := hcore 512 (by omega)
    have hs := srcClk_free td ops k0 k1 (256 * j + 1 + 511) (hq _ (by omega) (by omega))
    rcases snk_clk_step td ops k0 k1 h1 h2 (256 * (j + 2) + 239 + (td - 1)) with h | h
    · omega
    · obtain ⟨_, b, hb, h⟩ := h
      have e1 : 256 * (j + 2) + 239 + (td - 1) + 2 = 256 * (j + 2) + 1 + 0 + (239 + td) := by omega
      have e2 : (256 * (j + 2) + 239 + (td - 1) - 239) / 256 = j + 2 := by omega
      have e3 : 256 * j + 1 + 512 + (239 + td) = 256 * (j + 2) + 1 + 0 + (239 + td) := by omega
      have e4 : 256 * j + 1 + 512 = 256 * (j + 2) + 1 := by omega
      rw [e3, e4] at hc1
      rw [e1, e2] at h
      obtain ⟨ru, tu, he⟩ := rxMsg_eq td ops k0 k1 (j + 2)
      have hj2 : (j + 2) % 3 = 0 := by omega
      rw [he, hj2, process0 b _ (hr _ (by omega) (by omega)) ru tu] at h
      apply core_full hc1
      · rw [h]
      · rw [h]
  | succ n ih =>
    intro hN
    have ih := ih (by omega)
    have hs := srcClk_free td ops k0 k1 (256 * (j + 2) + 1 + n) (hq _ (by omega) (by omega))
    have hc := hcore (512 + n + 1) (by omega)
    have e3 : 256 * j + 1 + (512 + n + 1) + (239 + td) = 256 * (j + 2) + 1 + (n + 1) + (239 + td) := by omega
    have e4 : 256 * j + 1 + (512 + n + 1) = 256 * (j + 2) + 1 + (n + 1) := by omega
    rw [e3, e4] at hc
    have e0 : 256 * (j + 2) + 1 + n + (239 + td) = (256 * (j + 2) + 1 + n + (239 + td) - 1) + 1 := by omega
    have e0' : 256 * (j + 2) + 1 + (n + 1) + (239 + td) = (256 * (j + 2) + 1 + n + (239 + td) - 1) + 2 := by omega
    have ht : tick (snkClk td ops k0 k1 (256 * (j + 2) + 1 + n + (239 + td))) =
        srcClk td ops k0 k1 (256 * (j + 2) + 1 + (n + 1)) := by
      rw [ih]; exact hs.symm
    rw [e0'] at hc ⊢
    rw [e0] at ht
    generalize hm : 256 * (j + 2) + 1 + n + (239 + td) - 1 = m at *
    rcases snk_clk_step td ops k0 k1 h1 h2 m with h | h
    · rw [h.2, ht]
    · obtain ⟨hcd, b, hb, h⟩ := h
      obtain ⟨ru, tu, he⟩ := rxMsg_eq td ops k0 k1 ((m - 239) / 256)
      have et : 256 * ((m - 239) / 256) + 1 = 256 * (j + 2) + 1 + (n + 1) := by omega
      have hrr := hr (256 * (j + 2) + 1 + (n + 1)) (by omega) (by omega)
      rw [et] at he
      rw [ht] at hb
      generalize srcClk td ops k0 k1 (256 * (j + 2) + 1 + (n + 1)) = C at *
      rw [he] at h
      have hx : (m - 239) / 256 % 3 = 0 ∨ (m - 239) / 256 % 3 = 1 ∨ (m - 239) / 256 % 3 = 2 := by omega
      apply core_full hc
      · rcases hx with hx | hx | hx
        · rw [h, hx, process0 b C hrr ru tu]
        · rw [h, hx, (process1 b C hrr ru tu).1, hb]
        · rw [h, hx, (process2 b C hrr ru tu).1, hb]
      · rcases hx with hx | hx | hx
        · rw [h, hx, process0 b C hrr ru tu]
        · rw [h, hx, (process1 b C hrr ru tu).1, hb]
        · rw [h, hx, (process2 b C hrr ru tu).1, hb]

theorem rng_tick {c : Clk} (h : Rng c) (hn : c.ns < 1000000000) (hs : (tick c).s < 2 ^ 48) :
    Rng (tick c) ∧ (tick c).ns < 1000000000 := by
  have hns : (tick c).ns < 1000000000 := by
    apply tick_ns c hn
    have := drift_le c
    have h1 := h.fns
    have h2 := h.pns
    have h3 := h.pfns
    have h4 := h.num
    omega
  have hf := tick_fns c
  exact ⟨⟨h.pns, h.pfns, h.num, h.denom, drift_cnt_lt c _ h.cnt (Nat.le_of_lt h.denom), hf.1, hf.2, hs, by omega⟩, hns⟩

theorem tick_s_le (c : Clk) : c.s ≤ (tick c).s := by
  unfold tick
  simp only
  split <;> omega

theorem rng_stay (a N : Nat) (hq : ∀ n, a ≤ n → n < N → ops n = []) (h0 : Rng (srcClk td ops k0 k1 a))
    (hn : (srcClk td ops k0 k1 a).ns < 1000000000) (hs : (srcClk td ops k0 k1 N).s < 2 ^ 48) :
    ∀ n, a ≤ n → n ≤ N → Rng (srcClk td ops k0 k1 n) := by
  have hmono : ∀ d n, a ≤ n → n + d ≤ N → (srcClk td ops k0 k1 n).s ≤ (srcClk td ops k0 k1 (n + d)).s := by
    intro d
    induction d with
    | zero => intro n _ _; exact Nat.le_refl _
    | succ d ih =>
      intro n ha hN
      have h1 := ih n ha (by omega)
      have h2 := tick_s_le (srcClk td ops k0 k1 (n + d))
      rw [← srcClk_free td ops k0 k1 (n + d) (hq _ (by omega) (by omega))] at h2
      exact Nat.le_trans h1 h2
  have key : ∀ d, a + d ≤ N → Rng (srcClk td ops k0 k1 (a + d)) ∧ (srcClk td ops k0 k1 (a + d)).ns < 1000000000 := by
    intro d
    induction d with
    | zero => intro _; exact ⟨h0, hn⟩
    | succ d ih =>
      intro hN
      obtain ⟨i1, i2⟩ := ih (by omega)
      have hf := srcClk_free td ops k0 k1 (a + d) (hq _ (by omega) (by omega))
      have hm := hmono (N - (a + d + 1)) (a + d + 1) (by omega) (by omega)
      rw [show a + d + 1 + (N - (a + d + 1)) = N by omega] at hm
      have := rng_tick i1 i2 (by rw [← hf]; omega)
      rw [← hf] at this
      exact this
  intro n ha hN
  have := (key (n - a) (by omega)).1
  rwa [show a + (n - a) = n by omega] at this

end

end Corundum.Ptp
