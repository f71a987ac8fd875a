import Verif.Spec.PtpTd

/-! Time distribution: the line and the messages. -/
namespace Corundum.PtpTd

/-! ### the line -/

/-- `r` edges after the start bit of word `w` -/
def SrcL (M : List Nat) (w r : Nat) (x : Src) : Prop :=
  x.msg = M.drop (w + 1) ∧ x.word = (if r = 16 then none else some (M.getD w 0)) ∧ (r < 16 → x.bit = r) ∧
  x.data = if r = 0 then 0 else M.getD w 0 / 2 ^ (r - 1) % 2

def SnkL (M : List Nat) (w r : Nat) (k : Snk) : Prop :=
  k.cur = M.take w ∧ k.word = (if r = 0 then none else some (M.getD w 0 % 2 ^ (r - 1))) ∧ (r ≠ 0 → k.bit = r - 1)

def SrcI (x : Src) : Prop := x.msg = [] ∧ x.word = none ∧ x.data = 1

theorem drop_cons {M : List Nat} {w : Nat} (h : w < M.length) : M.drop w = M.getD w 0 :: M.drop (w + 1) := by
  rw [List.drop_eq_getElem_cons h, List.getD_eq_getElem?_getD, List.getElem?_eq_getElem h]
  rfl

theorem take_snoc {M : List Nat} {w : Nat} (h : w < M.length) : M.take (w + 1) = M.take w ++ [M.getD w 0] := by
  rw [List.take_add_one, List.getD_eq_getElem?_getD, List.getElem?_eq_getElem h]
  rfl

theorem src_line {M : List Nat} {w r : Nat} {x : Src} (h : SrcL M w r x) (hw : w < M.length) (hr : r < 17) :
    (r < 16 → SrcL M w (r + 1) x.serialize) ∧ (r = 16 → w + 1 < M.length → SrcL M (w + 1) 0 x.serialize) ∧
    (r = 16 → w + 1 = M.length → SrcI x.serialize) := by
  obtain ⟨h1, h2, h3, h4⟩ := h
  refine ⟨fun hr => ?_, fun hr hw' => ?_, fun hr hw' => ?_⟩
  · have e : ¬ r = 16 := by omega
    rw [if_neg e] at h2
    have hb := h3 hr
    refine ⟨?_, ?_, ?_, ?_⟩
    · simp only [Src.serialize, h2, h1]
    · simp only [Src.serialize, h2, hb]
    · intro _
      simp only [Src.serialize, h2, hb]
    · simp only [Src.serialize, h2, hb]
      simp
  · rw [if_pos hr] at h2
    rw [drop_cons hw'] at h1
    refine ⟨?_, ?_, ?_, ?_⟩ <;> simp [Src.serialize, h2, h1]
  · rw [if_pos hr] at h2
    have : M.drop (w + 1) = [] := List.drop_eq_nil_of_le (by omega)
    rw [this] at h1
    refine ⟨?_, ?_, ?_⟩ <;> simp [Src.serialize, h2, h1]

theorem mod_bit (x r : Nat) : x % 2 ^ r + x / 2 ^ r % 2 * 2 ^ r = x % 2 ^ (r + 1) := by
  rw [Nat.pow_succ, Nat.mod_mul, Nat.mul_comm (x / 2 ^ r % 2)]

theorem snk_line {td : Nat} {M : List Nat} {w r : Nat} {x : Src} {k : Snk} (hx : SrcL M w r x) (h : SnkL M w r k) (hw : w < M.length) (hr : r < 17)
    (hM : ∀ v ∈ M, v < 2 ^ 16) :
    (r < 16 → SnkL M w (r + 1) (k.deserialize td x.data)) ∧ (r = 16 → SnkL M (w + 1) 0 (k.deserialize td x.data)) ∧
    (k.deserialize td x.data).msg = k.msg ∧ (k.deserialize td x.data).delay = k.delay := by
  obtain ⟨h1, h2, h3⟩ := h
  obtain ⟨-, -, -, h4⟩ := hx
  by_cases hz : r = 0
  · subst hz
    simp only [if_true] at h2 h4
    refine ⟨fun _ => ⟨?_, ?_, ?_⟩, fun h => by omega, ?_, ?_⟩ <;> simp [Snk.deserialize, h2, h4, h1, Nat.mod_one]
  · rw [if_neg hz] at h2 h4
    have h3 := h3 hz
    obtain ⟨q, rfl⟩ : ∃ q, r = q + 1 := ⟨r - 1, by omega⟩
    simp only [Nat.add_sub_cancel] at *
    have e := mod_bit (M.getD w 0) q
    have hlt : M.getD w 0 < 2 ^ 16 := by
      rw [List.getD_eq_getElem?_getD, List.getElem?_eq_getElem hw]
      exact hM _ (List.getElem_mem _)
    refine ⟨fun hr => ?_, fun hr => ?_, ?_, ?_⟩
    · have : ¬ q + 1 = 16 := by omega
      refine ⟨?_, ?_, ?_⟩
      · simp only [Snk.deserialize, h2, h3, if_neg this, h1]
      · simp only [Snk.deserialize, h2, h3, if_neg this, h4, e]
        simp
      · intro _
        simp only [Snk.deserialize, h2, h3, if_neg this]
        rfl
    · have hq : q = 15 := by omega
      subst hq
      refine ⟨?_, ?_, fun h => absurd rfl h⟩
      · simp only [Snk.deserialize, h2, h3, if_true, h4, e, h1]
        rw [take_snoc hw, Nat.mod_eq_of_lt hlt]
      · simp only [Snk.deserialize, h2, h3, if_true]
    · simp only [Snk.deserialize, h2, h3]; split <;> rfl
    · simp only [Snk.deserialize, h2, h3]; split <;> rfl

/-- `j` edges after a message was built -/
def LineAt (M : List Nat) (j : Nat) (x : Src) (k : Snk) : Prop :=
  (∃ w r, j = 17 * w + r ∧ r < 17 ∧ w < 14 ∧ SrcL M w r x ∧ SnkL M w r k) ∨
  (j = 238 ∧ SrcI x ∧ k.cur = M ∧ k.word = none) ∨ (239 ≤ j ∧ SrcI x ∧ k.cur = [] ∧ k.word = none)

theorem srcI_serialize {x : Src} (h : SrcI x) : SrcI x.serialize := by
  obtain ⟨h1, h2, h3⟩ := h
  refine ⟨?_, ?_, ?_⟩ <;> simp [Src.serialize, h1, h2]

theorem line_step {td : Nat} {M : List Nat} {j : Nat} {x x' : Src} {k k' : Snk} (hM : M.length = 14) (hv : ∀ v ∈ M, v < 2 ^ 16) (h : LineAt M j x k)
    (hx : x'.msg = x.msg ∧ x'.word = x.word ∧ x'.bit = x.bit ∧ x'.data = x.data) (hk : k'.cur = k.cur ∧ k'.word = k.word ∧ k'.bit = k.bit) :
    LineAt M (j + 1) x'.serialize (k'.deserialize td x.data) ∧
    (j ≠ 238 → (k'.deserialize td x.data).msg = k'.msg ∧ (k'.deserialize td x.data).delay = k'.delay) ∧
    (j = 238 → (k'.deserialize td x.data).msg = some M ∧ (k'.deserialize td x.data).delay = td) := by
  obtain ⟨x1, x2, x3, x4⟩ := hx
  obtain ⟨k1, k2, k3⟩ := hk
  rcases h with ⟨w, r, hj, hr, hw, hs, hn⟩ | ⟨hj, hs, hn1, hn2⟩ | ⟨hj, hs, hn1, hn2⟩
  · have hs' : SrcL M w r x' := by
      obtain ⟨h1, h2, h3, h4⟩ := hs
      exact ⟨x1.trans h1, x2.trans h2, fun h => x3.trans (h3 h), x4.trans h4⟩
    have hn' : SnkL M w r k' := by
      obtain ⟨h1, h2, h3⟩ := hn
      exact ⟨k1.trans h1, k2.trans h2, fun h => k3.trans (h3 h)⟩
    obtain ⟨a1, a2, a3⟩ := src_line hs' (by omega) hr
    obtain ⟨b1, b2, b3, b4⟩ := snk_line (td := td) hs hn' (by omega) hr hv
    refine ⟨?_, fun _ => ⟨b3, b4⟩, fun h => ?_⟩
    · by_cases h16 : r < 16
      · exact Or.inl ⟨w, r + 1, by omega, by omega, hw, a1 h16, b1 h16⟩
      · by_cases h14 : w + 1 < 14
        · exact Or.inl ⟨w + 1, 0, by omega, by omega, h14, a2 (by omega) (by omega), b2 (by omega)⟩
        · refine Or.inr (Or.inl ⟨by omega, a3 (by omega) (by omega), ?_, ?_⟩)
          · rw [(b2 (by omega)).1]
            exact List.take_of_length_le (by omega)
          · exact (b2 (by omega)).2.1
    · omega
  · have hc : ¬ M = [] := by intro h; rw [h] at hM; cases hM
    have hd := hs.2.2
    refine ⟨Or.inr (Or.inr ⟨by omega, srcI_serialize ⟨x1.trans hs.1, x2.trans hs.2.1, x4.trans hs.2.2⟩, ?_, ?_⟩), fun h => absurd hj h, fun _ => ⟨?_, ?_⟩⟩ <;>
      simp [Snk.deserialize, k1, k2, hn1, hn2, hd, hc]
  · have hd := hs.2.2
    refine ⟨Or.inr (Or.inr ⟨by omega, srcI_serialize ⟨x1.trans hs.1, x2.trans hs.2.1, x4.trans hs.2.2⟩, ?_, ?_⟩), fun _ => ⟨?_, ?_⟩, fun h => by omega⟩ <;>
      simp [Snk.deserialize, k1, k2, hn1, hn2, hd]

/-! ### messages -/

theorem w16_lt (x n : Nat) : w16 x n < 2 ^ 16 := Nat.mod_lt _ (by decide)

theorem z16_lt (x : Int) (n : Nat) : z16 x n < 2 ^ 16 := by
  unfold z16
  have := Int.emod_lt_of_pos (x / 2 ^ n) (b := 2 ^ 16) (by decide)
  omega

theorem w_two {x : Nat} (h : x < 2 ^ 32) : w16 x 16 * 2 ^ 16 + w16 x 0 = x := by
  unfold w16; omega

theorem w_three (x : Nat) : w16 x 32 * 2 ^ 32 + w16 x 16 * 2 ^ 16 + w16 x 0 = x % 2 ^ 48 := by
  unfold w16; omega

theorem z_three (x : Int) : z16 x 32 * 2 ^ 32 + z16 x 16 * 2 ^ 16 + z16 x 0 = (x % 2 ^ 48).toNat := by
  unfold z16; omega

theorem off_lt (c : Clk) : c.off < 2 ^ 32 := by unfold Clk.off; omega

theorem altOff_lt (c : Clk) : c.altOff < 2 ^ 32 := by unfold Clk.altOff; split <;> omega

theorem build_length {x : Src} (h : x.idx < 3) : x.build.length = 14 := by
  unfold Src.build Src.body
  by_cases h0 : x.idx = 0
  · simp [h0]
  · by_cases h1 : x.idx = 1
    · simp [h1]
    · have h2 : x.idx = 2 := by omega
      simp [h2]

theorem build_lt {x : Src} (h : x.idx < 3) (hc : x.clk.Ok) : ∀ v ∈ x.build, v < 2 ^ 16 := by
  have a1 := hc.num
  have a2 := hc.denom
  have a3 := hc.cnt
  intro v hv
  unfold Src.build Src.body at hv
  have hh : x.idx % 16 + (if x.relUpd then 256 else 0) + (if x.clk.s % 2 = 1 then 512 else 0) < 2 ^ 16 := by
    have : (if x.relUpd then 256 else 0) ≤ 256 := by split <;> omega
    have : (if x.clk.s % 2 = 1 then 512 else 0) ≤ 512 := by split <;> omega
    omega
  have h2 : x.clk.ns / 2 ^ 16 % 2 ^ 14 + (if x.todUpd then 0x8000 else 0) < 2 ^ 16 := by
    have : (if x.todUpd then 0x8000 else 0) ≤ 0x8000 := by split <;> omega
    omega
  have h3 : x.clk.pNs % 256 < 2 ^ 16 := by omega
  by_cases h0 : x.idx = 0
  · simp only [h0, if_true, List.mem_append, List.mem_cons, List.not_mem_nil, or_false] at hv
    rw [h0] at hh
    rcases hv with (h | h | h | h | h | h) | h | h | h | h | h | h | h | h <;> subst h <;> first | exact w16_lt _ _ | assumption
  · by_cases h1 : x.idx = 1
    · simp only [h1, Nat.one_ne_zero, if_false, if_true, List.mem_append, List.mem_cons, List.not_mem_nil, or_false] at hv
      rw [h1] at hh
      rcases hv with (h | h | h | h | h | h) | h | h | h | h | h | h | h | h <;> subst h <;> first | exact w16_lt _ _ | assumption
    · have h2 : x.idx = 2 := by omega
      simp only [h2, (show ¬ (2 : Nat) = 0 by decide), (show ¬ (2 : Nat) = 1 by decide), if_false, if_true, List.mem_append, List.mem_cons, List.not_mem_nil, or_false] at hv
      rw [h2] at hh
      rcases hv with (h | h | h | h | h | h) | h | h | h | h | h | h | h | h <;> subst h <;> first | exact w16_lt _ _ | exact z16_lt _ _ | assumption

/-- what a message does to the registers of the sink -/
def upd (i : Nat) (c : Clk) (d : Clk) : Clk :=
  { pNs := c.pNs, pFns := c.pFns, fns := c.fns, rel := c.rel,
    num := if i = 1 then c.num else d.num, denom := if i = 1 then c.denom else d.denom, cnt := if i = 1 then c.cnt else d.cnt,
    s := if i = 0 then c.s % 2 ^ 48 else d.s, ns := if i = 0 then c.ns else d.ns }

theorem ns_word {x : Nat} (h : x < 1000000000) (b : Bool) : (x / 2 ^ 16 % 2 ^ 14 + (if b then 0x8000 else 0)) % 2 ^ 14 * 2 ^ 16 + w16 x 0 = x := by
  unfold w16
  cases b
  · simp only [Bool.false_eq_true, if_false]; omega
  · simp only [if_true]; omega

theorem load_build {x : Src} (h : x.idx < 3) (hc : x.clk.Ok) (k : Snk) :
    k.load x.build = some
      { k with
        clk := upd x.idx x.clk k.clk, off := if x.idx = 1 then x.clk.off else k.off,
        altS := if x.idx = 2 then (x.clk.altS % 2 ^ 48).toNat else k.altS, altOff := if x.idx = 2 then x.clk.altOff else k.altOff, msg := none } := by
  have hl := build_length h
  unfold Snk.load
  rw [if_neg (by omega)]
  have e1 := w_two hc.fns
  have e2 := w_two hc.pFns
  have e3 := (w_three x.clk.rel).trans (Nat.mod_eq_of_lt hc.rel)
  have e4 : x.clk.pNs % 256 = x.clk.pNs := Nat.mod_eq_of_lt hc.pNs
  have e5 := ns_word hc.ns x.todUpd
  have e6 := w_three x.clk.s
  have e7 := w_two (off_lt x.clk)
  have e8 := w_two (altOff_lt x.clk)
  have e9 := z_three x.clk.altS
  have e10 : (x.idx % 16 + (if x.relUpd then 256 else 0) + (if x.clk.s % 2 = 1 then 512 else 0)) % 16 = x.idx := by
    split <;> split <;> omega
  rcases (show x.idx = 0 ∨ x.idx = 1 ∨ x.idx = 2 by omega) with hi | hi | hi
  all_goals
    rw [hi] at e10
    simp only [Src.build, Src.body, hi, reduceIte, Nat.reduceEqDiff, Nat.one_ne_zero, (show ¬ (2 : Nat) = 0 by decide), (show ¬ (2 : Nat) = 1 by decide), Snk.body, mw, upd, List.cons_append, List.nil_append, List.getD_cons_zero, List.getD_cons_succ, e10]
    simp only [e1, e2, e3, e4, e5, e6, e7, e8, e9, Nat.mod_mod, reduceIte, Nat.one_ne_zero, Nat.zero_ne_one]

end Corundum.PtpTd
