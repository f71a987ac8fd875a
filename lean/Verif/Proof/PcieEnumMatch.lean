import Verif.Proof.PcieEnumBars

/-! `match_bar` decodes exactly the assigned regions. -/
namespace Corundum.PcieEnum
open Corundum

def hit (addr : Nat) (io : Bool) (r : Rgn) : Option (Nat × Nat) := if r.holds addr io then some (r.bar, addr - r.base) else none

/-- the address is not above 4 GB with low bits that could match a 32-bit BAR at or above `M` -/
def Fair (addr : Nat) (io : Bool) (M : Nat) : Prop := addr < 2 ^ 64 ∧ (addr < 2 ^ 32 ∨ (io = false ∧ addr % 2 ^ 32 < M))

theorem and_trunc {x m : Nat} (hm : m < 2 ^ 32) : x &&& m = (x % 2 ^ 32) &&& m := by
  apply ext_lt
  intro i
  rw [Nat.testBit_and, Nat.testBit_and, Nat.testBit_mod_two_pow]
  by_cases h : i < 32
  · rw [decide_eq_true h, Bool.true_and]
  · rw [tb_big hm (by omega), Bool.and_false, Bool.and_false]

theorem same_block {x v k b : Nat} (hb : b = v / 2 ^ k * 2 ^ k) : x / 2 ^ k * 2 ^ k = v / 2 ^ k * 2 ^ k ↔ b ≤ x ∧ x < b + 2 ^ k := by
  rw [← hb]
  have h1 := Nat.div_add_mod x (2 ^ k)
  have h2 := Nat.mod_lt x (Nat.two_pow_pos k)
  rw [Nat.mul_comm] at h1
  constructor
  · intro h; omega
  · rintro ⟨g1, g2⟩
    have e : x / 2 ^ k = v / 2 ^ k := by
      rw [hb] at g1 g2
      rw [Nat.div_eq_iff (Nat.two_pow_pos k)]
      have := Nat.two_pow_pos k
      omega
    rw [e, hb]

theorem val_base {v k f : Nat} (h : v % 2 ^ k = f) : v - f = v / 2 ^ k * 2 ^ k := by
  have := Nat.div_add_mod v (2 ^ k)
  rw [Nat.mul_comm] at this
  omega

/-- 32-bit decoding -/
theorem dec32 {addr v k f : Nat} (hk : k ≤ 31) (hv : v < 2 ^ 32) (hf : v % 2 ^ k = f) (ha : addr < 2 ^ 32) :
    (addr &&& (2 ^ 32 - 2 ^ k) = v &&& (2 ^ 32 - 2 ^ k) ↔ v - f ≤ addr ∧ addr < v - f + 2 ^ k) ∧
    (v - f ≤ addr → addr < v - f + 2 ^ k → andNot addr (2 ^ 32 - 2 ^ k) = addr - (v - f)) := by
  rw [and_high ha (by omega), and_high hv (by omega), andNot_high ha (by omega)]
  refine ⟨same_block (val_base hf), ?_⟩
  intro h1 h2
  have e := (same_block (val_base hf)).mpr ⟨h1, h2⟩
  rw [← val_base hf] at e
  have := Nat.div_add_mod addr (2 ^ k)
  rw [Nat.mul_comm, e] at this
  omega

/-- a 32-bit BAR ignores the upper address bits -/
theorem dec32_alias {addr v k f : Nat} (hk : k ≤ 31) (hv : v < 2 ^ 32) (hf : v % 2 ^ k = f) (ha : addr % 2 ^ 32 < v - f) :
    ¬ addr &&& (2 ^ 32 - 2 ^ k) = v &&& (2 ^ 32 - 2 ^ k) := by
  have hp := Nat.two_pow_pos k
  rw [and_trunc (x := addr) (by omega)]
  intro h
  have := ((dec32 hk hv hf (Nat.mod_lt _ (by decide))).1.mp h).1
  omega

/-- 64-bit decoding -/
theorem dec64 {addr v v2 k f : Nat} (hk : k ≤ 31) (hv : v < 2 ^ 32) (hv2 : v2 < 2 ^ 32) (hf : v % 2 ^ k = f) (ha : addr < 2 ^ 64) :
    let m := (2 ^ 32 - 2 ^ k) ||| ((2 ^ 32 - 1) <<< 32)
    let b := v2 * 2 ^ 32 + (v - f)
    (addr &&& m = (v ||| (v2 <<< 32)) &&& m ↔ b ≤ addr ∧ addr < b + 2 ^ k) ∧
    (b ≤ addr → addr < b + 2 ^ k → andNot addr m = addr - b) := by
  have hp := Nat.two_pow_pos k
  have hP := pow_le_31 hk
  have em : (2 ^ 32 - 2 ^ k) ||| ((2 ^ 32 - 1) <<< 32) = 2 ^ 64 - 2 ^ k := by
    rw [Nat.shiftLeft_eq, or_low (k := 32) (Nat.mul_mod_left _ _) (by omega)]; omega
  have ev : v ||| (v2 <<< 32) = v2 * 2 ^ 32 + v := by
    rw [Nat.shiftLeft_eq, or_low (k := 32) (Nat.mul_mod_left _ _) hv]
  intro m b
  have hm : m = 2 ^ 64 - 2 ^ k := em
  rw [hm, ev, and_high ha (by omega), and_high (by omega) (by omega), andNot_high ha (by omega)]
  have hmod : (v2 * 2 ^ 32 + v) % 2 ^ k = f := by
    have : v2 * 2 ^ 32 = 2 ^ k * (v2 * 2 ^ (32 - k)) := by
      rw [Nat.mul_left_comm, ← Nat.pow_add, Nat.add_sub_cancel' (by omega)]
    rw [this, Nat.mul_add_mod, hf]
  have hb : b = (v2 * 2 ^ 32 + v) / 2 ^ k * 2 ^ k := by
    rw [← val_base hmod]
    have : f ≤ v := by rw [← hf]; exact Nat.mod_le _ _
    show v2 * 2 ^ 32 + (v - f) = _
    omega
  refine ⟨same_block hb, ?_⟩
  intro h1 h2
  have e := (same_block hb).mpr ⟨h1, h2⟩
  rw [← hb] at e
  have := Nat.div_add_mod addr (2 ^ k)
  rw [Nat.mul_comm, e] at this
  omega

theorem cons_hit (addr : Nat) (io : Bool) (r : Rgn) (rs : List Rgn) :
    (r :: rs).filterMap (hit addr io) = (if r.holds addr io then [(r.bar, addr - r.base)] else []) ++ rs.filterMap (hit addr io) := by
  rw [List.filterMap_cons]
  unfold hit
  split
  · rename_i h
    split at h
    · cases h
    · rw [if_neg (by assumption)]; rfl
  · rename_i b h
    split at h
    · cases h; rw [if_pos (by assumption)]; rfl
    · cases h

theorem ite_list {p q : Prop} [Decidable p] [Decidable q] {a b : List (Nat × Nat)} (h : p ↔ q) (e : q → a = b) :
    (if p then a else []) = if q then b else [] := by
  by_cases hq : q
  · rw [if_pos hq, if_pos (h.mpr hq), e hq]
  · rw [if_neg hq, if_neg (fun hp => hq (h.mp hp))]

theorem matchBar_spec {addr M : Nat} {io : Bool} (hfair : Fair addr io M) : ∀ (s : List Slot) (rs : List Reg), RegsOk s rs → ∀ (i : Nat),
    (∀ r ∈ regions i s rs, r.sp = .mem → M ≤ r.base) → matchBar addr io i rs = (regions i s rs).filterMap (hit addr io) := by
  obtain ⟨h64, hal⟩ := hfair
  intro s
  induction s with
  | nil =>
    intro rs hok i _
    cases rs with
    | nil => rfl
    | cons => exact absurd hok (by simp [RegsOk])
  | cons sl s ih =>
    intro rs hok i hM
    cases rs with
    | nil => cases sl <;> exact absurd hok (by simp [RegsOk])
    | cons r rest =>
    rw [matchBar.eq_def]
    dsimp only
    cases sl with
    | unused =>
      obtain ⟨rfl, hok⟩ := hok
      rw [if_pos rfl, ih rest hok (i + 1) hM, regions]
    | io k =>
      obtain ⟨⟨hk2, hk⟩, hmask, hv, ho, hok⟩ := hok
      have hP := pow_le_31 hk
      have hp := Nat.two_pow_pos k
      have h4 : r.val % 4 = 1 := by rw [← mod4 hk2, ho]
      rw [if_neg (by omega), if_pos (by rw [and1']; omega), regions, cons_hit, ih rest hok (i + 1) (fun x hx => hM x (by
        rw [regions]; exact List.mem_cons_of_mem _ hx)), hmask, h4]
      congr 1
      refine ite_list ?_ ?_
      · constructor
        · rintro ⟨h1, h2⟩
          have ha : addr < 2 ^ 32 := by rcases hal with h | h; exact h; rw [h.1] at h1; exact absurd h1 (by decide)
          exact ⟨⟨fun _ => h1, fun _ => rfl⟩, (dec32 hk hv ho ha).1.mp h2⟩
        · rintro ⟨h1, h2⟩
          have hio := h1.mp rfl
          have ha : addr < 2 ^ 32 := by rcases hal with h | h; exact h; rw [h.1] at hio; exact absurd hio (by decide)
          exact ⟨hio, (dec32 hk hv ho ha).1.mpr h2⟩
      · rintro ⟨h1, h2⟩
        have hio := h1.mp rfl
        have ha : addr < 2 ^ 32 := by rcases hal with h | h; exact h; rw [h.1] at hio; exact absurd hio (by decide)
        rw [(dec32 hk hv ho ha).2 h2.1 h2.2]
    | m32 k pf =>
      obtain ⟨⟨hk4, hk⟩, hmask, hv, ho, hok⟩ := hok
      have hP := pow_le_31 hk
      have hp := Nat.two_pow_pos k
      obtain ⟨f, hfe⟩ : ∃ f, f = if pf = true then 8 else 0 := ⟨_, rfl⟩
      have hf8 : f = 0 ∨ f = 8 := by rw [hfe]; split <;> simp
      rw [← hfe] at ho
      have h16 : r.val % 16 = f := by rw [← mod16 hk4, ho]; omega
      have hMb : M ≤ r.val - f := by
        have := hM ⟨i, .mem, r.val - r.val % 16, 2 ^ k⟩ (by rw [regions]; exact List.mem_cons_self) rfl
        rw [h16] at this
        exact this
      rw [if_neg (by omega), if_neg (by rw [and1, h16]; rcases hf8 with h | h <;> rw [h] <;> decide),
        if_neg (by rw [and4', h16]; rcases hf8 with h | h <;> rw [h] <;> decide), regions, cons_hit,
        ih rest hok (i + 1) (fun x hx => hM x (by rw [regions]; exact List.mem_cons_of_mem _ hx)), hmask, h16]
      congr 1
      refine ite_list ?_ ?_
      · rcases hal with ha | ha
        · rw [(dec32 hk hv ho ha).1]
          constructor
          · rintro ⟨h1, h2⟩
            exact ⟨⟨fun h => (by cases h), fun h => absurd h h1⟩, h2⟩
          · rintro ⟨h1, h2⟩
            exact ⟨fun h => (by cases h1.mpr h), h2⟩
        · constructor
          · rintro ⟨_, h2⟩
            exact absurd h2 (dec32_alias hk hv ho (by omega))
          · rintro ⟨_, h2, h3⟩
            have h2 : r.val - f ≤ addr := h2
            have h3 : addr < r.val - f + 2 ^ k := h3
            have hr := room (a := r.val - f) (n := 32) (k := k) (by omega) (by rw [val_base ho]; exact Nat.mul_mod_left _ _) (by omega)
            exact absurd (Nat.mod_eq_of_lt (by omega : addr < 2 ^ 32)) (by omega)
      · rintro ⟨_, h2, h3⟩
        have h2 : r.val - f ≤ addr := h2
        have h3 : addr < r.val - f + 2 ^ k := h3
        have hr := room (a := r.val - f) (n := 32) (k := k) (by omega) (by rw [val_base ho]; exact Nat.mul_mod_left _ _) (by omega)
        rw [(dec32 hk hv ho (by omega)).2 h2 h3]
    | m64 k pf =>
      cases rest with
      | nil => exact absurd hok (by simp [RegsOk])
      | cons r2 rest =>
      obtain ⟨⟨hk4, hk⟩, hmask, hv, ho, hmask2, hv2, hok⟩ := hok
      have hP := pow_le_31 hk
      have hp := Nat.two_pow_pos k
      obtain ⟨f, hfe⟩ : ∃ f, f = if pf = true then 12 else 4 := ⟨_, rfl⟩
      have hf8 : f = 4 ∨ f = 12 := by rw [hfe]; split <;> simp
      rw [← hfe] at ho
      have h16 : r.val % 16 = f := by rw [← mod16 hk4, ho]; omega
      rw [if_neg (by omega), if_neg (by rw [and1, h16]; rcases hf8 with h | h <;> rw [h] <;> decide),
        if_pos (by rw [and4', h16]; rcases hf8 with h | h <;> rw [h] <;> decide), regions, cons_hit]
      dsimp only
      rw [ih rest hok (i + 2) (fun x hx => hM x (by rw [regions]; exact List.mem_cons_of_mem _ hx)), hmask, hmask2, h16]
      congr 1
      have hd := dec64 hk hv hv2 ho h64
      refine ite_list ?_ ?_
      · rw [hd.1]
        constructor
        · rintro ⟨h1, h2⟩
          exact ⟨⟨fun h => (by cases pf <;> cases h), fun h => absurd h h1⟩, h2⟩
        · rintro ⟨h1, h2⟩
          exact ⟨fun h => (by have := h1.mpr h; cases pf <;> cases this), h2⟩
      · rintro ⟨_, h2, h3⟩
        rw [hd.2 h2 h3]

end Corundum.PcieEnum
