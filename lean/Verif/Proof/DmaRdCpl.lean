import Verif.Spec.DmaRdCpl
import Mathlib.Data.Nat.ModEq

namespace Corundum.DmaRd

/-- the sizes, without powers -/
structure Sizes (p : Ram) (M : Nat) : Prop where
  seg : 0 < p.segBytes
  lanes : p.lanes = 2 * p.bus
  bus : p.segBytes ≤ p.bus
  four : ∃ q, p.bus = 4 * q ∧ 0 < q
  words : 2 ^ p.aw = M * p.lanes
  pos : 0 < M

theorem sizes (p : Ram) (h : p.Ok) : ∃ M, Sizes p M := by
  obtain ⟨i, j, h1, h2, h3, h4⟩ := h.pow
  have hl : p.lanes = 2 * 2 ^ (i + j) := by
    unfold Ram.lanes; rw [h1, h2, ← Nat.pow_add, ← Nat.pow_succ']; congr 1; omega
  have hb : p.bus = 2 ^ (i + j) := by unfold Ram.bus; rw [hl]; omega
  refine ⟨2 ^ (p.aw - (i + 1 + j)), ?_, ?_, ?_, ?_, ?_, Nat.two_pow_pos _⟩
  · rw [h2]; exact Nat.two_pow_pos _
  · rw [hl, hb]
  · rw [h2, hb]; exact Nat.pow_le_pow_right (by omega) (by omega)
  · refine ⟨2 ^ (i + j - 2), ?_, Nat.two_pow_pos _⟩
    rw [hb, show (4 : Nat) = 2 ^ 2 from rfl, ← Nat.pow_add]; congr 1; omega
  · rw [hl, ← Nat.pow_succ', ← Nat.pow_add]; congr 1; omega

section
variable {Byte : Type} {p : Ram} {M : Nat}

/-- segments of the last and first lane when a beat wraps -/
theorem seg_gap (z : Sizes p M) {f e : Nat} (h : e + p.segBytes ≤ f) : e / p.segBytes < f / p.segBytes := by
  rw [Nat.div_lt_iff_lt_mul z.seg]
  have h1 := Nat.div_add_mod f p.segBytes
  have h2 := Nat.mod_lt f z.seg
  rw [Nat.mul_comm] at h1
  omega

theorem mod_two {x L : Nat} (h : x < 2 * L) : x / L = 0 ∧ x % L = x ∧ x < L ∨ x / L = 1 ∧ x % L = x - L ∧ L ≤ x := by
  have hL : 0 < L := by omega
  rcases Nat.lt_or_ge x L with h' | h'
  · left; exact ⟨Nat.div_eq_of_lt h', Nat.mod_eq_of_lt h', h'⟩
  · right
    refine ⟨?_, ?_, h'⟩
    · rw [Nat.div_eq_iff hL]; omega
    · rw [Nat.mod_eq_sub_mod h', Nat.mod_eq_of_lt (by omega)]

theorem beat_hit (z : Sizes p M) (b : Beat) (ha : b.addr < 2 ^ p.aw) (hc : b.cyc ≤ p.bus) (sel : Nat) (d : Nat → Byte) (mem : Nat → Nat → Byte) (k : Nat) (hk : k < b.cyc) :
    (b.write p sel d).apply p mem sel ((b.addr + k) % 2 ^ p.aw) = d (((b.addr + k) % p.lanes + p.bus - b.off) % p.bus) := by
  have hb := z.bus
  have hs := z.seg
  have hl := z.lanes
  have hL : 0 < p.lanes := by omega
  have hx1 : (b.addr + k) % 2 ^ p.aw % p.lanes = (b.addr + k) % p.lanes := by rw [z.words]; exact Nat.mod_mul_left_mod _ _ _
  have hx2 : (b.addr + k) % 2 ^ p.aw / p.lanes = (b.addr + k) / p.lanes % M := by rw [z.words]; exact Nat.mod_mul_left_div_self _ _ _
  have hM : 2 ^ p.aw / p.lanes = M := by rw [z.words]; exact Nat.mul_div_cancel _ hL
  have hdm := Nat.div_add_mod b.addr p.lanes
  have hfl := Nat.mod_lt b.addr hL
  have hq : b.addr / p.lanes < M := by rw [Nat.div_lt_iff_lt_mul hL, ← z.words]; exact ha
  have e1 : (b.addr + k) % p.lanes = (b.first p + k) % p.lanes := by
    unfold Beat.first; rw [Nat.mod_add_mod]
  have e2 : (b.addr + k) / p.lanes = b.addr / p.lanes + (b.first p + k) / p.lanes := by
    unfold Beat.first
    have h := Nat.mul_add_div hL (b.addr / p.lanes) (b.addr % p.lanes + k)
    rw [← Nat.add_assoc, hdm] at h
    exact h
  have hf : b.first p < p.lanes := hfl
  unfold Write.apply
  rw [hx1, hx2, if_pos]
  · rfl
  refine ⟨rfl, ?_⟩
  have t1 := @mod_two (b.first p + b.cyc - 1) p.lanes (by omega)
  have t2 := @mod_two (b.first p + k) p.lanes (by omega)
  have hla : b.last p = (b.first p + b.cyc - 1) % p.lanes := rfl
  have hwr : b.wrap p = ((b.first p + b.cyc - 1) / p.lanes != 0) := rfl
  rw [e1, e2]
  rcases t1 with ⟨w1, w2, w3⟩ | ⟨w1, w2, w3⟩
  · have hw : b.wrap p = false := by rw [hwr, w1]; rfl
    rw [w2] at hla
    rcases t2 with ⟨v1, v2, v3⟩ | ⟨v1, v2, v3⟩
    · rw [v1, v2]
      simp only [Beat.write, hw, Beat.mask0, Beat.mask1, Bool.false_and, Bool.and_eq_true, decide_eq_true_eq, if_false, Bool.false_eq_true]
      refine ⟨⟨Nat.div_le_div_right (by omega), Nat.div_le_div_right (by omega)⟩, ⟨by omega, by omega⟩, ?_⟩
      rw [Nat.add_zero, Nat.mod_eq_of_lt hq]
    · omega
  · have hw : b.wrap p = true := by rw [hwr, w1]; rfl
    rw [w2] at hla
    rcases t2 with ⟨v1, v2, v3⟩ | ⟨v1, v2, v3⟩
    · rw [v1, v2]
      have hg : b.last p / p.segBytes < b.first p / p.segBytes := seg_gap z (by omega)
      have hk' : b.first p / p.segBytes ≤ (b.first p + k) / p.segBytes := Nat.div_le_div_right (by omega)
      have hm : b.mask1 p ((b.first p + k) / p.segBytes) = false := by
        unfold Beat.mask1; rw [decide_eq_false_iff_not]; omega
      simp only [Beat.write, hw, hm, Beat.mask0, Bool.true_and, Bool.or_eq_true, decide_eq_true_eq, if_true, Bool.false_eq_true, if_false, or_false]
      refine ⟨hk', Or.inl (by omega), ?_⟩
      rw [Nat.add_zero, Nat.mod_eq_of_lt hq]
    · rw [v1, v2]
      have hm : b.mask1 p ((b.first p + k - p.lanes) / p.segBytes) = true := by
        unfold Beat.mask1; rw [decide_eq_true_eq]; exact Nat.div_le_div_right (by omega)
      simp only [Beat.write, hw, hm, Bool.true_and, Bool.or_true, if_true, Bool.or_eq_true, decide_eq_true_eq, hM, and_true, true_and]
      right; omega

theorem beat_miss (z : Sizes p M) (b : Beat) (ha : b.addr < 2 ^ p.aw) (hc0 : 0 < b.cyc) (hc : b.cyc ≤ p.bus) (sel : Nat) (d : Nat → Byte) (mem : Nat → Nat → Byte) (s x : Nat)
    (hx : x < 2 ^ p.aw) (h : s = sel → ∀ k, k < b.cyc → x ≠ (b.addr + k) % 2 ^ p.aw) : (b.write p sel d).apply p mem s x = mem s x := by
  have hb := z.bus
  have hs := z.seg
  have hl := z.lanes
  have hL : 0 < p.lanes := by omega
  have hM : 2 ^ p.aw / p.lanes = M := by rw [z.words]; exact Nat.mul_div_cancel _ hL
  have hdm := Nat.div_add_mod b.addr p.lanes
  have hfl := Nat.mod_lt b.addr hL
  have hxd := Nat.div_add_mod x p.lanes
  have hxl := Nat.mod_lt x hL
  have hq : b.addr / p.lanes < M := by rw [Nat.div_lt_iff_lt_mul hL, ← z.words]; exact ha
  unfold Write.apply
  rw [if_neg]
  rintro ⟨h1, h2, h3, h4⟩
  have h1 : s = sel := h1.symm
  have h := h h1
  have t1 := @mod_two (b.first p + b.cyc - 1) p.lanes (by unfold Beat.first; omega)
  have hla : b.last p = (b.first p + b.cyc - 1) % p.lanes := rfl
  have hwr : b.wrap p = ((b.first p + b.cyc - 1) / p.lanes != 0) := rfl
  have hf : b.first p = b.addr % p.lanes := rfl
  rcases t1 with ⟨w1, w2, w3⟩ | ⟨w1, w2, w3⟩
  · have hw : b.wrap p = false := by rw [hwr, w1]; rfl
    rw [w2] at hla
    simp only [Beat.write, hw, Bool.false_and, Bool.and_eq_true, decide_eq_true_eq, if_false, Bool.false_eq_true] at h3 h4
    refine h (x % p.lanes - b.first p) (by omega) ?_
    have : b.addr + (x % p.lanes - b.first p) = x := by
      rw [h4] at hdm
      omega
    rw [this, Nat.mod_eq_of_lt hx]
  · have hw : b.wrap p = true := by rw [hwr, w1]; rfl
    rw [w2] at hla
    simp only [Beat.write, hw, Bool.true_and, Bool.or_eq_true, decide_eq_true_eq, if_true, hM] at h3 h4
    by_cases hge : b.first p ≤ x % p.lanes
    · have hg : b.last p / p.segBytes < b.first p / p.segBytes := seg_gap z (by omega)
      have hk' : b.first p / p.segBytes ≤ (x % p.lanes) / p.segBytes := Nat.div_le_div_right (by omega)
      have hm : b.mask1 p (x % p.lanes / p.segBytes) = false := by
        unfold Beat.mask1; rw [decide_eq_false_iff_not]; omega
      rw [hm] at h4
      simp only [Bool.false_eq_true, if_false] at h4
      refine h (x % p.lanes - b.first p) (by omega) ?_
      have : b.addr + (x % p.lanes - b.first p) = x := by
        rw [h4] at hdm
        omega
      rw [this, Nat.mod_eq_of_lt hx]
    · have hle : x % p.lanes ≤ b.last p := by omega
      have hm : b.mask1 p (x % p.lanes / p.segBytes) = true := by
        unfold Beat.mask1; rw [decide_eq_true_eq]; exact Nat.div_le_div_right hle
      rw [hm] at h4
      simp only [if_true] at h4
      refine h (x % p.lanes + p.lanes - b.first p) (by omega) ?_
      have e : b.addr + (x % p.lanes + p.lanes - b.first p) = (b.addr / p.lanes + 1) * p.lanes + x % p.lanes := by
        rw [Nat.mul_comm, Nat.mul_add, Nat.mul_one]; omega
      rw [e]
      rcases Nat.lt_or_ge (b.addr / p.lanes + 1) M with hh | hh
      · rw [Nat.mod_eq_of_lt hh] at h4
        rw [h4, Nat.mul_comm, hxd, Nat.mod_eq_of_lt hx]
      · have : b.addr / p.lanes + 1 = M := by omega
        rw [this, Nat.mod_self] at h4
        rw [← h4, Nat.mul_zero] at hxd
        rw [this, ← z.words, Nat.add_mod_left, Nat.mod_eq_of_lt (by omega)]
        omega

/-- the RAMs after several writes -/
def applyAll (p : Ram) (ws : List (Write Byte)) (mem : Nat → Nat → Byte) : Nat → Nat → Byte := ws.foldl (fun m w => w.apply p m) mem

/-- the writes set `cnt` bytes from address `a` of RAM `sel`, byte `k` to `D k`, and nothing else -/
def Sets (p : Ram) (ws : List (Write Byte)) (sel a cnt : Nat) (D : Nat → Byte) : Prop := ∀ (mem : Nat → Nat → Byte) (s x : Nat), x < 2 ^ p.aw →
  (s = sel ∧ ∃ k, k < cnt ∧ x = (a + k) % 2 ^ p.aw ∧ applyAll p ws mem s x = D k) ∨
  ((s = sel → ∀ k, k < cnt → x ≠ (a + k) % 2 ^ p.aw) ∧ applyAll p ws mem s x = mem s x)

theorem sets_mod {ws : List (Write Byte)} {sel a cnt : Nat} {D : Nat → Byte} (h : Sets p ws sel (a % 2 ^ p.aw) cnt D) : Sets p ws sel a cnt D := by
  intro mem s x hx
  have := h mem s x hx
  simp only [Nat.mod_add_mod] at this
  exact this

theorem sets_append {ws vs : List (Write Byte)} {sel a c1 c2 : Nat} {D : Nat → Byte} (h1 : Sets p ws sel a c1 D) (h2 : Sets p vs sel (a + c1) c2 (fun k => D (c1 + k))) :
    Sets p (ws ++ vs) sel a (c1 + c2) D := by
  intro mem s x hx
  have e : applyAll p (ws ++ vs) mem = applyAll p vs (applyAll p ws mem) := by unfold applyAll; rw [List.foldl_append]
  rw [e]
  rcases h2 (applyAll p ws mem) s x hx with ⟨hs, k, hk, hxk, hv⟩ | ⟨hn, hv⟩
  · left; exact ⟨hs, c1 + k, by omega, by rw [hxk, Nat.add_assoc], hv⟩
  · rcases h1 mem s x hx with ⟨hs, k, hk, hxk, hv'⟩ | ⟨hn', hv'⟩
    · left; exact ⟨hs, k, by omega, hxk, by rw [hv, hv']⟩
    · right
      refine ⟨?_, by rw [hv, hv']⟩
      intro hs k hk
      rcases Nat.lt_or_ge k c1 with hlt | hge
      · exact hn' hs k hlt
      · have := hn hs (k - c1) (by omega)
        rw [show a + c1 + (k - c1) = a + k by omega] at this
        exact this

theorem sets_congr {ws : List (Write Byte)} {sel a cnt : Nat} {D D' : Nat → Byte} (h : Sets p ws sel a cnt D) (hd : ∀ k, k < cnt → D k = D' k) : Sets p ws sel a cnt D' := by
  intro mem s x hx
  rcases h mem s x hx with ⟨hs, k, hk, hxk, hv⟩ | h
  · left; exact ⟨hs, k, hk, hxk, by rw [hv, hd k hk]⟩
  · right; exact h

theorem beat_sets (z : Sizes p M) (b : Beat) (ha : b.addr < 2 ^ p.aw) (hc0 : 0 < b.cyc) (hc : b.cyc ≤ p.bus) (sel : Nat) (d : Nat → Byte) :
    Sets p [b.write p sel d] sel b.addr b.cyc (fun k => d (((b.addr + k) % p.lanes + p.bus - b.off) % p.bus)) := by
  intro mem s x hx
  show (s = sel ∧ ∃ k, k < b.cyc ∧ x = (b.addr + k) % 2 ^ p.aw ∧ (b.write p sel d).apply p mem s x = _) ∨ (_ ∧ (b.write p sel d).apply p mem s x = _)
  by_cases h : s = sel ∧ ∃ k, k < b.cyc ∧ x = (b.addr + k) % 2 ^ p.aw
  · obtain ⟨rfl, k, hk, rfl⟩ := h
    left; exact ⟨rfl, k, hk, rfl, beat_hit z b ha hc s d mem k hk⟩
  · right
    have h' : s = sel → ∀ k, k < b.cyc → x ≠ (b.addr + k) % 2 ^ p.aw := fun hs k hk hxk => h ⟨hs, k, hk, hxk⟩
    exact ⟨h', beat_miss z b ha hc0 hc sel d mem s x hx h'⟩

/-- the byte of the TLP bus that goes to lane `y % lanes` -/
theorem lane_idx (z : Sizes p M) {y off r : Nat} (ho : off < p.bus) (hr : r < p.bus) (h : y ≡ off + r [MOD p.bus]) : (y % p.lanes + p.bus - off) % p.bus = r := by
  have h1 : y % p.lanes ≡ y [MOD p.bus] := by
    have : p.bus ∣ p.lanes := ⟨2, by rw [z.lanes]; omega⟩
    exact (Nat.mod_mod_of_dvd y this : _)
  have h2 : (y % p.lanes + p.bus - off) + off ≡ r + off [MOD p.bus] := by
    rw [show y % p.lanes + p.bus - off + off = y % p.lanes + p.bus by omega]
    have : y % p.lanes + p.bus ≡ y % p.lanes [MOD p.bus] := Nat.add_mod_right _ _
    rw [Nat.add_comm r off]
    exact this.trans (h1.trans h)
  have h3 := Nat.ModEq.add_right_cancel' off h2
  have : (y % p.lanes + p.bus - off) % p.bus = r % p.bus := h3
  rw [this, Nat.mod_eq_of_lt hr]

theorem bus_dvd (z : Sizes p M) : p.bus ∣ 2 ^ p.aw := by
  rw [z.words, z.lanes]; exact ⟨M * 2, by rw [Nat.mul_comm p.bus, Nat.mul_assoc]⟩

theorem more_sets (z : Sizes p M) (off sel : Nat) (ho : off < p.bus) (d : Nat → Byte) : ∀ (n addr op idx : Nat), 0 < op → op ≤ n * p.bus → addr < 2 ^ p.aw →
    addr ≡ off [MOD p.bus] → Sets p ((more p off n addr op idx).map fun b => b.write p sel fun j => d (b.idx * p.bus + j)) sel addr op (fun k => d (idx * p.bus + k))
  | 0, _, op, _, h0, h1, _, _ => by omega
  | n + 1, addr, op, idx, h0, h1, ha, hm => by
    have hN : 0 < 2 ^ p.aw := Nat.two_pow_pos _
    unfold more
    by_cases h : op > p.bus
    · rw [if_pos h, List.map_cons, ← List.singleton_append]
      have hb := beat_sets z ⟨addr, p.bus, off, idx⟩ ha (by show 0 < p.bus; omega) (Nat.le_refl _) sel (fun j => d (idx * p.bus + j))
      have hr := more_sets z off sel ho d n ((addr + p.bus) % 2 ^ p.aw) (op - p.bus) (idx + 1) (by omega) (by rw [Nat.succ_mul] at h1; omega) (Nat.mod_lt _ hN) (by
        have h2 : (addr + p.bus) % 2 ^ p.aw % p.bus = (addr + p.bus) % p.bus := Nat.mod_mod_of_dvd _ (bus_dvd z)
        have h3 : (addr + p.bus) % p.bus = addr % p.bus := Nat.add_mod_right _ _
        exact (h2.trans h3).trans hm)
      have := @sets_append Byte p [Beat.write p ⟨addr, p.bus, off, idx⟩ sel (fun j => d (idx * p.bus + j))] _ sel addr p.bus (op - p.bus) (fun k => d (idx * p.bus + k))
        (sets_congr hb (by
          intro k hk
          dsimp only
          rw [lane_idx z ho hk (hm.add_right k)]))
        (sets_congr (sets_mod hr) (by
          intro k hk
          congr 1
          rw [Nat.succ_mul]; omega))
      rw [show p.bus + (op - p.bus) = op by omega] at this
      exact this
    · rw [if_neg h]
      have hb := beat_sets z ⟨addr, op, off, idx⟩ ha h0 (by show op ≤ p.bus; omega) sel (fun j => d (idx * p.bus + j))
      exact sets_congr hb (by
        intro k hk
        dsimp only at hk ⊢
        rw [lane_idx z ho (by omega) (hm.add_right k)])

theorem answer_final {a n lo hi : Nat} (h : Part a n lo hi) : finalCpl (answer a n lo hi) = decide (hi = n) ∧ opCount (answer a n lo hi) = hi - lo := by
  obtain ⟨h1, h2, h3⟩ := h
  have hf : finalCpl (answer a n lo hi) = decide (hi = n) := by
    unfold finalCpl answer
    dsimp only
    rw [← decide_not, decide_eq_decide]
    omega
  refine ⟨hf, ?_⟩
  unfold opCount
  rw [hf]
  unfold answer
  dsimp only
  by_cases h : hi = n
  · rw [if_pos (by simpa using h)]; omega
  · rw [if_neg (by simpa using h)]; omega

theorem sub_modEq {E K m : Nat} (hm : 0 < m) (k : Nat) (hK : 0 < K) (hd : m ∣ K) : (E + K - k % K) % K + k ≡ E [MOD m] := by
  have hlt := Nat.mod_lt k hK
  have h1 : (E + K - k % K) % K + k ≡ (E + K - k % K) + k % K [MOD K] :=
    Nat.ModEq.add (Nat.mod_mod _ _) (Nat.mod_mod _ _).symm
  have h2 : (E + K - k % K) + k % K = E + K := by omega
  rw [h2] at h1
  have h3 : E + K ≡ E [MOD K] := Nat.add_mod_right _ _
  exact (h1.trans h3).of_dvd hd

theorem answer_sets (z : Sizes p M) (host : Nat → Byte) (a n lo hi E sel : Nat) (h : Part a n lo hi) :
    Sets p (writes p E sel (answer a n lo hi) (answerData host a lo)) sel ((E + 2 ^ p.aw - (n - lo) % 2 ^ p.aw) % 2 ^ p.aw) (hi - lo) (fun k => host (a + lo + k)) := by
  obtain ⟨hf, hop⟩ := answer_final h
  obtain ⟨h1, h2, h3⟩ := h
  have hN : 0 < 2 ^ p.aw := Nat.two_pow_pos _
  obtain ⟨q, hq, hq0⟩ := z.four
  have hbus : 0 < p.bus := by omega
  generalize haddr : (E + 2 ^ p.aw - (n - lo) % 2 ^ p.aw) % 2 ^ p.aw = addr
  generalize hoff : (E % p.bus + p.bus - (n - lo + (a + lo) % 128 % 4) % p.bus) % p.bus = off
  generalize hb : (a + lo) % 128 % 4 = b at hoff
  have hb4 : b = (a + lo) % 4 := by omega
  have ho : off < p.bus := by rw [← hoff]; exact Nat.mod_lt _ hbus
  have hA : addr < 2 ^ p.aw := by rw [← haddr]; exact Nat.mod_lt _ hN
  have m1 : addr + (n - lo) ≡ E [MOD p.bus] := by
    rw [← haddr]; exact sub_modEq hbus (n - lo) hN (bus_dvd z)
  have m2 : off + (n - lo + b) ≡ E % p.bus [MOD p.bus] := by
    rw [← hoff]; exact sub_modEq hbus (n - lo + b) hbus (Nat.dvd_refl _)
  have m3 : E % p.bus ≡ E [MOD p.bus] := Nat.mod_mod _ _
  have hm : addr ≡ off + b [MOD p.bus] := by
    apply Nat.ModEq.add_right_cancel' (n - lo)
    have : off + b + (n - lo) = off + (n - lo + b) := by omega
    rw [this]
    exact m1.trans (m2.trans m3).symm
  have hla : (answer a n lo hi).la % 4 = b := hb
  have hbc : (answer a n lo hi).bc = n - lo := rfl
  have hlen : (answer a n lo hi).len = ((a + lo) % 4 + (hi - lo) + 3) / 4 := rfl
  have hdata : ∀ k, answerData host a lo (b + k) = host (a + lo + k) := by
    intro k; unfold answerData; congr 1; omega
  have hls : lastFirst p (answer a n lo hi) = decide (b + (hi - lo) ≤ p.bus) := by
    unfold lastFirst
    rw [hf, hop, hla, hlen]
    by_cases he : hi = n
    · rw [if_pos (by simpa using he), ← decide_not, decide_eq_decide]; omega
    · rw [if_neg (by simpa using he), ← decide_not, decide_eq_decide]; omega
  unfold writes beats
  dsimp only
  rw [hla, hbc, haddr, hoff, hop, hls]
  by_cases hl : b + (hi - lo) ≤ p.bus
  · simp only [hl, decide_true, if_true]
    have hs := beat_sets z ⟨addr, hi - lo, off, 0⟩ hA (by show 0 < hi - lo; omega) (by show hi - lo ≤ p.bus; omega) sel (fun j => answerData host a lo (0 * p.bus + j))
    exact sets_congr hs (by
      intro k hk
      dsimp only at hk ⊢
      rw [lane_idx z ho (by omega : b + k < p.bus) (by rw [← Nat.add_assoc]; exact hm.add_right k), Nat.zero_mul, Nat.zero_add]
      exact hdata k)
  · simp only [hl, decide_false, Bool.false_eq_true, if_false]
    have hs := beat_sets z ⟨addr, p.bus - b, off, 0⟩ hA (by show 0 < p.bus - b; omega) (by show p.bus - b ≤ p.bus; omega) sel (fun j => answerData host a lo (0 * p.bus + j))
    have ht : hi - lo - (p.bus - b) ≤ (p.tlpBeats (answer a n lo hi).len - 1) * p.bus := by
      have t1 : (answer a n lo hi).len * 4 ≤ p.tlpBeats (answer a n lo hi).len * p.bus := by
        unfold Ram.tlpBeats
        generalize (answer a n lo hi).len * 4 = y
        have := Nat.div_add_mod (y + p.bus - 1) p.bus
        have := Nat.mod_lt (y + p.bus - 1) hbus
        rw [Nat.mul_comm]
        omega
      rw [Nat.sub_mul, Nat.one_mul]
      omega
    have hr := more_sets z off sel ho (answerData host a lo) (p.tlpBeats (answer a n lo hi).len - 1) ((addr + (p.bus - b)) % 2 ^ p.aw) (hi - lo - (p.bus - b)) 1 (by omega) ht (Nat.mod_lt _ hN) (by
      have h2 : (addr + (p.bus - b)) % 2 ^ p.aw % p.bus = (addr + (p.bus - b)) % p.bus := Nat.mod_mod_of_dvd _ (bus_dvd z)
      have h3 : addr + (p.bus - b) ≡ off + b + (p.bus - b) [MOD p.bus] := hm.add_right _
      rw [show off + b + (p.bus - b) = off + p.bus by omega] at h3
      have h4 : off + p.bus ≡ off [MOD p.bus] := Nat.add_mod_right _ _
      exact Eq.trans h2 (h3.trans h4))
    rw [List.map_cons, ← List.singleton_append]
    have := @sets_append Byte p _ _ sel addr (p.bus - b) (hi - lo - (p.bus - b)) (fun k => host (a + lo + k))
      (sets_congr hs (by
        intro k hk
        dsimp only at hk ⊢
        rw [lane_idx z ho (by omega : b + k < p.bus) (by rw [← Nat.add_assoc]; exact hm.add_right k), Nat.zero_mul, Nat.zero_add]
        exact hdata k))
      (sets_congr (sets_mod hr) (by
        intro k hk
        rw [← hdata]
        congr 1
        omega))
    rw [show p.bus - b + (hi - lo - (p.bus - b)) = hi - lo by omega] at this
    exact this

end

end Corundum.DmaRd
