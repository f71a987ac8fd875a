import Verif.Spec.BufRing

namespace Corundum.BufRing

/-- `nextPtr` without wrap of the lap -/
def nxt (P : Params) (a len : Nat) : Nat :=
  if a % P.size + len > P.size - P.max then (a / P.size + 1) * P.size else (a + len + (2 ^ P.st - 1)) / 2 ^ P.st * 2 ^ P.st

theorem size_pos (P : Params) : 0 < P.size := Nat.two_pow_pos _

theorem two_size (P : Params) : 2 ^ (P.cl + 1) = 2 * P.size := by unfold Params.size; rw [Nat.pow_succ, Nat.mul_comm]

theorem off_eq (P : Params) (a : Nat) : P.off (a % (2 * P.size)) = a % P.size := by
  unfold Params.off
  rw [Nat.and_two_pow_sub_one_eq_mod]
  exact Nat.mod_mod_of_dvd a (Nat.dvd_mul_left _ _)

theorem lap_bits (P : Params) (x : Nat) (hx : x < 2 * P.size) :
    (x ^^^ (2 ^ (P.cl + 1) - 1)) &&& ((2 ^ P.cl - 1) ^^^ (2 ^ (P.cl + 1) - 1)) = ((x / P.size + 1) % 2) * P.size := by
  have hb : x.testBit P.cl = decide (x / P.size = 1) := by
    rw [Nat.testBit_eq_decide_div_mod_eq]
    have : x / 2 ^ P.cl < 2 := by rw [Nat.div_lt_iff_lt_mul (Nat.two_pow_pos _)]; exact hx
    unfold Params.size
    rw [Nat.mod_eq_of_lt this]
  have hq : x / P.size = 0 ∨ x / P.size = 1 := by
    have : x / P.size < 2 := by rw [Nat.div_lt_iff_lt_mul (size_pos P)]; omega
    obtain ⟨q, hq⟩ : ∃ q, q = x / P.size := ⟨_, rfl⟩
    rw [← hq] at this ⊢
    omega
  apply Nat.eq_of_testBit_eq
  intro i
  rw [Nat.testBit_and, Nat.testBit_xor, Nat.testBit_xor, Nat.testBit_two_pow_sub_one, Nat.testBit_two_pow_sub_one]
  rcases hq with hq | hq
  · rw [hq] at hb ⊢
    show _ = Nat.testBit (1 * P.size) i
    rw [Nat.one_mul]
    unfold Params.size
    rw [Nat.testBit_two_pow]
    by_cases h1 : i < P.cl
    · simp [h1, show i < P.cl + 1 by omega, show ¬ P.cl = i by omega]
    · by_cases h2 : i = P.cl
      · subst h2; simp [hb]
      · simp [h1, show ¬ i < P.cl + 1 by omega, show ¬ P.cl = i by omega]
  · rw [hq] at hb ⊢
    show _ = Nat.testBit (0 * P.size) i
    rw [Nat.zero_mul, Nat.zero_testBit]
    by_cases h1 : i < P.cl
    · simp [h1, show i < P.cl + 1 by omega]
    · by_cases h2 : i = P.cl
      · subst h2; simp [hb]
      · simp [h1, show ¬ i < P.cl + 1 by omega]

theorem round_bits (n st y : Nat) (hy : y < 2 ^ n) : y &&& ((2 ^ st - 1) ^^^ (2 ^ n - 1)) = y / 2 ^ st * 2 ^ st ∨ n < st := by
  by_cases hn : n < st
  · exact Or.inr hn
  left
  apply Nat.eq_of_testBit_eq
  intro i
  rw [Nat.testBit_and, Nat.testBit_xor, Nat.testBit_two_pow_sub_one, Nat.testBit_two_pow_sub_one, Nat.testBit_mul_two_pow, Nat.testBit_div_two_pow]
  by_cases h1 : i < st
  · simp [h1, show i < n by omega, show ¬ st ≤ i by omega]
  · rw [show i - st + st = i by omega]
    by_cases h2 : i < n
    · simp [h1, h2, show st ≤ i by omega]
    · rw [Nat.testBit_lt_two_pow (Nat.lt_of_lt_of_le hy (Nat.pow_le_pow_right (by decide) (show n ≤ i by omega)))]
      simp

theorem nextPtr_eq {P : Params} (hg : Good P) (a len : Nat) : nextPtr P (a % (2 * P.size)) len = nxt P a len % (2 * P.size) := by
  unfold nextPtr nxt
  rw [off_eq]
  have hs := size_pos P
  show (if a % P.size + len > P.size - P.max then _ else _) = _
  split
  · rw [lap_bits P _ (Nat.mod_lt _ (by omega))]
    rw [Nat.mul_mod_mul_right]
    congr 1
    rw [Nat.mul_comm 2, Nat.mod_mul_right_div_self, Nat.mod_add_mod]
  · rw [two_size]
    obtain h | h := round_bits (P.cl + 1) P.st ((a % (2 * P.size) + len + (2 ^ P.st - 1)) % (2 * P.size))
      (by rw [two_size]; exact Nat.mod_lt _ (by omega))
    · rw [two_size] at h
      rw [h]
      obtain ⟨c, hc⟩ : 2 ^ P.st ∣ 2 * P.size := Nat.dvd_mul_left_of_dvd (Nat.pow_dvd_pow 2 hg.st) 2
      rw [Nat.add_assoc, Nat.mod_add_mod, ← Nat.add_assoc]
      obtain ⟨y, hy⟩ : ∃ y, y = a + len + (2 ^ P.st - 1) := ⟨_, rfl⟩
      rw [← hy, hc, Nat.mod_mul_right_div_self, Nat.mul_comm (y / 2 ^ P.st), Nat.mul_mod_mul_left, Nat.mul_comm]
    · have := hg.st; omega

theorem room_eq (P : Params) {w r : Nat} (h1 : r ≤ w) (h2 : w < r + 2 * P.size) :
    room P (w % (2 * P.size)) (r % (2 * P.size)) = decide (w - r < P.size - P.max) := by
  unfold room
  rw [two_size]
  have hs := size_pos P
  obtain ⟨m, hm⟩ : ∃ m, m = 2 * P.size := ⟨_, rfl⟩
  rw [← hm] at h2 ⊢
  have : (w % m + m - r % m) % m = w - r := by
    obtain ⟨d, rfl⟩ : ∃ d, w = r + d := ⟨w - r, by omega⟩
    have hb := Nat.mod_lt r (show 0 < m by omega)
    rw [Nat.add_sub_cancel_left, Nat.add_mod, Nat.mod_eq_of_lt (show d < m by omega)]
    rcases Nat.lt_or_ge (r % m + d) m with hc | hc
    · rw [Nat.mod_eq_of_lt hc, show r % m + d + m - r % m = d + m by omega, Nat.add_mod_right, Nat.mod_eq_of_lt (by omega)]
    · rw [Nat.mod_eq_sub_mod hc, Nat.mod_eq_of_lt (show r % m + d - m < m by omega), show r % m + d - m + m - r % m = d by omega,
        Nat.mod_eq_of_lt (by omega)]
  rw [this]
  rfl

/-- a place where a packet may start -/
structure Start (P : Params) (a : Nat) : Prop where
  fit : a % P.size ≤ P.size - P.max
  dvd : 2 ^ P.st ∣ a

theorem start_zero (P : Params) : Start P 0 := ⟨by rw [Nat.zero_mod]; omega, Nat.dvd_zero _⟩

theorem dvd_size {P : Params} (hg : Good P) : 2 ^ P.st ∣ P.size := Nat.pow_dvd_pow 2 hg.st

theorem div_mod_size (P : Params) (a : Nat) : a / P.size * P.size + a % P.size = a := by
  rw [Nat.mul_comm]; exact Nat.div_add_mod a P.size

/-- the next packet starts behind the packet, at a good place -/
theorem nxt_spec {P : Params} (hg : Good P) (hm : P.max ≤ P.size) {a len : Nat} (ha : Start P a) (hl : len ≤ P.max) :
    Start P (nxt P a len) ∧ a + len ≤ nxt P a len := by
  have hs := size_pos P
  have hp : 0 < 2 ^ P.st := Nat.two_pow_pos _
  have hd := div_mod_size P a
  have hlt := Nat.mod_lt a hs
  unfold nxt
  split
  · rename_i h
    have hf := ha.fit
    refine ⟨⟨by rw [Nat.mul_mod_left]; omega, Nat.dvd_mul_left_of_dvd (dvd_size hg) _⟩, ?_⟩
    rw [Nat.add_mul, Nat.one_mul]; omega
  · rename_i h
    obtain ⟨u, hu⟩ := ha.dvd
    obtain ⟨v, hv⟩ := dvd_size hg
    obtain ⟨w, hw⟩ := hg.max
    obtain ⟨T, hT⟩ : ∃ T, T = 2 ^ P.st := ⟨_, rfl⟩
    rw [← hT] at hu hv hw hp ⊢
    have h1 := Nat.div_mul_le_self (a + len + (T - 1)) T
    have h2 := Nat.lt_div_mul_add (a := a + len + (T - 1)) hp
    obtain ⟨z, hz⟩ : ∃ z, z = (a + len + (T - 1)) / T := ⟨_, rfl⟩
    rw [← hz] at h1 h2 ⊢
    have hge : a + len ≤ z * T := by omega
    refine ⟨⟨?_, by rw [← hT]; exact Nat.dvd_mul_left _ _⟩, hge⟩
    -- everything is a multiple of the step, so rounding stays below the limit
    have hlim : z * T ≤ a / P.size * P.size + (P.size - P.max) := by
      have hx : a / P.size * P.size + (P.size - P.max) = (a / P.size * v + (v - w)) * T := by
        rw [Nat.add_mul, Nat.sub_mul, hv, hw, Nat.mul_comm v T, Nat.mul_comm w T]
        congr 1
        rw [Nat.mul_assoc, Nat.mul_comm v T]
      rw [hx]
      apply Nat.mul_le_mul_right
      have : a + len ≤ (a / P.size * v + (v - w)) * T := by rw [← hx]; omega
      rw [hz]
      have h3 : a + len + (T - 1) < ((a / P.size * v + (v - w)) + 1) * T := by rw [Nat.add_mul, Nat.one_mul]; omega
      have := (Nat.div_lt_iff_lt_mul hp).mpr h3
      omega
    have hlow : a / P.size * P.size ≤ z * T := by omega
    obtain ⟨e, he⟩ : ∃ e, z * T = a / P.size * P.size + e := ⟨z * T - a / P.size * P.size, by omega⟩
    rw [he]
    rcases Nat.lt_or_ge e P.size with hlt' | hge'
    · rw [Nat.mul_comm, Nat.mul_add_mod, Nat.mod_eq_of_lt hlt']; omega
    · have : e = P.size := by omega
      subst this
      rw [Nat.mul_comm, Nat.mul_add_mod, Nat.mod_self]; omega

/-- taking a packet while there is room does not overtake the read pointer by more than a lap -/
theorem nxt_le {P : Params} (hg : Good P) {r w len : Nat} (hr : Start P r) (hw : Start P w) (hroom : w + P.max ≤ r + P.size)
    (hl : len ≤ P.max) : nxt P w len ≤ r + P.size := by
  have hs := size_pos P
  unfold nxt
  split
  · rename_i hx
    rw [Nat.add_mul, Nat.one_mul]
    have hd := div_mod_size P w
    have hdr := div_mod_size P r
    rcases Nat.lt_or_ge r (w / P.size * P.size) with hc | hc
    · exfalso
      have hf := hr.fit
      have hq : r / P.size + 1 ≤ w / P.size := by
        have := (Nat.div_lt_iff_lt_mul hs).mpr hc
        omega
      have := Nat.mul_le_mul_right P.size hq
      rw [Nat.add_mul, Nat.one_mul] at this
      omega
    · omega
  · obtain ⟨u, hu⟩ := hr.dvd
    obtain ⟨x, hx⟩ := hw.dvd
    obtain ⟨v, hv⟩ := dvd_size hg
    obtain ⟨y, hy⟩ := hg.max
    have hp : 0 < 2 ^ P.st := Nat.two_pow_pos _
    obtain ⟨T, hT⟩ : ∃ T, T = 2 ^ P.st := ⟨_, rfl⟩
    rw [← hT] at hu hv hx hy hp ⊢
    have h1 : w + len + (T - 1) < (u + v + 1) * T := by
      rw [Nat.add_mul, Nat.add_mul, Nat.one_mul, Nat.mul_comm u, Nat.mul_comm v, ← hu, ← hv]; omega
    have h2 := (Nat.div_lt_iff_lt_mul hp).mpr h1
    have h3 : (w + len + (T - 1)) / T * T ≤ (u + v) * T := Nat.mul_le_mul_right _ (by omega)
    rw [Nat.add_mul, Nat.mul_comm u, Nat.mul_comm v, ← hu, ← hv] at h3
    exact h3

/-- addresses less than a lap apart are different in the RAM -/
theorem mod_ne {n r a b : Nat} (h1 : r ≤ a) (h2 : a < b) (h3 : b < r + n) : a % n ≠ b % n := by
  intro h
  have ha := Nat.div_add_mod a n
  have hb := Nat.div_add_mod b n
  rcases Nat.lt_or_ge (a / n) (b / n) with hc | hc
  · have := Nat.mul_le_mul_left n hc
    rw [Nat.succ_eq_add_one, Nat.mul_add, Nat.mul_one] at this
    omega
  · have := Nat.mul_le_mul_left n hc
    omega

/-! ### Places of reads -/

/-- the reads cover the addresses from `b` to `e` without gap or overlap -/
def Tiles : Nat → List Op → Nat → Prop
  | b, [], e => b = e
  | b, o :: os, e => o.addr = b ∧ Tiles (b + o.data.length) os e

theorem tiles_snoc {o : Op} (os : List Op) : ∀ {b e : Nat}, Tiles b os e → o.addr = e → Tiles b (os ++ [o]) (e + o.data.length) := by
  induction os with
  | nil => intro b e h ho; cases h; exact ⟨ho, rfl⟩
  | cons x os ih => intro b e h ho; exact ⟨h.1, ih h.2 ho⟩

theorem tiles_le (os : List Op) : ∀ {b e : Nat}, Tiles b os e → b ≤ e := by
  induction os with
  | nil => intro b e h; cases h; exact Nat.le_refl _
  | cons x os ih => intro b e h; have := ih h.2; omega

theorem tiles_len (os : List Op) : ∀ {b e : Nat}, Tiles b os e → (os.flatMap (·.data)).length = e - b := by
  induction os with
  | nil => intro b e h; cases h; simp
  | cons x os ih =>
    intro b e h
    have h1 := ih h.2
    have h2 := tiles_le os h.2
    rw [List.flatMap_cons, List.length_append, h1]; omega

/-- the reads lie at increasing places between `lo` and `hi` -/
def Placed (P : Params) : Nat → Nat → List Op → Prop
  | lo, hi, [] => lo ≤ hi
  | lo, hi, o :: os => ∃ a, lo ≤ a ∧ (0 < o.data.length → o.addr = a % P.size ∧ a % P.size + o.data.length ≤ P.size) ∧ Placed P (a + o.data.length) hi os

theorem placed_le {P : Params} (os : List Op) : ∀ {lo hi}, Placed P lo hi os → lo ≤ hi := by
  induction os with
  | nil => intro lo hi h; exact h
  | cons o os ih => rintro lo hi ⟨a, h1, _, h2⟩; have := ih h2; omega

theorem placed_mono {P : Params} (os : List Op) {lo lo' hi} (hl : lo' ≤ lo) (h : Placed P lo hi os) : Placed P lo' hi os := by
  cases os with
  | nil => exact Nat.le_trans hl h
  | cons o os => obtain ⟨a, h1, h2⟩ := h; exact ⟨a, Nat.le_trans hl h1, h2⟩

theorem placed_append {P : Params} (xs ys : List Op) : ∀ {lo mid hi}, Placed P lo mid xs → Placed P mid hi ys → Placed P lo hi (xs ++ ys) := by
  induction xs with
  | nil => intro lo mid hi h1 h2; exact placed_mono ys h1 h2
  | cons x xs ih => rintro lo mid hi ⟨a, h1, h2, h4⟩ h5; exact ⟨a, h1, h2, ih h4 h5⟩

theorem placed_of_tiles {P : Params} (os : List Op) : ∀ {a b e : Nat}, (b < e → b = a % P.size) → e ≤ P.size → Tiles b os e →
    Placed P a (a + (e - b)) os := by
  induction os with
  | nil => intro a b e h1 h2 h3; cases h3; show a ≤ a + _; omega
  | cons o os ih =>
    intro a b e h1 h2 h3
    have h4 := tiles_le os h3.2
    refine ⟨a, Nat.le_refl _, fun h => ?_, ?_⟩
    · have := h1 (by omega)
      exact ⟨by rw [h3.1, this], by rw [← this]; omega⟩
    · have := ih (a := a + o.data.length) (b := b + o.data.length) (e := e) ?_ h2 h3.2
      · rw [show a + o.data.length + (e - (b + o.data.length)) = a + (e - b) by omega] at this; exact this
      · intro h
        have hb := h1 (by omega)
        have hd := div_mod_size P a
        rw [← hd, ← hb, Nat.add_assoc, Nat.mul_comm, Nat.mul_add_mod, Nat.mod_eq_of_lt (by omega)]

theorem mod_lap (P : Params) (a : Nat) : a % (2 * P.size) % P.size = a % P.size := by
  rw [Nat.mul_comm]; exact Nat.mod_mul_right_mod a P.size 2

theorem off_mod (P : Params) (a : Nat) : P.off (a % (2 * P.size)) = a % P.size := by rw [off_eq]

/-- reads placed within one lap do not touch -/
theorem placed_apart {P : Params} (os : List Op) : ∀ {lo hi}, Placed P lo hi os → hi ≤ lo + P.size →
    (∀ o ∈ os, 0 < o.data.length → ∃ a, lo ≤ a ∧ a + o.data.length ≤ hi ∧ o.addr = a % P.size ∧ a % P.size + o.data.length ≤ P.size) ∧
    os.Pairwise Apart := by
  induction os with
  | nil => intro lo hi _ _; exact ⟨by simp, List.Pairwise.nil⟩
  | cons o os ih =>
    rintro lo hi ⟨a, h1, h2, h3⟩ h
    have h4 := placed_le os h3
    obtain ⟨i1, i2⟩ := ih h3 (by omega)
    constructor
    · intro o' ho' hl
      rcases List.mem_cons.mp ho' with rfl | ho'
      · exact ⟨a, h1, h4, h2 hl⟩
      · obtain ⟨b, j1, j2⟩ := i1 o' ho' hl
        exact ⟨b, by omega, j2⟩
    · refine List.Pairwise.cons (fun o' ho' x => ?_) i2
      rintro ⟨x1, x2, x3, x4⟩
      obtain ⟨b, j1, j2, j3, j4⟩ := i1 o' ho' (by omega)
      obtain ⟨k1, k2⟩ := h2 (by omega)
      have ea : (a + (x - o.addr)) % P.size = x := by
        have hd := div_mod_size P a
        rw [← hd, Nat.add_assoc, Nat.mul_comm, Nat.mul_add_mod, Nat.mod_eq_of_lt (by omega)]; omega
      have eb : (b + (x - o'.addr)) % P.size = x := by
        have hd := div_mod_size P b
        rw [← hd, Nat.add_assoc, Nat.mul_comm, Nat.mul_add_mod, Nat.mod_eq_of_lt (by omega)]; omega
      have := mod_ne (n := P.size) (r := lo) (a := a + (x - o.addr)) (b := b + (x - o'.addr)) (by omega) (by omega) (by omega)
      exact this (by rw [ea, eb])

theorem apart_symm {a b : Op} (h : Apart a b) : Apart b a := fun x ⟨h1, h2, h3, h4⟩ => h x ⟨h3, h4, h1, h2⟩

theorem pairwise_mem {l : List Op} (h : l.Pairwise Apart) {a b : Op} (ha : a ∈ l) (hb : b ∈ l) (hn : a ≠ b) : Apart a b := by
  induction h with
  | nil => cases ha
  | cons hx _ ih =>
    rcases List.mem_cons.mp ha with rfl | ha' <;> rcases List.mem_cons.mp hb with rfl | hb'
    · exact absurd rfl hn
    · exact hx _ hb'
    · exact apart_symm (hx _ ha')
    · exact ih ha' hb'

theorem fill_spec (ws : List (Nat × Nat)) (a : Nat) : ∀ f : Nat → Nat,
    (∃ w ∈ ws, w.1 = a ∧ fill f ws a = w.2) ∨ ((∀ w ∈ ws, w.1 ≠ a) ∧ fill f ws a = f a) := by
  induction ws with
  | nil => intro f; exact Or.inr ⟨by simp, rfl⟩
  | cons w ws ih =>
    intro f
    rcases ih (fun x => if x = w.1 then w.2 else f x) with ⟨v, h1, h2, h3⟩ | ⟨h1, h2⟩
    · exact Or.inl ⟨v, List.mem_cons_of_mem _ h1, h2, h3⟩
    · by_cases h : a = w.1
      · refine Or.inl ⟨w, List.mem_cons_self, h.symm, ?_⟩
        show fill _ ws a = _
        rw [h2, if_pos h]
      · refine Or.inr ⟨?_, ?_⟩
        · intro v hv
          rcases List.mem_cons.mp hv with rfl | hv
          · exact fun e => h e.symm
          · exact h1 v hv
        · show fill _ ws a = _
          rw [h2, if_neg h]

theorem mark_old (ws : List (Nat × Nat)) (a : Nat) : ∀ f : Nat → Bool, (∀ w ∈ ws, w.1 ≠ a) → mark f ws a = f a := by
  induction ws with
  | nil => intro f _; rfl
  | cons w ws ih =>
    intro f h
    show mark _ ws a = _
    rw [ih _ (fun v hv => h v (List.mem_cons_of_mem _ hv))]
    exact if_neg (fun e => h w List.mem_cons_self e.symm)

/-! ### Transmit -/
namespace Tx

/-- the packets follow each other from `r` to `w` -/
def Walk (P : Params) : Nat → List Pkt → Nat → Prop
  | r, [], w => r = w
  | r, p :: ps, w => (p.ptr = r % (2 * P.size) ∧ p.len ≤ P.max ∧ P.max ≤ P.size ∧ Start P r ∧
      Tiles (r % P.size) p.ops (r % P.size + p.len)) ∧ Walk P (nxt P r p.len) ps w

theorem walk_snoc {P : Params} {p : Pkt} (ps : List Pkt) : ∀ {r w : Nat}, Walk P r ps w →
    (p.ptr = w % (2 * P.size) ∧ p.len ≤ P.max ∧ P.max ≤ P.size ∧ Start P w ∧ Tiles (w % P.size) p.ops (w % P.size + p.len)) →
    Walk P r (ps ++ [p]) (nxt P w p.len) := by
  induction ps with
  | nil => intro r w h hp; cases h; exact ⟨hp, rfl⟩
  | cons q ps ih => intro r w h hp; exact ⟨h.1, ih h.2 hp⟩

theorem walk_placed {P : Params} (hg : Good P) (ps : List Pkt) : ∀ {r w : Nat}, Walk P r ps w → Placed P r w (ps.flatMap (·.ops)) := by
  induction ps with
  | nil => intro r w h; cases h; exact Nat.le_refl _
  | cons p ps ih =>
    rintro r w ⟨⟨h1, h2, h3, h4, h5⟩, h6⟩
    rw [List.flatMap_cons]
    have hf := h4.fit
    have hp := placed_of_tiles (a := r) p.ops (fun _ => rfl) (by omega) h5
    rw [Nat.add_sub_cancel_left] at hp
    exact placed_append _ _ hp (placed_mono _ (nxt_spec hg h3 h4 h2).2 (ih h6))

structure Inv (P : Params) (s : S) (w r : Nat) : Prop where
  wr : s.wr = w % (2 * P.size)
  rd : s.rd = r % (2 * P.size)
  sw : Start P w
  sr : Start P r
  le : w ≤ r + P.size
  walk : Walk P r s.pkts w
  len : s.len ≤ P.max
  cur : Tiles (w % P.size) s.cur (w % P.size + s.len)
  busy : s.cur ≠ [] → w + P.max ≤ r + P.size ∧ P.max ≤ P.size
  open_ : s.ready = true → s.ended = false → w + P.max ≤ r + P.size ∧ P.max ≤ P.size
  data : ∀ o ∈ s.flat, ∀ (j v : Nat), o.data[j]? = some v → s.full (o.addr + j) = true → s.ram (o.addr + j) = v

theorem inv_start (P : Params) : Inv P {} 0 0 where
  wr := (Nat.zero_mod _).symm
  rd := (Nat.zero_mod _).symm
  sw := start_zero P
  sr := start_zero P
  le := Nat.zero_le _
  walk := rfl
  len := Nat.zero_le _
  cur := rfl
  busy h := absurd rfl h
  open_ h := by cases h
  data o ho := by cases ho

theorem flat_placed {P : Params} (hg : Good P) {s : S} {w r : Nat} (h : Inv P s w r) :
    ∃ hi, Placed P r hi s.flat ∧ hi ≤ r + P.size := by
  have h1 := walk_placed hg _ h.walk
  by_cases hc : s.cur = []
  · refine ⟨w, ?_, h.le⟩
    unfold S.flat
    rw [hc, List.append_nil]; exact h1
  · obtain ⟨b1, b2⟩ := h.busy hc
    have hf := h.sw.fit
    have hl := h.len
    have hp := placed_of_tiles (a := w) s.cur (fun _ => rfl) (by omega) h.cur
    rw [Nat.add_sub_cancel_left] at hp
    exact ⟨w + s.len, placed_append _ _ h1 hp, by omega⟩

theorem flat_apart {P : Params} (hg : Good P) {s : S} {w r : Nat} (h : Inv P s w r) : s.flat.Pairwise Apart := by
  obtain ⟨hi, h1, h2⟩ := flat_placed hg h
  exact (placed_apart _ h1 h2).2

theorem flat_fit {P : Params} (hg : Good P) {s : S} {w r : Nat} (h : Inv P s w r) {o : Op} (ho : o ∈ s.flat) (hl : o.data ≠ []) :
    o.addr + o.data.length ≤ P.size := by
  obtain ⟨hi, h1, h2⟩ := flat_placed hg h
  obtain ⟨a, _, _, h3, h4⟩ := (placed_apart _ h1 h2).1 o ho (List.length_pos_iff.mpr hl)
  omega

/-- the bytes of the reads known before survive the cycle -/
theorem data_old {P : Params} (hg : Good P) {s : S} {w r : Nat} {i : In} (h : Inv P s w r) (hl : Legal P s i) {o : Op} (ho : o ∈ s.flat)
    {j v : Nat} (hj : o.data[j]? = some v) (hf : mark s.full i.pokes (o.addr + j) = true) : fill s.ram i.pokes (o.addr + j) = v := by
  rcases fill_spec i.pokes (o.addr + j) s.ram with ⟨x, h1, h2, h3⟩ | ⟨h1, h2⟩
  · rw [h3]
    obtain ⟨o', ho', j', k1, k2⟩ := hl.pokes x h1
    have hjl := (List.getElem?_eq_some_iff.mp hj).1
    have hjl' := (List.getElem?_eq_some_iff.mp k1).1
    have : o' = o := by
      apply Classical.byContradiction
      intro hn
      exact pairwise_mem (flat_apart hg h) ho' ho hn (o.addr + j) ⟨by omega, by omega, by omega, by omega⟩
    subst this
    have : j' = j := by omega
    subst this
    rw [hj] at k1
    exact (Option.some.inj k1).symm
  · rw [h2]
    rw [mark_old _ _ _ h1] at hf
    exact h.data o ho j v hj hf

/-- releasing the oldest packet -/
theorem pop {P : Params} (hg : Good P) {s : S} {w r : Nat} {i : In} (h : Inv P s w r) (hl : Legal P s i) :
    ∃ r', r ≤ r' ∧ (step P s i).rd = r' % (2 * P.size) ∧ Start P r' ∧ Walk P r' (if i.done then s.pkts.tail else s.pkts) w := by
  cases hd : i.done with
  | false => exact ⟨r, Nat.le_refl _, by show (match i.done, s.pkts with | true, p :: _ => _ | _, _ => _) = _; rw [hd]; exact h.rd, h.sr, h.walk⟩
  | true =>
    cases hp : s.pkts with
    | nil => exact absurd hp (hl.done hd)
    | cons p ps =>
      have hw := h.walk
      rw [hp] at hw
      obtain ⟨⟨h1, h2, h3, h4, h5⟩, h6⟩ := hw
      obtain ⟨k1, k2⟩ := nxt_spec hg h3 h4 h2
      refine ⟨nxt P r p.len, by omega, ?_, k1, h6⟩
      show (match i.done, s.pkts with | true, p :: _ => _ | _, _ => _) = _
      rw [hd, hp]
      show nextPtr P p.ptr p.len = _
      rw [h1, nextPtr_eq hg]

theorem walk_le {P : Params} (hg : Good P) {ps : List Pkt} {r w : Nat} (h : Walk P r ps w) : r ≤ w := placed_le _ (walk_placed hg ps h)

theorem room_gives {P : Params} (hg : Good P) {s : S} {w r : Nat} (h : Inv P s w r) (hr : room P s.wr s.rd = true) :
    w + P.max ≤ r + P.size ∧ P.max ≤ P.size := by
  have := walk_le hg h.walk
  have hle := h.le
  have hs := size_pos P
  rw [h.wr, h.rd, room_eq P this (by omega), decide_eq_true_eq] at hr
  omega

theorem step_inv {P : Params} (hg : Good P) {s : S} {w r : Nat} {i : In} (h : Inv P s w r) (hl : Legal P s i) :
    ∃ w' r', Inv P (step P s i) w' r' := by
  obtain ⟨r', hr, hrd, hsr, hwalk⟩ := pop hg h hl
  have hle := h.le
  cases ht : take s i with
  | none =>
    refine ⟨w, r', ?_⟩
    have epk : (step P s i).pkts = if i.done then s.pkts.tail else s.pkts := by
      show _ ++ (match take s i with | some (d, true) => _ | _ => _) = _
      rw [ht]; exact List.append_nil _
    have ecur : (step P s i).cur = s.cur := by show (match take s i with | some (_, true) => _ | some (d, false) => _ | none => _) = _; rw [ht]
    have elen : (step P s i).len = s.len := by show (match take s i with | some (_, true) => _ | some (d, false) => _ | none => _) = _; rw [ht]
    refine { wr := ?_, rd := hrd, sw := h.sw, sr := hsr, le := by omega, walk := by rw [epk]; exact hwalk, len := by rw [elen]; exact h.len, cur := ?_, busy := ?_, open_ := ?_, data := ?_ }
    · show (match take s i with | some (d, true) => _ | _ => _) = _; rw [ht]; exact h.wr
    · rw [ecur, elen]; exact h.cur
    · rw [ecur]; intro hc; have := h.busy hc; omega
    · intro h1 _
      have h1 : (i.early && room P s.wr s.rd) = true := h1
      rw [Bool.and_eq_true] at h1
      have := room_gives hg h h1.2
      omega
    · intro o ho j v hj hf
      have hf : (match take s i with | some (d, _) => _ | none => _ : Nat → Bool) (o.addr + j) = true := hf
      rw [ht] at hf
      refine data_old hg h hl ?_ hj hf
      unfold S.flat at ho ⊢
      rw [epk, ecur] at ho
      rcases List.mem_append.mp ho with ho | ho
      · refine List.mem_append_left _ ?_
        split at ho
        · obtain ⟨p, hp, ho⟩ := List.mem_flatMap.mp ho
          exact List.mem_flatMap.mpr ⟨p, List.mem_of_mem_tail hp, ho⟩
        · exact ho
      · exact List.mem_append_right _ ho
  | some bl =>
    obtain ⟨d, l⟩ := bl
    have hrb : s.ready = true ∧ i.beat = some (d, l) := by
      unfold take at ht
      split at ht
      · exact ⟨by assumption, ht⟩
      · cases ht
    obtain ⟨hrdy, hb⟩ := hrb
    have hend : s.ended = false := by
      cases he : s.ended with
      | false => rfl
      | true => rw [hl.gap he] at hb; cases hb
    obtain ⟨o1, o2⟩ := h.open_ hrdy hend
    have hlen := hl.beat d l hb
    have elen : lenNext P s d.length = s.len + d.length := by unfold lenNext; rw [if_neg (by omega)]
    have eop : (op P s d).addr = w % P.size + s.len := by show P.off s.wr + s.len = _; rw [h.wr, off_mod]
    have htile : Tiles (w % P.size) (s.cur ++ [op P s d]) (w % P.size + (s.len + d.length)) := by
      rw [← Nat.add_assoc]; exact tiles_snoc _ h.cur eop
    -- the bytes
    have hdata : (∀ o ∈ (step P s i).flat, o ∈ s.flat ∨ o = op P s d) →
        ∀ o ∈ (step P s i).flat, ∀ (j v : Nat), o.data[j]? = some v → (step P s i).full (o.addr + j) = true → (step P s i).ram (o.addr + j) = v := by
      intro hsub o ho j v hj hf
      have hf : (match take s i with | some (d, _) => _ | none => _ : Nat → Bool) (o.addr + j) = true := hf
      rw [ht] at hf
      have hf : (if P.off s.wr + s.len ≤ o.addr + j ∧ o.addr + j < P.off s.wr + s.len + d.length then false else mark s.full i.pokes (o.addr + j)) = true := hf
      split at hf
      · cases hf
      · rename_i hn
        rcases hsub o ho with ho | rfl
        · exact data_old hg h hl ho hj hf
        · have := (List.getElem?_eq_some_iff.mp hj).1
          exact absurd ⟨Nat.le_add_right _ _, Nat.add_lt_add_left this _⟩ hn
    have hold : ∀ o ∈ (if i.done then s.pkts.tail else s.pkts).flatMap (·.ops), o ∈ s.flat := by
      intro o ho
      refine List.mem_append_left _ ?_
      split at ho
      · obtain ⟨p, hp, ho⟩ := List.mem_flatMap.mp ho
        exact List.mem_flatMap.mpr ⟨p, List.mem_of_mem_tail hp, ho⟩
      · exact ho
    cases l with
    | false =>
      refine ⟨w, r', ?_⟩
      have epk : (step P s i).pkts = if i.done then s.pkts.tail else s.pkts := by
        show _ ++ (match take s i with | some (d, true) => _ | _ => _) = _
        rw [ht]; exact List.append_nil _
      have ecur : (step P s i).cur = s.cur ++ [op P s d] := by show (match take s i with | some (_, true) => _ | some (d, false) => _ | none => _) = _; rw [ht]
      have elen' : (step P s i).len = s.len + d.length := by
        show (match take s i with | some (_, true) => _ | some (d, false) => _ | none => _) = _; rw [ht]; exact elen
      refine { wr := ?_, rd := hrd, sw := h.sw, sr := hsr, le := by omega, walk := by rw [epk]; exact hwalk, len := by rw [elen']; exact hlen, cur := ?_, busy := ?_, open_ := ?_, data := hdata ?_ }
      · show (match take s i with | some (d, true) => _ | _ => _) = _; rw [ht]; exact h.wr
      · rw [ecur, elen']; exact htile
      · intro _; omega
      · intro _ _; omega
      · intro o ho
        unfold S.flat at ho
        rw [epk, ecur, ← List.append_assoc] at ho
        rcases List.mem_append.mp ho with ho | ho
        · rcases List.mem_append.mp ho with ho | ho
          · exact Or.inl (hold o ho)
          · exact Or.inl (List.mem_append_right _ ho)
        · exact Or.inr (List.mem_singleton.mp ho)
    | true =>
      refine ⟨nxt P w (s.len + d.length), r', ?_⟩
      have epk : (step P s i).pkts = (if i.done then s.pkts.tail else s.pkts) ++ [⟨s.wr, s.len + d.length, s.cur ++ [op P s d]⟩] := by
        show _ ++ (match take s i with | some (d, true) => _ | _ => _) = _
        rw [ht, ← elen]
      have ecur : (step P s i).cur = [] := by show (match take s i with | some (_, true) => _ | some (d, false) => _ | none => _) = _; rw [ht]
      have elen' : (step P s i).len = 0 := by
        show (match take s i with | some (_, true) => _ | some (d, false) => _ | none => _) = _; rw [ht]
      have hend' : (step P s i).ended = true := by show (match take s i with | some (_, true) => _ | _ => _) = _; rw [ht]
      obtain ⟨n1, n2⟩ := nxt_spec hg o2 h.sw hlen
      have n3 := nxt_le hg h.sr h.sw o1 hlen
      refine { wr := ?_, rd := hrd, sw := n1, sr := hsr, le := by omega, walk := ?_, len := by rw [elen']; exact Nat.zero_le _, cur := ?_, busy := ?_, open_ := ?_, data := hdata ?_ }
      · show (match take s i with | some (d, true) => _ | _ => _) = _
        rw [ht]
        show nextPtr P s.wr (lenNext P s d.length) = _
        rw [elen, h.wr, nextPtr_eq hg]
      · rw [epk]
        exact walk_snoc (p := ⟨s.wr, s.len + d.length, s.cur ++ [op P s d]⟩) _ hwalk ⟨h.wr, hlen, o2, h.sw, htile⟩
      · rw [ecur, elen']; rfl
      · intro hc; exact absurd ecur hc
      · intro _ he; rw [hend'] at he; cases he
      · intro o ho
        unfold S.flat at ho
        rw [epk, ecur, List.append_nil, List.flatMap_append] at ho
        rcases List.mem_append.mp ho with ho | ho
        · exact Or.inl (hold o ho)
        · have ho : o ∈ (s.cur ++ [op P s d]) ++ [] := ho
          rw [List.append_nil] at ho
          rcases List.mem_append.mp ho with ho | ho
          · exact Or.inl (List.mem_append_right _ ho)
          · exact Or.inr (List.mem_singleton.mp ho)

theorem run_inv {P : Params} (hg : Good P) (is : List In) : ∀ {s : S} {w r : Nat}, Inv P s w r → LegalRun P s is → ∃ w' r', Inv P (run P s is) w' r' := by
  induction is with
  | nil => intro s w r h _; exact ⟨w, r, h⟩
  | cons i is ih =>
    rintro s w r h ⟨h1, h2⟩
    obtain ⟨w', r', h'⟩ := step_inv hg h h1
    exact ih h' h2

theorem tiles_read (f : Nat → Nat) (os : List Op) : ∀ {b e : Nat}, Tiles b os e →
    (∀ o ∈ os, ∀ (j v : Nat), o.data[j]? = some v → f (o.addr + j) = v) → read f b (e - b) = os.flatMap (·.data) := by
  induction os with
  | nil => intro b e h _; cases h; rw [Nat.sub_self]; rfl
  | cons o os ih =>
    intro b e h hv
    have h1 := tiles_le os h.2
    have h2 := ih h.2 (fun o' ho' => hv o' (List.mem_cons_of_mem _ ho'))
    rw [List.flatMap_cons, ← h2]
    unfold read
    rw [show e - b = o.data.length + (e - (b + o.data.length)) by omega, List.range_add, List.map_append, List.map_map]
    congr 1
    · apply List.ext_getElem
      · simp
      · intro k k1 k2
        rw [List.getElem_map, List.getElem_range]
        have := hv o List.mem_cons_self k _ (List.getElem?_eq_getElem k2)
        rw [h.1] at this; exact this
    · apply List.map_congr_left
      intro k _
      show f (b + (o.data.length + k)) = _
      rw [Nat.add_assoc]

theorem walk_mem {P : Params} (ps : List Pkt) : ∀ {r w : Nat}, Walk P r ps w → ∀ p ∈ ps, ∃ a, p.ptr = a % (2 * P.size) ∧ p.len ≤ P.max ∧ Start P a ∧
    Tiles (a % P.size) p.ops (a % P.size + p.len) := by
  induction ps with
  | nil => intro r w _ p hp; cases hp
  | cons q ps ih =>
    intro r w h p hp
    rcases List.mem_cons.mp hp with rfl | hp
    · exact ⟨r, h.1.1, h.1.2.1, h.1.2.2.2.1, h.1.2.2.2.2⟩
    · exact ih h.2 p hp

/-- a packet whose bytes have all arrived is in the buffer -/
theorem contents {P : Params} {s : S} {w r : Nat} (h : Inv P s w r) {p : Pkt} (hp : p ∈ s.pkts)
    (hf : ∀ k, k < p.len → s.full (P.off p.ptr + k) = true) : read s.ram (P.off p.ptr) p.len = p.ops.flatMap (·.data) := by
  obtain ⟨a, h1, h2, h3, h4⟩ := walk_mem _ h.walk p hp
  rw [h1, off_mod] at hf ⊢
  have := tiles_read s.ram p.ops h4 (fun o ho j v hj => ?_)
  · rw [Nat.add_sub_cancel_left] at this; exact this
  · refine h.data o (List.mem_append_left _ (List.mem_flatMap.mpr ⟨p, hp, ho⟩)) j v hj ?_
    have hin : ∀ (os : List Op) (b e : Nat), Tiles b os e → ∀ o ∈ os, b ≤ o.addr ∧ o.addr + o.data.length ≤ e := by
      intro os
      induction os with
      | nil => intro b e _ o ho; cases ho
      | cons x os ih =>
        intro b e ht o ho
        have t1 := tiles_le os ht.2
        rcases List.mem_cons.mp ho with rfl | ho
        · have := ht.1; omega
        · have := ih _ _ ht.2 o ho; omega
    have hb := hin _ _ _ h4 o ho
    have hj' := (List.getElem?_eq_some_iff.mp hj).1
    have := hf (o.addr + j - a % P.size) (by omega)
    rw [show a % P.size + (o.addr + j - a % P.size) = o.addr + j by omega] at this
    exact this

end Tx

/-! ### Receive -/
namespace Rx

/-- the buffers follow each other from `r` to `w` -/
def Walk (P : Params) (m : Nat) : Nat → List (Nat × Nat) → Nat → Prop
  | r, [], w => r = w
  | r, b :: bs, w => (b = (r % (2 * P.size), m) ∧ Start P r ∧ P.max ≤ P.size) ∧ Walk P m (nxt P r m) bs w

theorem walk_snoc {P : Params} {m : Nat} (bs : List (Nat × Nat)) : ∀ {r w : Nat}, Walk P m r bs w → Start P w → P.max ≤ P.size →
    Walk P m r (bs ++ [(w % (2 * P.size), m)]) (nxt P w m) := by
  induction bs with
  | nil => intro r w h h1 h2; cases h; exact ⟨⟨rfl, h1, h2⟩, rfl⟩
  | cons q ps ih => intro r w h h1 h2; exact ⟨h.1, ih h.2 h1 h2⟩

/-- a buffer as a read of that many bytes -/
def asOp (P : Params) (b : Nat × Nat) : Op := ⟨P.off b.1, List.replicate b.2 0⟩

theorem walk_placed {P : Params} (hg : Good P) {m : Nat} (hm : m ≤ P.max) (bs : List (Nat × Nat)) : ∀ {r w : Nat}, Walk P m r bs w →
    Placed P r w (bs.map (asOp P)) := by
  induction bs with
  | nil => intro r w h; cases h; exact Nat.le_refl _
  | cons b bs ih =>
    rintro r w ⟨⟨rfl, h2, h3⟩, h4⟩
    have hf := h2.fit
    refine ⟨r, Nat.le_refl _, fun _ => ⟨off_mod P r, ?_⟩, ?_⟩
    · show r % P.size + (List.replicate m 0).length ≤ _
      rw [List.length_replicate]; omega
    · refine placed_mono _ ?_ (ih h4)
      show r + (List.replicate m 0).length ≤ _
      rw [List.length_replicate]; exact (nxt_spec hg h3 h2 hm).2

structure Inv (P : Params) (m : Nat) (s : S) (w r : Nat) : Prop where
  wr : s.wr = w % (2 * P.size)
  rd : s.rd = r % (2 * P.size)
  sw : Start P w
  sr : Start P r
  le : w ≤ r + P.size
  walk : Walk P m r s.bufs w
  open_ : s.ready = true → w + P.max ≤ r + P.size ∧ P.max ≤ P.size

theorem inv_start (P : Params) (m : Nat) : Inv P m {} 0 0 where
  wr := (Nat.zero_mod _).symm
  rd := (Nat.zero_mod _).symm
  sw := start_zero P
  sr := start_zero P
  le := Nat.zero_le _
  walk := rfl
  open_ h := by cases h

theorem step_inv {P : Params} (hg : Good P) {m : Nat} (hm : m ≤ P.max) {s : S} {w r : Nat} {i : In} (h : Inv P m s w r) (hl : Legal m s i) :
    ∃ w' r', Inv P m (step P s i) w' r' := by
  have hpop : ∃ r', r ≤ r' ∧ (step P s i).rd = r' % (2 * P.size) ∧ Start P r' ∧ Walk P m r' (if i.done then s.bufs.tail else s.bufs) w := by
    cases hd : i.done with
    | false => exact ⟨r, Nat.le_refl _, by show (match i.done, s.bufs with | true, p :: _ => _ | _, _ => _) = _; rw [hd]; exact h.rd, h.sr, h.walk⟩
    | true =>
      cases hp : s.bufs with
      | nil => exact absurd hp (hl.done hd)
      | cons p ps =>
        have hw := h.walk
        rw [hp] at hw
        obtain ⟨⟨h1, h2, h3⟩, h6⟩ := hw
        obtain ⟨k1, k2⟩ := nxt_spec hg h3 h2 hm
        refine ⟨nxt P r m, by omega, ?_, k1, h6⟩
        show (match i.done, s.bufs with | true, p :: _ => _ | _, _ => _) = _
        rw [hd, hp]
        show nextPtr P p.1 i.mtu = _
        rw [h1, hl.mtu, nextPtr_eq hg]
  obtain ⟨r', hr, hrd, hsr, hwalk⟩ := hpop
  have hle := h.le
  cases ht : s.ready && i.req with
  | false =>
    refine ⟨w, r', ?_⟩
    refine { wr := ?_, rd := hrd, sw := h.sw, sr := hsr, le := by omega, walk := ?_, open_ := ?_ }
    · show (if s.ready && i.req then _ else _) = _; rw [ht]; exact h.wr
    · show Walk P m r' (_ ++ (if s.ready && i.req then _ else _)) w
      rw [ht]; simpa using hwalk
    · intro h1
      have h1 : (if s.ready && i.req then false else i.early && room P s.wr s.rd) = true := h1
      rw [ht] at h1
      have h1 : (i.early && room P s.wr s.rd) = true := h1
      rw [Bool.and_eq_true, h.wr, h.rd] at h1
      have hp := placed_le _ (walk_placed hg hm _ h.walk)
      have hs := size_pos P
      rw [room_eq P hp (by omega), decide_eq_true_eq] at h1
      omega
  | true =>
    have hrdy : s.ready = true := by cases hx : s.ready with | true => rfl | false => rw [hx] at ht; cases ht
    obtain ⟨o1, o2⟩ := h.open_ hrdy
    obtain ⟨n1, n2⟩ := nxt_spec hg o2 h.sw hm
    have n3 := nxt_le hg h.sr h.sw o1 hm
    refine ⟨nxt P w m, r', ?_⟩
    refine { wr := ?_, rd := hrd, sw := n1, sr := hsr, le := by omega, walk := ?_, open_ := ?_ }
    · show (if s.ready && i.req then nextPtr P s.wr i.mtu else _) = _
      rw [ht, h.wr, hl.mtu]; exact nextPtr_eq hg w m
    · show Walk P m r' (_ ++ (if s.ready && i.req then [(s.wr, i.mtu)] else _)) _
      rw [ht, h.wr, hl.mtu]
      exact walk_snoc _ hwalk h.sw o2
    · intro h1
      have h1 : (if s.ready && i.req then false else i.early && room P s.wr s.rd) = true := h1
      rw [ht] at h1; cases h1

theorem run_inv {P : Params} (hg : Good P) {m : Nat} (hm : m ≤ P.max) (is : List In) : ∀ {s : S} {w r : Nat}, Inv P m s w r →
    LegalRun P m s is → ∃ w' r', Inv P m (run P s is) w' r' := by
  induction is with
  | nil => intro s w r h _; exact ⟨w, r, h⟩
  | cons i is ih =>
    rintro s w r h ⟨h1, h2⟩
    obtain ⟨w', r', h'⟩ := step_inv hg hm h h1
    exact ih h' h2

theorem bufs_apart {P : Params} (hg : Good P) {m : Nat} (hm : m ≤ P.max) {s : S} {w r : Nat} (h : Inv P m s w r) :
    (s.bufs.map (asOp P)).Pairwise Apart ∧ ∀ b ∈ s.bufs, b.2 = m ∧ P.off b.1 + m ≤ P.size := by
  refine ⟨(placed_apart _ (walk_placed hg hm _ h.walk) h.le).2, ?_⟩
  have : ∀ (bs : List (Nat × Nat)) (r w : Nat), Walk P m r bs w → ∀ b ∈ bs, b.2 = m ∧ P.off b.1 + m ≤ P.size := by
    intro bs
    induction bs with
    | nil => intro r w _ b hb; cases hb
    | cons x bs ih =>
      rintro r w ⟨⟨rfl, h2, h3⟩, h4⟩ b hb
      rcases List.mem_cons.mp hb with rfl | hb
      · have := h2.fit
        exact ⟨rfl, by rw [off_mod]; omega⟩
      · exact ih _ _ h4 b hb
  exact this _ _ _ h.walk

end Rx

end Corundum.BufRing
