import Verif.Model.RxCsum
import Verif.Proof.Checksum
/-!
Adder tree and accumulator of rx_checksum.v compute a ones' complement sum.
-/
namespace Corundum.RxCsum

/-- big-endian weight of a byte by its offset -/
def wt (o : Nat) : Nat := if o % 2 = 0 then 256 else 1
/-- weighted sum of bytes `0 .. n-1` -/
def W (g : Nat → Nat) (n : Nat) : Nat := ((List.range n).map (fun o => wt o * g o)).sum

theorem W_zero (g : Nat → Nat) : W g 0 = 0 := rfl
theorem W_succ (g : Nat → Nat) (n : Nat) : W g (n + 1) = W g n + wt n * g n := by
  unfold W; rw [List.range_succ, List.map_append, List.sum_append]; simp

theorem wt_add (a o : Nat) (h : a % 2 = 0) : wt (a + o) = wt o := by unfold wt; rw [show (a + o) % 2 = o % 2 by omega]

theorem W_add (g : Nat → Nat) (a n : Nat) (h : a % 2 = 0) : W g (a + n) = W g a + W (fun o => g (a + o)) n := by
  induction n with
  | zero => rfl
  | succ n ih => rw [← Nat.add_assoc, W_succ, ih, W_succ, wt_add a n h, Nat.add_assoc]

theorem W_congr {g g' : Nat → Nat} {n : Nat} (h : ∀ o < n, g o = g' o) : W g n = W g' n := by
  unfold W
  rw [List.map_congr_left]
  intro o ho
  rw [h o (List.mem_range.mp ho)]

theorem W_null {g : Nat → Nat} {n : Nat} (h : ∀ o < n, g o = 0) : W g n = 0 := by
  induction n with
  | zero => rfl
  | succ n ih => rw [W_succ, ih (fun o ho => h o (by omega)), h n (by omega)]; simp

/-- the weighted sum of a byte string is the sum of its words -/
theorem words_W : ∀ (l : List Nat), (Spec.words l).sum = W (fun o => l.getD o 0) l.length
  | [] => rfl
  | [a] => by simp [Spec.words, W_succ, W_zero, wt, Nat.mul_comm]
  | a :: b :: l => by
    rw [Spec.words, List.sum_cons, words_W l, List.length_cons, List.length_cons, show l.length + 1 + 1 = 2 + l.length by omega, W_add _ 2 _ rfl]
    congr 1
    · simp [W_succ, W_zero, wt, Nat.mul_comm]
    · apply W_congr; intro o _; rw [show 2 + o = o + 1 + 1 by omega]; simp

theorem level0_sum (n : Nat) (g : Nat → Nat) (hg : ∀ j, g j < 256) :
    ((List.range n).map (fun i => ((g (4 * i) * 256 + g (4 * i + 1)) + (g (4 * i + 2) * 256 + g (4 * i + 3))) % 2 ^ 17)).sum = W g (4 * n) := by
  induction n with
  | zero => rfl
  | succ n ih =>
    rw [List.range_succ, List.map_append, List.sum_append, ih, show 4 * (n + 1) = 4 * n + 4 by omega, W_add _ _ _ (by omega)]
    congr 1
    have h0 := hg (4 * n); have h1 := hg (4 * n + 1); have h2 := hg (4 * n + 2); have h3 := hg (4 * n + 3)
    simp only [List.map_cons, List.map_nil, List.sum_cons, List.sum_nil, W_succ, W_zero]
    simp [wt]
    omega

theorem pairUp_spec (w : Nat) : ∀ (cnt : Nat) (xs : List Nat), xs.length = 2 * cnt → (∀ x ∈ xs, x < 2 ^ w) →
    (pairUp (w + 1) cnt xs).length = cnt ∧ (∀ x ∈ pairUp (w + 1) cnt xs, x < 2 ^ (w + 1)) ∧ (pairUp (w + 1) cnt xs).sum = xs.sum := by
  intro cnt
  induction cnt with
  | zero =>
    intro xs hl _
    have : xs = [] := List.eq_nil_of_length_eq_zero (by omega)
    subst this; simp [pairUp]
  | succ cnt ih =>
    intro xs hl hx
    match xs, hl, hx with
    | x :: y :: r, hl, hx =>
      have hr : r.length = 2 * cnt := by simp at hl; omega
      obtain ⟨a, b, c⟩ := ih r hr (fun z hz => hx z (by simp [hz]))
      have hxx := hx x (by simp)
      have hy := hx y (by simp)
      have e : pairUp (w + 1) (cnt + 1) (x :: y :: r) = (x + y) :: pairUp (w + 1) cnt r := by
        unfold pairUp
        rw [List.range_succ_eq_map, List.map_cons, List.map_map]
        congr 1
        · simp only [Nat.mul_zero, Nat.zero_add, List.getD_cons_zero, List.getD_cons_succ]
          rw [Nat.mod_eq_of_lt]; rw [Nat.pow_succ]; omega
      rw [e]
      refine ⟨by simp [a], ?_, by simp [c]; omega⟩
      intro z hz
      rcases List.mem_cons.mp hz with h | h
      · rw [h, Nat.pow_succ]; omega
      · exact b z h
    | [_], hl, _ => simp at hl; omega
    | [], hl, _ => simp at hl

/-- a stage holds partial sums of an item -/
def Rel (c : Cfg) (l : Nat) (x : List Nat × Bool) (y : Nat × Bool) : Prop :=
  x.1.length = 2 ^ (c.d - l) ∧ (∀ z ∈ x.1, z < 2 ^ (17 + l)) ∧ x.1.sum = y.1 ∧ x.2 = y.2

def RelO (c : Cfg) (l : Nat) : Option (List Nat × Bool) → Option (Nat × Bool) → Prop
  | none, none => True
  | some x, some y => Rel c l x y
  | _, _ => False

theorem K4 (c : Cfg) : c.K / 4 = 2 ^ c.d := by unfold Cfg.K; omega

theorem rel0 (c : Cfg) (g : Nat → Nat) (hg : ∀ j, g j < 256) (last : Bool) : Rel c 0 (level0 c g, last) (W g c.K, last) := by
  refine ⟨by simp [level0, K4], ?_, ?_, rfl⟩
  · intro z hz
    unfold level0 at hz
    obtain ⟨i, _, e⟩ := List.mem_map.mp hz
    rw [← e]; exact Nat.mod_lt _ (by decide)
  · unfold level0; rw [level0_sum _ _ hg, K4]; rfl

theorem relN (c : Cfg) (l : Nat) (hl : l + 1 ≤ c.d) (x : List Nat × Bool) (y : Nat × Bool) (h : Rel c l x y) :
    Rel c (l + 1) (levelN c (l + 1) x.1, x.2) y := by
  obtain ⟨h1, h2, h3, h4⟩ := h
  have e : c.K / 4 / 2 ^ (l + 1) = 2 ^ (c.d - (l + 1)) := by rw [K4, Nat.pow_div hl (by omega)]
  have e2 : x.1.length = 2 * 2 ^ (c.d - (l + 1)) := by
    rw [h1, show c.d - l = (c.d - (l + 1)) + 1 by omega, Nat.pow_succ]; omega
  obtain ⟨a, b, d⟩ := pairUp_spec (17 + l) _ x.1 e2 h2
  refine ⟨?_, ?_, ?_, h4⟩
  · unfold levelN; rw [e]; exact a
  · unfold levelN; rw [e]; exact b
  · unfold levelN; rw [e]; exact d.trans h3

theorem W_lt {c : Cfg} {x : List Nat × Bool} {y : Nat × Bool} (h : Rel c c.d x y) : x.1.getD 0 0 = y.1 ∧ y.1 < 2 ^ (17 + c.d) := by
  obtain ⟨h1, h2, h3, _⟩ := h
  rw [Nat.sub_self] at h1
  match hx : x.1, h1 with
  | [z], _ =>
    rw [hx] at h3 h2
    simp at h3
    subst h3
    exact ⟨rfl, h2 _ (by simp)⟩

/-- consumption of a sequence of items by the accumulator -/
def accRun (c : Cfg) : Nat → List (Option (Nat × Bool)) → List Nat
  | _, [] => []
  | a, none :: r => accRun c a r
  | a, some (v, last) :: r =>
    if last then accumulate c a [v] % 2 ^ 16 :: accRun c 0 r else accRun c (accumulate c a [v] % 2 ^ 16) r

/-- items entering the tree -/
def items (c : Cfg) : Mask → List (Option Beat) → List (Option (Nat × Bool))
  | _, [] => []
  | m, none :: r => none :: items c m r
  | m, some b :: r => some (W (masked m b) c.K, b.last) :: items c (m.step c b) r

def byteBeat (b : Beat) : Prop := ∀ j, b.lane j < 256

theorem masked_lt {m : Mask} {b : Beat} (h : byteBeat b) (j : Nat) : masked m b j < 256 := by
  unfold masked; split
  · exact h j
  · omega

theorem accumulate_one (c : Cfg) (a : Nat) (xs : List Nat) (v : Nat) (h : xs.getD 0 0 = v) : accumulate c a xs = accumulate c a [v] := by
  unfold accumulate; rw [h]; rfl

def accOut (c : Cfg) (a : Nat) : Option (Nat × Bool) → List Nat → List Nat
  | none, r => r
  | some (v, last), r => if last then accumulate c a [v] % 2 ^ 16 :: r else r

def accNext (c : Cfg) (a : Nat) : Option (Nat × Bool) → Nat
  | none => a
  | some (v, last) => if last then 0 else accumulate c a [v] % 2 ^ 16

/-- the tree is a delay line for the word sums -/
theorem outs_items (c : Cfg) : ∀ (cs : List (Option Beat)) (s : St) (line : List (Option (Nat × Bool))), (∀ b, some b ∈ cs → byteBeat b) →
    line.length = c.d + 1 → (∀ l ≤ c.d, RelO c l (s.pipe l) (line.getD (c.d - l) none)) →
    outs c s cs = accRun c s.acc ((line ++ items c s.m cs).take cs.length) := by
  intro cs
  induction cs with
  | nil => intro s line _ _ _; simp [outs, accRun]
  | cons i is ih =>
    intro s line hb hl hr
    match line, hl with
    | h :: tl, hl =>
      have htl : tl.length = c.d := by simpa using hl
      have r0 := hr c.d (Nat.le_refl _)
      rw [Nat.sub_self, List.getD_cons_zero] at r0
      -- new line
      have step : ∀ it, (∀ (x : Option (Nat × Bool)), it = x → RelO c 0 ((s.step c i).pipe 0) x) →
          ∀ l ≤ c.d, RelO c l ((s.step c i).pipe l) ((tl ++ [it]).getD (c.d - l) none) := by
        intro it hit l hld
        cases l with
        | zero => rw [Nat.sub_zero, List.getD_eq_getElem?_getD, List.getElem?_append_right (by omega), htl, Nat.sub_self]; exact hit _ rfl
        | succ l =>
          have := hr l (by omega)
          rw [show c.d - l = (c.d - (l + 1)) + 1 by omega, List.getD_cons_succ] at this
          rw [List.getD_eq_getElem?_getD, List.getElem?_append_left (by omega), ← List.getD_eq_getElem?_getD]
          have ep : (s.step c i).pipe (l + 1) = (s.pipe l).map (fun x => (levelN c (l + 1) x.1, x.2)) := rfl
          rw [ep]
          revert this
          cases s.pipe l <;> cases tl.getD (c.d - (l + 1)) none <;> intro this
          · trivial
          · exact this
          · exact this
          · exact relN c l hld _ _ this
      have hacc : outs c s (i :: is) = accOut c s.acc h (outs c (s.step c i) is) ∧ (s.step c i).acc = accNext c s.acc h := by
        rw [outs]
        have e1 : (s.step c i).valid = (s.stepAcc c).2.2 := rfl
        have e2 : (s.step c i).csum = (s.stepAcc c).2.1 := rfl
        have e3 : (s.step c i).acc = (s.stepAcc c).1 := rfl
        rw [e1, e2, e3]
        unfold St.stepAcc
        rw [show c.levels - 2 = c.d from rfl]
        revert r0
        cases hp : s.pipe c.d with
        | none =>
          intro r0
          cases h with
          | none => exact ⟨rfl, rfl⟩
          | some y => exact r0.elim
        | some x =>
          intro r0
          cases h with
          | none => exact r0.elim
          | some y =>
            obtain ⟨xs, last⟩ := x
            obtain ⟨v, last'⟩ := y
            have hw := W_lt r0
            have hlast : last = last' := r0.2.2.2
            subst hlast
            simp only
            rw [accumulate_one c s.acc xs v hw.1]
            cases last <;> exact ⟨rfl, rfl⟩
      have hbi : ∀ b, some b ∈ is → byteBeat b := fun b hb' => hb b (List.mem_cons_of_mem _ hb')
      cases i with
      | none =>
        have := ih (s.step c none) (tl ++ [none]) hbi (by simp [htl]) (step none (by intro x e; subst e; trivial))
        have em : (s.step c none).m = s.m := rfl
        rw [em] at this
        rw [hacc.1, this, hacc.2, items, List.length_cons, List.cons_append, List.take_succ_cons, List.append_assoc]
        rcases h with _ | ⟨v, _ | _⟩ <;> rfl
      | some b =>
        have hbb := hb b List.mem_cons_self
        have := ih (s.step c (some b)) (tl ++ [some (W (masked s.m b) c.K, b.last)]) hbi (by simp [htl])
          (step _ (by intro x e; subst e; exact rel0 c _ (masked_lt hbb) b.last))
        have em : (s.step c (some b)).m = s.m.step c b := rfl
        rw [em] at this
        rw [hacc.1, this, hacc.2, items, List.length_cons, List.cons_append, List.take_succ_cons, List.append_assoc]
        rcases h with _ | ⟨v, _ | _⟩ <;> rfl

theorem items_length (c : Cfg) : ∀ (cs : List (Option Beat)) (m : Mask), (items c m cs).length = cs.length
  | [], _ => rfl
  | none :: r, m => by simp [items, items_length c r]
  | some b :: r, m => by simp [items, items_length c r]

theorem accRun_nones (c : Cfg) (a n : Nat) (r : List (Option (Nat × Bool))) : accRun c a (List.replicate n none ++ r) = accRun c a r := by
  induction n with
  | zero => rfl
  | succ n ih => rw [List.replicate_succ, List.cons_append, accRun, ih]

theorem items_append (c : Cfg) : ∀ (cs : List (Option Beat)) (m : Mask) (n : Nat), ∃ r, items c m (cs ++ List.replicate n none) = items c m cs ++ r
  | [], m, n => ⟨_, rfl⟩
  | none :: cs, m, n => by obtain ⟨r, e⟩ := items_append c cs m n; exact ⟨r, by simp [items, e]⟩
  | some b :: cs, m, n => by obtain ⟨r, e⟩ := items_append c cs (m.step c b) n; exact ⟨r, by simp [items, e]⟩

/-- after flushing the tree, the outputs are those of the accumulator on the word sums -/
theorem outs_flush (c : Cfg) (s : St) (hp : ∀ l, s.pipe l = none) (cs : List (Option Beat)) (hb : ∀ b, some b ∈ cs → byteBeat b) :
    outs c s (cs ++ List.replicate (c.d + 1) none) = accRun c s.acc (items c s.m cs) := by
  rw [outs_items c _ s (List.replicate (c.d + 1) none)]
  · obtain ⟨r, e⟩ := items_append c cs s.m (c.d + 1)
    rw [e, ← List.append_assoc, List.take_append_of_le_length]
    · rw [List.take_of_length_le, accRun_nones]
      simp [items_length]; omega
    · simp [items_length]; omega
  · intro b h
    rcases List.mem_append.mp h with h | h
    · exact hb b h
    · have := (List.mem_replicate.mp h).2; cases this
  · simp
  · intro l hl
    rw [hp, List.getD_eq_getElem?_getD, List.getElem?_replicate]
    split <;> trivial

/-- same, words only -/
def beatRun (c : Cfg) : Mask → Nat → List Beat → List Nat
  | _, _, [] => []
  | m, a, b :: r =>
    if b.last then accumulate c a [W (masked m b) c.K] % 2 ^ 16 :: beatRun c (m.step c b) 0 r
    else beatRun c (m.step c b) (accumulate c a [W (masked m b) c.K] % 2 ^ 16) r

theorem accRun_beats (c : Cfg) : ∀ (cs : List (Option Beat)) (m : Mask) (a : Nat), accRun c a (items c m cs) = beatRun c m a (cs.filterMap id)
  | [], _, _ => rfl
  | none :: cs, m, a => by rw [items, accRun, accRun_beats c cs]; rfl
  | some b :: cs, m, a => by
    rw [items, accRun, accRun_beats c cs, accRun_beats c cs]; rfl

/-- `a` is the ones' complement sum of words adding up to `S` -/
def Oc (a S : Nat) : Prop := a < 65536 ∧ a % 65535 = S % 65535 ∧ (a = 0 ↔ S = 0)

theorem Oc.unique {a a' S : Nat} (h : Oc a S) (h' : Oc a' S) : a = a' := by
  obtain ⟨h1, h2, h3⟩ := h
  obtain ⟨h1', h2', h3'⟩ := h'
  by_cases e : S = 0
  · rw [h3.mpr e, h3'.mpr e]
  · have := mt h3.mp e
    have := mt h3'.mp e
    omega

theorem accumulate_oc (c : Cfg) (hd : c.d ≤ 14) {a S v : Nat} (h : Oc a S) (hv : v < 2 ^ (17 + c.d)) : Oc (accumulate c a [v] % 2 ^ 16) (S + v) := by
  obtain ⟨h1, h2, h3⟩ := h
  have e18 : 2 ^ (18 + c.d) = 2 * 2 ^ (17 + c.d) := by rw [show 18 + c.d = 17 + c.d + 1 by omega, Nat.pow_succ]; omega
  have lo : 2 ^ 17 ≤ 2 ^ (17 + c.d) := Nat.pow_le_pow_right (by omega) (by omega)
  have hi : 2 ^ (17 + c.d) ≤ 2 ^ 31 := Nat.pow_le_pow_right (by omega) (by omega)
  unfold accumulate
  rw [show 16 + c.levels - 1 = 17 + c.d by unfold Cfg.levels; omega, show 16 + c.levels = 18 + c.d by unfold Cfg.levels; omega]
  simp only [List.getD_cons_zero]
  rw [Nat.mod_eq_of_lt hv]
  generalize hP : 2 ^ (17 + c.d) = P at *
  rw [e18]
  have t0 : (v + a) % (2 * P) = v + a := Nat.mod_eq_of_lt (by omega)
  rw [t0, Nat.shiftRight_eq_div_pow]
  have t1 : ((v + a) % 2 ^ 16 + (v + a) / 2 ^ 16) % (2 * P) = (v + a) % 2 ^ 16 + (v + a) / 2 ^ 16 := Nat.mod_eq_of_lt (by omega)
  rw [t1]
  generalize hx : (v + a) % 2 ^ 16 + (v + a) / 2 ^ 16 = x
  have tb : (x.testBit 16).toNat = x / 2 ^ 16 % 2 := by
    rw [Nat.testBit_eq_decide_div_mod_eq]
    by_cases hh : x / 2 ^ 16 % 2 = 1
    · simp [hh]
    · have : x / 2 ^ 16 % 2 = 0 := by omega
      simp [this]
  rw [tb]
  have t2 : (x % 2 ^ 16 + x / 2 ^ 16 % 2) % (2 * P) = x % 2 ^ 16 + x / 2 ^ 16 % 2 := Nat.mod_eq_of_lt (by omega)
  rw [t2]
  have hq : (v + a) / 2 ^ 16 ≤ 32768 := by omega
  have hxl : x < 98304 := by omega
  have hz : (x % 2 ^ 16 + x / 2 ^ 16 % 2) % 2 ^ 16 = if x < 65536 then x else x - 65535 := by
    split <;> omega
  rw [hz]
  have hx5 : x % 65535 = (v + a) % 65535 := by omega
  have hs : (S + v) % 65535 = (v + a) % 65535 := by omega
  have h0 : x = 0 ↔ v + a = 0 := by omega
  have h0' : v + a = 0 ↔ S + v = 0 := by omega
  clear t0 t1 t2 tb hz hx h2 h3 hv
  unfold Oc
  split
  · exact ⟨by omega, by omega, h0.trans h0'⟩
  · refine ⟨by omega, by omega, ?_⟩
    rw [← h0', ← h0]; omega

theorem W_bound (c : Cfg) (g : Nat → Nat) (hg : ∀ j, g j < 256) : W g c.K < 2 ^ (17 + c.d) := by
  have h : ∀ n, W g (4 * n) ≤ n * 131070 := by
    intro n
    induction n with
    | zero => simp [W_zero]
    | succ n ih =>
      rw [show 4 * (n + 1) = 4 * n + 4 by omega, W_add _ _ _ (by omega)]
      have h0 := hg (4 * n); have h1 := hg (4 * n + 1); have h2 := hg (4 * n + 2); have h3 := hg (4 * n + 3)
      simp only [W_succ, W_zero]
      simp [wt]
      omega
  have := h (2 ^ c.d)
  rw [show c.K = 4 * 2 ^ c.d from rfl, Nat.pow_add]
  have p := Nat.two_pow_pos c.d
  omega

end Corundum.RxCsum
