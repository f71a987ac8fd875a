import Verif.Model.LedSreg
/-!
C162: the board comes to show the LEDs as they are.
-/
namespace Corundum.LedSreg
variable {n : Nat}

/-- what the board should show: bit `k` sent is LED `k`, or LED `n - 1 - k`, inverted or not -/
def pattern (rev inv : Bool) (v : BitVec n) : List Bool :=
  (List.range n).map fun k => (if rev then v.getLsbD (n - 1 - k) else v.getLsbD k) ^^ inv

/-- the first `c` bits sent -/
def sent (rev inv : Bool) (v : BitVec n) (c : Nat) : List Bool := (List.range c).map fun k => bit rev v k ^^ inv

/-- bits of the pass under way that have been clocked -/
def clocked (s : St n) : Nat := s.count - (if s.cycle then 1 else 0)

structure Inv (rev inv : Bool) (s : St n) (e : Ext) : Prop where
  le : s.count ≤ n
  cyc : s.cycle = true → s.clk = false ∧ 0 < s.count
  ld : s.ld = true → s.count = 0
  done : s.update = false → s.count = 0 → e.shown = pattern rev inv s.led
  part : s.update = false → 0 < s.count → ∃ pre, e.chain = pre ++ sent rev inv s.led (clocked s)
  data : s.update = false → s.cycle = true → s.d = bit rev s.led (s.count - 1)

theorem lastN_append (l m : List Bool) (h : m.length = n) : lastN n (l ++ m) = m := by
  unfold lastN
  rw [List.length_append, h, show l.length + n - n = l.length by omega]
  simp

theorem inv_tick (hn : 0 < n) (rev inv : Bool) (s : St n) (e : Ext) (h : Inv rev inv s e) :
    Inv rev inv (tick rev s) (ext n inv e s (tick rev s)) := by
  obtain ⟨h1, h2, h3, h4, h5, h6⟩ := h
  unfold tick
  by_cases hc : s.cycle = true
  · rw [if_pos hc]
    obtain ⟨k1, k2⟩ := h2 hc
    refine ⟨h1, (fun h => by cases h), h3, fun _ h0 => absurd h0 (by dsimp only; omega), fun hu _ => ?_, (fun _ h => by cases h)⟩
    obtain ⟨pre, hp⟩ := h5 hu k2
    refine ⟨pre, ?_⟩
    have e1 : clocked s = s.count - 1 := by simp [clocked, hc]
    simp only [ext, k1, clocked]
    simp only [Bool.not_false, Bool.true_and, if_true, Bool.false_eq_true, if_false, Nat.sub_zero]
    rw [hp, e1, h6 hu hc, List.append_assoc]
    congr 1
    conv => rhs; rw [show s.count = s.count - 1 + 1 by omega]
    simp only [sent, List.range_succ, List.map_append, List.map_cons, List.map_nil]
  · have hcf : s.cycle = false := by simpa using hc
    rw [if_neg hc]
    by_cases h0 : s.count ≠ 0
    · rw [if_pos h0]
      have hl : s.ld = false := by
        cases hl : s.ld
        · rfl
        · exact absurd (h3 hl) h0
      by_cases hlt : s.count < n
      · rw [if_pos hlt]
        refine ⟨by dsimp only; omega, fun _ => ⟨rfl, by dsimp only; omega⟩, (fun h => by cases h), fun _ h => absurd h (by dsimp only; omega),
          fun hu _ => ?_, fun _ _ => rfl⟩
        obtain ⟨pre, hp⟩ := h5 hu (by omega)
        refine ⟨pre, ?_⟩
        simp only [ext, clocked, Bool.and_false, if_true, Bool.false_eq_true, if_false, Nat.add_sub_cancel]
        rw [hp]
        simp [clocked, hcf]
      · rw [if_neg hlt]
        have hce : s.count = n := by omega
        refine ⟨by dsimp only; omega, (fun h => by cases h), fun _ => rfl, fun hu _ => ?_, fun _ h => absurd h (by simp), (fun _ h => by cases h)⟩
        obtain ⟨pre, hp⟩ := h5 hu (by omega)
        have e1 : clocked s = n := by simp [clocked, hcf, hce]
        simp only [ext, hl, Bool.and_false, Bool.not_false, Bool.and_true, if_true, Bool.false_eq_true, if_false]
        rw [hp, e1, lastN_append _ _ (by simp [sent])]
        rfl
    · rw [if_neg h0]
      have h0' : s.count = 0 := by omega
      by_cases hu : s.update = true
      · rw [if_pos hu]
        refine ⟨by dsimp only; omega, fun _ => ⟨rfl, by dsimp only; omega⟩, (fun h => by cases h), fun _ h => absurd h (by simp),
          fun _ _ => ⟨e.chain, ?_⟩, fun _ _ => rfl⟩
        simp [ext, clocked, sent]
      · rw [if_neg hu]
        refine ⟨h1, fun h => absurd h hc, (fun h => by cases h), fun hu' _ => ?_, fun _ h => absurd h (by dsimp only; omega), fun _ h => absurd h hc⟩
        simp only [ext, Bool.and_false, Bool.false_eq_true, if_false]
        exact h4 hu' h0'

theorem ext_same (inv : Bool) (e : Ext) (s : St n) : ext n inv e s s = e := by
  unfold ext
  cases s.clk <;> cases s.ld <;> simp

theorem inv_step (hn : 0 < n) (rev inv : Bool) (s : St n) (e : Ext) (i : In n) (h : Inv rev inv s e) :
    Inv rev inv (step rev s i) (ext n inv e s (step rev s i)) := by
  have ht : Inv rev inv (if i.en then tick rev s else s) (ext n inv e s (if i.en then tick rev s else s)) := by
    split
    · exact inv_tick hn rev inv s e h
    · rw [ext_same]; exact h
  unfold step
  dsimp only
  generalize (if i.en then tick rev s else s) = t at ht
  split
  · exact ⟨ht.le, ht.cyc, ht.ld, (fun h => by cases h), (fun h => by cases h), (fun h => by cases h)⟩
  · exact ht

theorem inv_run (hn : 0 < n) (rev inv : Bool) : ∀ (is : List (In n)) (x : St n × Ext), Inv rev inv x.1 x.2 →
    Inv rev inv (run rev inv x is).1 (run rev inv x is).2
  | [], _, h => h
  | i :: is, x, h => inv_run hn rev inv is _ (inv_step hn rev inv x.1 x.2 i h)

/-- cycles with `en` to the end of the pass under way and of the next one, if one is needed -/
def rank (s : St n) : Nat :=
  (if s.count = 0 then 0 else 2 * (n - s.count) + 1 + (if s.cycle then 1 else 0)) + (if s.update then 2 * n + 1 else 0)

theorem rank_tick (hn : 0 < n) (rev inv : Bool) (s : St n) (e : Ext) (h : Inv rev inv s e) :
    rank (tick rev s) ≤ rank s - 1 ∧ (tick rev s).led = s.led := by
  have h1 := h.le
  have h2 := h.cyc
  unfold tick rank
  by_cases hc : s.cycle = true
  · have := (h2 hc).2
    rw [if_pos hc]
    refine ⟨?_, rfl⟩
    dsimp only
    have hz : ¬ s.count = 0 := by omega
    simp only [hz, hc, Bool.false_eq_true, if_false, if_true]
    omega
  · rw [if_neg hc]
    by_cases h0 : s.count ≠ 0
    · rw [if_pos h0]
      by_cases hlt : s.count < n
      · rw [if_pos hlt]
        refine ⟨?_, rfl⟩
        dsimp only
        rw [if_neg (by omega), if_neg h0, if_neg hc]
        simp only [if_true]
        omega
      · rw [if_neg hlt]
        refine ⟨?_, rfl⟩
        dsimp only
        rw [if_neg h0, if_neg hc]
        simp only [if_true]
        omega
    · rw [if_neg h0]
      have h0' : s.count = 0 := by omega
      by_cases hu : s.update = true
      · rw [if_pos hu]
        refine ⟨?_, rfl⟩
        simp only [hu, h0', if_true]
        simp only [Nat.one_ne_zero, Bool.false_eq_true, if_false]
        omega
      · rw [if_neg hu]
        refine ⟨?_, rfl⟩
        simp [h0', hu]

theorem rank_run (hn : 0 < n) (rev inv : Bool) (v : BitVec n) : ∀ (js : List (In n)) (x : St n × Ext), Inv rev inv x.1 x.2 → x.1.led = v →
    (∀ j ∈ js, j.leds = v) → (run rev inv x js).1.led = v ∧ rank (run rev inv x js).1 ≤ rank x.1 - (js.filter (·.en)).length
  | [], x, _, hv, _ => ⟨hv, by simp [run]⟩
  | j :: js, x, h, hv, ha => by
    have hj := ha j (List.mem_cons_self ..)
    have e : step rev x.1 j = if j.en then tick rev x.1 else x.1 := by simp [step, hj, hv]
    have k := rank_tick hn rev inv x.1 x.2 h
    have ih := rank_run hn rev inv v js (step rev x.1 j, ext n inv x.2 x.1 (step rev x.1 j)) (inv_step hn rev inv x.1 x.2 j h) (by
      dsimp only; rw [e]; split
      · rw [k.2, hv]
      · exact hv) (fun i hi => ha i (List.mem_cons_of_mem _ hi))
    refine ⟨ih.1, Nat.le_trans ih.2 ?_⟩
    dsimp only
    rw [e]
    cases he : j.en
    · simp [he]
    · simp only [if_true, List.filter_cons, he, List.length_cons]
      omega

theorem rank_le (rev inv : Bool) (s : St n) (e : Ext) (h : Inv rev inv s e) : rank s ≤ 4 * n + 1 := by
  have := h.le
  have h2 := h.cyc
  unfold rank
  by_cases h0 : s.count = 0
  · simp only [h0, if_true]; split <;> omega
  · simp only [h0, if_false]
    split <;> split <;> omega

theorem init_inv (rev inv : Bool) (e : Ext) : Inv rev inv (St.init n) e :=
  ⟨by simp [St.init], (fun h => by cases h), (fun h => by cases h), (fun h => by cases h), (fun h => by cases h), (fun h => by cases h)⟩

/-- C162. Whatever came before and whatever the board showed, once the LEDs have kept their values for `4 n + 1` cycles with `en`, after one cycle,
the board shows them. -/
theorem C162_shown (hn : 0 < n) (rev inv : Bool) (e : Ext) (is : List (In n)) (j : In n) (js : List (In n)) (v : BitVec n)
    (hj : ∀ i ∈ j :: js, i.leds = v) (hl : 4 * n + 1 ≤ (js.filter (·.en)).length) :
    (run rev inv (St.init n, e) (is ++ j :: js)).2.shown = pattern rev inv v := by
  have h0 := inv_run hn rev inv is (St.init n, e) (init_inv rev inv e)
  have e1 : run rev inv (St.init n, e) (is ++ j :: js) = run rev inv (run rev inv (St.init n, e) (is ++ [j])) js := by
    simp [run]
  have e2 : run rev inv (St.init n, e) (is ++ [j]) = (step rev (run rev inv (St.init n, e) is).1 j,
      ext n inv (run rev inv (St.init n, e) is).2 (run rev inv (St.init n, e) is).1 (step rev (run rev inv (St.init n, e) is).1 j)) := by
    simp [run]
  rw [e1]
  have h1 : Inv rev inv (run rev inv (St.init n, e) (is ++ [j])).1 (run rev inv (St.init n, e) (is ++ [j])).2 := by
    rw [e2]; exact inv_step hn rev inv _ _ j h0
  have hv : (run rev inv (St.init n, e) (is ++ [j])).1.led = v := by
    rw [e2]
    have hjv := hj j (List.mem_cons_self ..)
    generalize (run rev inv (St.init n, e) is) = x at h0
    have k := (rank_tick hn rev inv x.1 x.2 h0).2
    simp only [step, hjv]
    split
    · rfl
    · rename_i hq
      have hq' : v = x.1.led := Decidable.not_not.mp hq
      split
      · rw [k, hq']
      · exact hq'.symm
  have hr := rank_run hn rev inv v js _ h1 hv (fun i hi => hj i (List.mem_cons_of_mem _ hi))
  have hle := rank_le rev inv _ _ h1
  have hi := inv_run hn rev inv js _ h1
  generalize run rev inv (run rev inv (St.init n, e) (is ++ [j])) js = y at *
  have hz : rank y.1 = 0 := by omega
  have hu : y.1.update = false ∧ y.1.count = 0 := by
    unfold rank at hz
    constructor
    · cases hq : y.1.update
      · rfl
      · rw [hq] at hz; simp at hz
    · by_cases hq : y.1.count = 0
      · exact hq
      · rw [if_neg hq] at hz; omega
  rw [hi.done hu.1 hu.2, hr.1]

/-- C162. Whenever no pass is under way and none is to come, the board shows the LEDs of the last cycle. -/
theorem C162_settled (hn : 0 < n) (rev inv : Bool) (e : Ext) (is : List (In n)) (j : In n)
    (hu : (run rev inv (St.init n, e) (is ++ [j])).1.update = false) (hc : (run rev inv (St.init n, e) (is ++ [j])).1.count = 0) :
    (run rev inv (St.init n, e) (is ++ [j])).2.shown = pattern rev inv j.leds := by
  have h := inv_run hn rev inv (is ++ [j]) (St.init n, e) (init_inv rev inv e)
  have h0 := inv_run hn rev inv is (St.init n, e) (init_inv rev inv e)
  have e2 : (run rev inv (St.init n, e) (is ++ [j])).1 = step rev (run rev inv (St.init n, e) is).1 j := by simp [run]
  have hv : (run rev inv (St.init n, e) (is ++ [j])).1.led = j.leds := by
    rw [e2]
    have k := (rank_tick hn rev inv _ _ h0).2
    simp only [step]
    split
    · rfl
    · rename_i hq
      have hq' := Decidable.not_not.mp hq
      split
      · rw [k, hq']
      · exact hq'.symm
  rw [h.done hu hc, hv]

/-- a case: three LEDs that change during the first pass -/
example : (run false false (St.init 3, ⟨[], []⟩) (List.replicate 4 ⟨true, 0b101⟩ ++ List.replicate 14 (⟨true, 0b110⟩ : In 3))).2.shown =
    [false, true, true] := by decide

end Corundum.LedSreg
