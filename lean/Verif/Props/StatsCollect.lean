import Verif.Proof.StatsCollect

/-!
C69: the statistics collector (stats_collect.v) loses no increment and invents none, and reports every increment in time.
-/
namespace Corundum.StatsCollect

/-- the initial state, whatever the memory holds -/
def start (P : Params) (mem : Nat → Nat) : Sys := ⟨init P mem, {}⟩

theorem start_cons (P : Params) (mem : Nat → Nat) (j : Nat) :
    reported (start P mem) j + (part (start P mem).s j + (start P mem).s.acc j) = (start P mem).g.total j := rfl

/-- **C69 (nothing invented).**  At no time has more been reported for a counter than its increments add up to, whatever the memory held before. -/
theorem C69_never_more (P : Params) (hn : 0 < P.n) (mem : Nat → Nat) (is : List In) (hf : ∀ i ∈ is, Fits P i) (j : Nat) (hj : j < P.n)
    (hc : Calm P j (start P mem) is) : reported (run P (start P mem) is) j ≤ (run P (start P mem) is).g.total j := by
  have := cons_exact is (start P mem) (inv_init P hn mem) hf j hj hc (start_cons P mem j)
  omega

/-- **C69 (update).**  When an update is asked for and the receiver takes what is offered, all increments that came before have been reported
`2 * COUNT + 1` cycles later. -/
theorem C69_update (P : Params) (hn : 0 < P.n) (mem : Nat → Nat) (is : List In) (u : In) (js : List In) (hf : ∀ i ∈ is ++ u :: js, Fits P i)
    (hu : u.update = true) (hr : u.ready = true ∧ ∀ i ∈ js, i.ready = true) (hl : 2 * P.n ≤ js.length) (j : Nat) (hj : j < P.n)
    (hc : Calm P j (start P mem) (is ++ u :: js)) :
    (run P (start P mem) is).g.total j ≤ reported (run P (start P mem) (is ++ u :: js)) j := by
  have e : is ++ u :: js = (is ++ [u]) ++ js := by simp
  rw [e] at hf hc ⊢
  rw [run_append]
  have h1 : ∀ i ∈ is ++ [u], Fits P i := fun i hi => hf i (List.mem_append_left _ hi)
  have hi := inv_run (is ++ [u]) (start P mem) (inv_init P hn mem) h1
  have hx := cons_exact (is ++ [u]) (start P mem) (inv_init P hn mem) h1 j hj (calm_left _ hc) (start_cons P mem j)
  have hmid : run P (start P mem) (is ++ [u]) = step P (run P (start P mem) is) u := by rw [run_append]; rfl
  have hd : (run P (start P mem) (is ++ [u])).s.due j = true := by
    rw [hmid]
    show (if u.update || _ then fun _ => true else _) j = true
    rw [hu]; rfl
  have hv : (run P (start P mem) (is ++ [u])).s.wr = true → (run P (start P mem) (is ++ [u])).s.valid = false := by
    rw [hmid]; exact free_next hr.1
  have ha := (age_le hi.cnt hj).1
  have := reports js _ hi (fun i hi => hf i (List.mem_append_right _ hi)) hr.2 j hj hd hv (calm_append _ hc) hx (by omega)
  refine Nat.le_trans ?_ this
  rw [run_append]
  exact total_mono [u] j _

/-- **C69 (in time).**  While the receiver takes what is offered, every increment has been reported `UPDATE_PERIOD + 2 * COUNT` cycles after it came. -/
theorem C69_in_time (P : Params) (hn : 0 < P.n) (hp : 0 < P.period) (mem : Nat → Nat) (is js : List In) (hf : ∀ i ∈ is ++ js, Fits P i)
    (hr : ∀ i ∈ js, i.ready = true) (hl : P.period + 2 * P.n ≤ js.length) (j : Nat) (hj : j < P.n) (hc : Calm P j (start P mem) (is ++ js)) :
    (run P (start P mem) is).g.total j ≤ reported (run P (start P mem) (is ++ js)) j := by
  have hi0 := inv_run is (start P mem) (inv_init P hn mem) fun i hi => hf i (List.mem_append_left _ hi)
  have ht : (run P (start P mem) is).s.timer + 1 ≤ P.period := by
    have h1 := hi0.timer
    have h2 := Nat.mod_le (P.period - 1) (2 ^ P.pw)
    omega
  obtain ⟨t, hte⟩ : ∃ t, t = (run P (start P mem) is).s.timer + 1 := ⟨_, rfl⟩
  obtain ⟨a, ⟨i0, ha0⟩, b, hab, hal⟩ : ∃ a : List In, (∃ i0, i0 ∈ js ∧ ∃ a', a = a' ++ [i0]) ∧ ∃ b : List In, js = a ++ b ∧ a.length = t := by
    have hlt : t - 1 < js.length := by omega
    refine ⟨js.take t, ⟨js[t - 1], List.getElem_mem hlt, js.take (t - 1), ?_⟩, js.drop t, (List.take_append_drop t js).symm, by rw [List.length_take]; omega⟩
    have h2 := List.take_succ_eq_append_getElem hlt
    rw [Nat.sub_add_cancel (by omega)] at h2
    exact h2
  obtain ⟨hi0m, a', ha'⟩ := ha0
  rw [hab] at hf hc hl ⊢
  rw [← List.append_assoc] at hf hc ⊢
  rw [run_append P _ (is ++ a) b]
  have h1 : ∀ i ∈ is ++ a, Fits P i := fun i hi => hf i (List.mem_append_left _ hi)
  have hi := inv_run (is ++ a) (start P mem) (inv_init P hn mem) h1
  have hx := cons_exact (is ++ a) (start P mem) (inv_init P hn mem) h1 j hj (calm_left _ hc) (start_cons P mem j)
  have hd : (run P (start P mem) (is ++ a)).s.due j = true := by
    rw [run_append]; exact timer_due a _ (by omega) j
  have hv : (run P (start P mem) (is ++ a)).s.wr = true → (run P (start P mem) (is ++ a)).s.valid = false := by
    rw [ha', ← List.append_assoc, run_append P _ (is ++ a') [i0]]
    exact free_next (hr i0 hi0m)
  have hg := (age_le hi.cnt hj).1
  rw [List.length_append] at hl
  have := reports b _ hi (fun i hi => hf i (List.mem_append_right _ hi)) (fun i hi => hr i (by rw [hab]; exact List.mem_append_right _ hi)) j hj hd hv (calm_append _ hc) hx (by omega)
  refine Nat.le_trans ?_ this
  rw [run_append]
  exact total_mono a j _

/-- C69: the accumulators never overflow, whatever the increments. -/
theorem C69_accumulators (P : Params) (hn : 0 < P.n) (mem : Nat → Nat) (is : List In) (hf : ∀ i ∈ is, Fits P i) (i : In) (hi : Fits P i) (j : Nat) (hj : j < P.n) :
    let s := (run P (start P mem) is).s
    (next P s i).acc j = (if s.wr && j == s.count then 0 else s.acc j) + (i.inc j).getD 0 :=
  (acc_next (inv_run is (start P mem) (inv_init P hn mem) hf) hi hj).1

/-- C69: without any bound on the rates, what is reported and what is still kept agrees with the increments modulo `2 ^ STAT_INC_WIDTH`. -/
theorem C69_modulo (P : Params) (hn : 0 < P.n) (mem : Nat → Nat) (is : List In) (hf : ∀ i ∈ is, Fits P i) (j : Nat) (hj : j < P.n) :
    let x := run P (start P mem) is
    (reported x j + (if x.s.zero j then 0 else x.s.mem j) + x.s.acc j) % 2 ^ P.sw = x.g.total j % 2 ^ P.sw := by
  have := cons_mod is (start P mem) (inv_init P hn mem) hf j hj (by rw [start_cons])
  rw [← Nat.add_assoc] at this
  exact this

/-- two counters of two-bit increments, reports of four bits -/
def exP : Params := ⟨2, 2, 4, 8⟩

def exInc (a b : Nat) : Nat → Option Nat := fun j => if j = 0 then some a else if j = 1 then some b else none

def exRun : List In := [{ inc := exInc 3 1 }, { inc := exInc 3 0 }, { inc := exInc 2 2, update := true, ready := true }] ++ List.replicate 4 { ready := true }

/-- memory contents at power up do not matter -/
def exMem : Nat → Nat := fun _ => 9

/-- The hypotheses of `C69_update` hold for this run, and both counters are reported. -/
example : (∀ i ∈ exRun, ∀ j, j < 2 → ∀ x, i.inc j = some x → x < 2 ^ exP.iw) ∧ (run exP (start exP exMem) exRun).g.total 0 = 8 ∧
    (run exP (start exP exMem) exRun).g.total 1 = 3 ∧
    reported (run exP (start exP exMem) exRun) 0 = 8 ∧ reported (run exP (start exP exMem) exRun) 1 = 3 := by
  refine ⟨by decide, by decide, by decide, by decide, by decide⟩

instance (P : Params) (j : Nat) : (is : List In) → (x : Sys) → Decidable (Calm P j x is)
  | [], x => inferInstanceAs (Decidable (x.g.total j < reported x j + 2 ^ P.sw))
  | i :: is, x => by
    have := instDecidableCalm P j is (step P x i)
    exact inferInstanceAs (Decidable (x.g.total j < reported x j + 2 ^ P.sw ∧ Calm P j (step P x i) is))

example : Calm exP 0 (start exP exMem) exRun ∧ Calm exP 1 (start exP exMem) exRun := by decide

/-- ten cycles of increments of three with a receiver that does not take anything -/
def exSlow : List In := List.replicate 10 { inc := exInc 3 0, update := true } ++ List.replicate 20 { ready := true }

set_option maxRecDepth 10000 in
/-- **C69 (overflow).**  When the receiver is slow, the sum of a counter runs over and increments are lost: here thirty are counted and fourteen reported. -/
theorem C69_overflow : (run exP (start exP exMem) exSlow).g.total 0 = 30 ∧ reported (run exP (start exP exMem) exSlow) 0 = 14 ∧
    (∀ i ∈ exSlow, ∀ j, j < 2 → ∀ x, i.inc j = some x → x < 2 ^ exP.iw) ∧
    (part (run exP (start exP exMem) exSlow).s 0 + (run exP (start exP exMem) exSlow).s.acc 0 = 0) := by
  refine ⟨by decide, by decide, by decide, by decide⟩

end Corundum.StatsCollect
