import Verif.Proof.RamDemuxWr
/-!
Demultiplexers of the DMA RAM interface: properties C85 (commands), C86 (read responses), C87 (write done signals).
-/
namespace Corundum.RamDemux

variable {β γ : Type}

/-! ### commands -/

/-- A select made for a port leads to that port, and the RAM there sees its own part of it. -/
theorem C85_select (c : Cfg) (h : c.Ok) (port low : Nat) (hp : port < c.ports) (hl : low < 2 ^ c.sw) (x : Cmd β) (hx : x.sel = encode c port low) : target c x = (port, ⟨low, x.val⟩) := by
  unfold target
  rw [hx, encode_port h hp hl, encode_low h hl]

/-- Read commands: every one taken reaches the RAM of its port once, in order; at most two are under way. -/
theorem C85_read_commands (c : Cfg) (hc : c.Ok) (s0 : Rd β γ) (h0 : Rd.Fresh s0) (ins : Nat → RdIn β γ) (hf : ∀ n, Fits c (ins n).cmd) (n : Nat) :
    ∃ rest, (Rd.cmds c s0 ins n).map (target c) = Rd.issued c s0 ins n ++ rest ∧ rest.length ≤ 2 := by
  obtain ⟨lo, lr, I⟩ := Rd.inv hc h0 hf n
  refine ⟨_, I.cmd.symm, ?_⟩
  cases (Rd.st c s0 ins n).out.m <;> cases (Rd.st c s0 ins n).out.temp <;> simp

/-- Write commands: the same. -/
theorem C85_write_commands (c : Cfg) (hc : c.Ok) (s0 : Wr β) (h0 : Wr.Fresh s0) (ins : Nat → WrIn β) (hf : ∀ n, Fits c (ins n).cmd) (n : Nat) :
    ∃ rest, (Wr.cmds c s0 ins n).map (target c) = Wr.issued c s0 ins n ++ rest ∧ rest.length ≤ 2 := by
  obtain ⟨a, lo, I⟩ := Wr.inv hc h0 hf n
  refine ⟨_, I.cmd.symm, ?_⟩
  cases (Wr.st c s0 ins n).out.m <;> cases (Wr.st c s0 ins n).out.temp <;> simp

/-- A read command offered to a RAM stays there unchanged until it is taken. -/
theorem C85_read_stable (c : Cfg) (s0 : Rd β γ) (ins : Nat → RdIn β γ) (n : Nat) (x : Nat × Cmd β) (h : (Rd.st c s0 ins n).out.m = some x) (hr : (ins n).cready x.1 = false) :
    (Rd.st c s0 ins (n + 1)).out.m = some x := stable h hr

/-- A write command offered to a RAM stays there unchanged until it is taken. -/
theorem C85_write_stable (c : Cfg) (s0 : Wr β) (ins : Nat → WrIn β) (n : Nat) (x : Nat × Cmd β) (h : (Wr.st c s0 ins n).out.m = some x) (hr : (ins n).cready x.1 = false) :
    (Wr.st c s0 ins (n + 1)).out.m = some x := stable h hr

/-! ### read responses -/

/-- Responses come in the order of the commands, each with the data of the RAM of its command: if the RAM at port `p` gives `ans p 0`, `ans p 1`, ..., then the responses given are those that belong to
the commands taken, from the first on. -/
theorem C86_responses_in_order (c : Cfg) (hc : c.Ok) (s0 : Rd β γ) (h0 : Rd.Fresh s0) (ins : Nat → RdIn β γ) (hf : ∀ n, Fits c (ins n).cmd) (ans : Nat → Nat → γ)
    (ha : ∀ n p x, p < c.ports → (ins n).resp p = some x → x = ans p (times p ((Rd.used c s0 ins n).map Prod.fst))) (n : Nat) :
    Rd.given c s0 ins n <+: expect ans ((Rd.cmds c s0 ins n).map fun x => portOf c x.sel) := by
  obtain ⟨lo, lr, I⟩ := Rd.inv hc h0 hf n
  rw [← I.ports]
  refine List.IsPrefix.trans ?_ (expect_prefix ans _ _)
  rw [← Rd.used_expect hc h0 hf ans ha n, I.data]
  exact List.prefix_append _ _

/-- Every response taken from a RAM is given once, in order (the output FIFO never overflows); at most 2^OUTPUT_FIFO_ADDR_WIDTH + 1 are under way. -/
theorem C86_none_lost (c : Cfg) (hc : c.Ok) (s0 : Rd β γ) (h0 : Rd.Fresh s0) (ins : Nat → RdIn β γ) (hf : ∀ n, Fits c (ins n).cmd) (n : Nat) :
    ∃ rest, (Rd.used c s0 ins n).map Prod.snd = Rd.given c s0 ins n ++ rest ∧ rest.length ≤ 2 ^ c.ow + 1 := by
  obtain ⟨lo, lr, I⟩ := Rd.inv hc h0 hf n
  refine ⟨_, I.data, ?_⟩
  have := I.resp.le
  cases (Rd.st c s0 ins n).oreg <;> simp <;> omega

/-- No response is taken from a RAM that owes none: those taken belong, one by one, to the commands taken. -/
theorem C86_taken_for_commands (c : Cfg) (hc : c.Ok) (s0 : Rd β γ) (h0 : Rd.Fresh s0) (ins : Nat → RdIn β γ) (hf : ∀ n, Fits c (ins n).cmd) (n : Nat) :
    (Rd.used c s0 ins n).map Prod.fst <+: (Rd.cmds c s0 ins n).map fun x => portOf c x.sel := by
  obtain ⟨lo, lr, I⟩ := Rd.inv hc h0 hf n
  exact ⟨lo, I.ports⟩

/-- Progress: if from cycle `n` on the RAMs have the next response ready whenever one of the commands taken before is not answered, and responses are accepted, then all these commands are answered within six cycles for each
that was not, and one more, whatever commands follow. -/
theorem C86_progress (c : Cfg) (hc : c.Ok) (s0 : Rd β γ) (h0 : Rd.Fresh s0) (ins : Nat → RdIn β γ) (hf : ∀ n, Fits c (ins n).cmd) (n : Nat)
    (hr : ∀ k, n ≤ k → (ins k).rready = true)
    (ha : ∀ k x, n ≤ k → (Rd.used c s0 ins k).length < (Rd.cmds c s0 ins n).length → (Rd.cmds c s0 ins k)[(Rd.used c s0 ins k).length]? = some x → ((ins k).resp (portOf c x.sel)).isSome = true) :
    (Rd.cmds c s0 ins n).length ≤ (Rd.given c s0 ins (n + 6 * ((Rd.cmds c s0 ins n).length - (Rd.given c s0 ins n).length) + 1)).length := by
  obtain ⟨N, hN⟩ : ∃ N, N = (Rd.cmds c s0 ins n).length := ⟨_, rfl⟩
  rw [← hN] at ha ⊢
  have mono : ∀ k, N ≤ (Rd.cmds c s0 ins (n + k)).length := by
    intro k
    induction k with
    | zero => rw [hN]; exact Nat.le_refl _
    | succ k ih => show _ ≤ (Rd.cmds c s0 ins (n + k) ++ _).length; rw [List.length_append]; omega
  have gmono : ∀ k j, (Rd.given c s0 ins k).length ≤ (Rd.given c s0 ins (k + j)).length := by
    intro k j
    induction j with
    | zero => exact Nat.le_refl _
    | succ j ih => show _ ≤ (Rd.given c s0 ins (k + j) ++ _).length; rw [List.length_append]; omega
  obtain ⟨μ, hμ⟩ : ∃ μ : Nat → Nat, ∀ k, μ k = Rd.meas N (Rd.used c s0 ins k).length (Rd.given c s0 ins k).length (Rd.st c s0 ins k).oreg.toList.length (Rd.st c s0 ins k).half.toNat := ⟨_, fun _ => rfl⟩
  have main : ∀ j, N ≤ (Rd.given c s0 ins (n + j)).length ∨ μ (n + j) + j ≤ μ n := by
    intro j
    induction j with
    | zero => exact Or.inr (Nat.le_refl _)
    | succ j ih =>
      rcases ih with h | h
      · exact Or.inl (Nat.le_trans h (gmono (n + j) 1))
      · by_cases hg : (Rd.given c s0 ins (n + j)).length < N
        · rcases Rd.progress hc h0 hf (n + j) N (mono j) (hr _ (by omega)) (fun x => ha (n + j) x (by omega)) hg with h' | h'
          · exact Or.inl h'
          · rw [← hμ, ← hμ] at h'
            right
            show μ (n + j + 1) + (j + 1) ≤ μ n
            omega
        · exact Or.inl (Nat.le_trans (by omega) (gmono (n + j) 1))
  have hb : μ n ≤ 6 * (N - (Rd.given c s0 ins n).length) + 1 := by
    rw [hμ]
    obtain ⟨lo, lr, I⟩ := Rd.inv hc h0 hf n
    have h1 := congrArg List.length I.data
    simp only [List.length_append, List.length_map] at h1
    have h2 : (Rd.st c s0 ins n).half.toNat ≤ 1 := by cases (Rd.st c s0 ins n).half <;> simp
    unfold Rd.meas
    omega
  rcases main (6 * (N - (Rd.given c s0 ins n).length) + 1) with h | h
  · exact h
  · have h0 : μ (n + (6 * (N - (Rd.given c s0 ins n).length) + 1)) = 0 := by omega
    rw [Nat.add_assoc]
    rw [hμ] at h0
    unfold Rd.meas at h0
    omega

/-! ### write done signals -/

/-- A done signal is given only when the writes up to that one are done: if it was given `d` times, each RAM has signalled done at least as often as there are commands for it among the first `d`. -/
theorem C87_done_in_order (c : Cfg) (hc : c.Ok) (s0 : Wr β) (h0 : Wr.Fresh s0) (ins : Nat → WrIn β) (hf : ∀ n, Fits c (ins n).cmd) (n p : Nat) :
    times p (((Wr.cmds c s0 ins n).map fun x => portOf c x.sel).take (Wr.ctrlDone c s0 ins n)) ≤ Wr.ramDone ins p n ∧ Wr.ctrlDone c s0 ins n ≤ (Wr.cmds c s0 ins n).length := by
  obtain ⟨a, lo, I⟩ := Wr.inv hc h0 hf n
  rw [← I.ports, ← I.len, List.take_left]
  have h1 := I.le p
  have h2 := congrArg List.length I.ports
  simp only [List.length_append, List.length_map] at h2
  omega

/-- No done signal is lost: if no RAM signals done more often than it took commands, and before cycle `n` the first `N` writes are done at their RAMs, then the done signal has been given `N` times within as many cycles as
it had not been given before, and one more, whatever happens after `n`. -/
theorem C87_all_reported (c : Cfg) (hc : c.Ok) (s0 : Wr β) (h0 : Wr.Fresh s0) (ins : Nat → WrIn β) (hf : ∀ n, Fits c (ins n).cmd)
    (hr : ∀ n p, p < c.ports → Wr.ramDone ins p n ≤ times p ((Wr.issued c s0 ins n).map Prod.fst)) (n N : Nat) (hN : N ≤ (Wr.cmds c s0 ins n).length)
    (hd : ∀ p, p < c.ports → times p (((Wr.cmds c s0 ins n).map fun x => portOf c x.sel).take N) ≤ Wr.ramDone ins p n) :
    N ≤ Wr.ctrlDone c s0 ins (n + (N - Wr.ctrlDone c s0 ins n) + 1) := by
  -- the ports of the first N commands stay the same
  have pre : ∀ k, ((Wr.cmds c s0 ins (n + k)).map fun x => portOf c x.sel).take N = ((Wr.cmds c s0 ins n).map fun x => portOf c x.sel).take N ∧ N ≤ (Wr.cmds c s0 ins (n + k)).length := by
    intro k
    induction k with
    | zero => exact ⟨rfl, hN⟩
    | succ k ih =>
      have : Wr.cmds c s0 ins (n + (k + 1)) = Wr.cmds c s0 ins (n + k) ++ if (Wr.st c s0 ins (n + k)).ready c then (ins (n + k)).cmd.toList else [] := rfl
      rw [this, List.map_append, List.take_append_of_le_length (by rw [List.length_map]; exact ih.2), List.length_append]
      exact ⟨ih.1, by omega⟩
  have rmono : ∀ p k, Wr.ramDone ins p n ≤ Wr.ramDone ins p (n + k) := by
    intro p k
    induction k with
    | zero => exact Nat.le_refl _
    | succ k ih => rw [← Nat.add_assoc, Wr.ramDone_succ]; omega
  -- one cycle
  have one : ∀ k, Wr.ctrlDone c s0 ins (n + k) < N →
      (((Wr.st c s0 ins (n + k)).cur.isSome = true → Wr.ctrlDone c s0 ins (n + k + 1) = Wr.ctrlDone c s0 ins (n + k) + 1) ∧ (Wr.ctrlDone c s0 ins (n + k + 1) < N → (Wr.st c s0 ins (n + k + 1)).cur.isSome = true)) := by
    intro k hk
    obtain ⟨a, lo, I⟩ := Wr.inv hc h0 hf (n + k)
    obtain ⟨s, es⟩ : ∃ s, s = Wr.st c s0 ins (n + k) := ⟨_, rfl⟩
    have hcd : s.cdone c = s.cur.any s.done := Wr.cdone_eq fun p hp => I.lt p (by rw [← es]; exact List.mem_append_left _ hp)
    have hl := congrArg List.length I.ports
    simp only [List.length_append, List.length_map] at hl
    have h1 := (pre k).2
    have hack : ∀ q, s.cur = some q → s.done q = true := by
      intro q hq
      have hq' : q < c.ports := I.lt q (by rw [← es, hq]; exact List.mem_append_left _ (by simp))
      have h2 := hd q hq'
      rw [← (pre k).1, ← I.ports, ← es, hq] at h2
      have h3 : times q (a ++ [q]) ≤ times q ((a ++ ((some q).toList ++ lo)).take N) := by
        have e : a ++ ((some q).toList ++ lo) = (a ++ [q]) ++ lo := by simp
        rw [e, List.take_append, List.take_of_length_le (by rw [List.length_append, I.len]; simp; omega), times_append q (a ++ [q])]
        exact Nat.le_add_right _ _
      rw [times_append, show times q [q] = 1 by simp [times]] at h3
      have h4 := Wr.exact hc h0 hf hr (n + k) a lo I q hq'
      have h5 := rmono q k
      have h6 := I.done q
      rw [← es] at h6 h4
      rw [h6]; exact decide_eq_true (by omega)
    have hs : Wr.ctrlDone c s0 ins (n + k + 1) = Wr.ctrlDone c s0 ins (n + k) + (s.cur.any s.done).toNat := by rw [Wr.ctrlDone_succ, ← es, hcd]
    have hcur : (Wr.st c s0 ins (n + k + 1)).cur = if (s.cur.isNone || s.cdone c) = true then (if s.order.empty = true then none else some (s.order.head c.aw)) else s.cur := by rw [es]; rfl
    have he : s.order.empty = decide (lo = []) := by rw [es]; exact I.order.empty
    rw [← es] at hl
    rw [hs, hcur, hcd, he, ← es]
    cases hq : s.cur with
    | none =>
      rw [hq] at hl
      cases lo with
      | nil => simp at hl; have := I.len; omega
      | cons p lo => simp
    | some q =>
      rw [hq] at hl
      have := hack q hq
      cases lo with
      | nil => simp [this] at hl ⊢; have := I.len; omega
      | cons p lo => simp [this]
  have dmono : ∀ k j, Wr.ctrlDone c s0 ins k ≤ Wr.ctrlDone c s0 ins (k + j) := by
    intro k j
    induction j with
    | zero => exact Nat.le_refl _
    | succ j ih => rw [← Nat.add_assoc, Wr.ctrlDone_succ]; omega
  have main : ∀ j, N ≤ Wr.ctrlDone c s0 ins (n + 1 + j) ∨ (Wr.ctrlDone c s0 ins n + j ≤ Wr.ctrlDone c s0 ins (n + 1 + j) ∧ (Wr.st c s0 ins (n + 1 + j)).cur.isSome = true) := by
    intro j
    induction j with
    | zero =>
      by_cases h : Wr.ctrlDone c s0 ins (n + 1) < N
      · right
        have := dmono n 1
        exact ⟨this, (one 0 (by show Wr.ctrlDone c s0 ins n < N; omega)).2 h⟩
      · left; exact Nat.le_of_not_lt h
    | succ j ih =>
      rcases ih with h | ⟨h1, h2⟩
      · exact Or.inl (Nat.le_trans h (dmono _ 1))
      · by_cases h : Wr.ctrlDone c s0 ins (n + 1 + j) < N
        · have o := one (1 + j) (by rw [← Nat.add_assoc]; exact h)
          rw [← Nat.add_assoc] at o
          have o1 := o.1 h2
          by_cases h3 : Wr.ctrlDone c s0 ins (n + 1 + j + 1) < N
          · right
            refine ⟨?_, o.2 h3⟩
            show Wr.ctrlDone c s0 ins n + (j + 1) ≤ Wr.ctrlDone c s0 ins (n + 1 + j + 1)
            omega
          · left; exact Nat.le_of_not_lt h3
        · exact Or.inl (Nat.le_trans (Nat.le_of_not_lt h) (dmono _ 1))
  have e : n + (N - Wr.ctrlDone c s0 ins n) + 1 = n + 1 + (N - Wr.ctrlDone c s0 ins n) := by omega
  rw [e]
  rcases main (N - Wr.ctrlDone c s0 ins n) with h | ⟨h, _⟩
  · exact h
  · omega

/-! ### examples -/

/-- two ports, one select bit for each of them and one more; FIFOs of four and two -/
def exC : Cfg := { ports := 2, cl := 1, sw := 1, mw := 2, aw := 2, ow := 1 }

example : exC.Ok := ⟨by decide, by decide, by decide, by decide⟩

/-- commands to ports 0 and 1 in turn; port 1 answers only in every third cycle, responses are blocked in every fifth.  The RAMs answer with 1000 port + number, as computed from what was taken before. -/
def exCmd (n : Nat) : Cmd Nat := { sel := encode exC ((n + 1) % 2) 1, val := n }

example : ∀ n, Fits exC (some (exCmd n)) := by
  intro n x hx
  cases hx
  exact ⟨(n + 1) % 2, 1, Nat.mod_lt _ (by decide), by decide, rfl⟩

/-- the input in a cycle, given how many responses each port has given -/
def exIn (n : Nat) (k : Nat → Nat) : RdIn Nat Nat :=
  { cmd := some (exCmd n), cready := fun _ => true, resp := fun p => if p = 1 ∧ n % 3 ≠ 0 then none else some (1000 * p + k p), rready := n % 5 != 0 }

/-- the run with the RAMs that count -/
def exRun : Nat → Rd Nat Nat × (Nat → Nat) × List (RdIn Nat Nat)
  | 0 => (Rd.init (fun _ => 0) (fun _ => 0), fun _ => 0, [])
  | n + 1 =>
    let (s, k, l) := exRun n
    let i := exIn n k
    (s.step exC i, (fun p => if Rd.respReady exC s p && (i.resp p).isSome then k p + 1 else k p), l ++ [i])

def exIns (n : Nat) : RdIn Nat Nat := exIn n (exRun n).2.1

/-- the responses come in the order of the commands, which alternate between the ports -/
example : Rd.given exC (Rd.init (fun _ => 0) (fun _ => 0)) exIns 22 = [0, 1000, 1, 1001, 2, 1002, 3] ∧
    ((Rd.cmds exC (Rd.init (fun _ => 0) (fun _ => 0)) exIns 22).map fun x => portOf exC x.sel) = [0, 1, 0, 1, 0, 1, 0, 1, 0, 1, 0] := by
  set_option maxRecDepth 1000000 in decide

/-- writes: port 0 is done at once (two cycles after the command is taken), port 1 five cycles later -/
def exWr (n : Nat) : WrIn Nat :=
  { cmd := if n < 9 then some (exCmd n) else none, cready := fun _ => true, done := fun p => if p = 0 then decide (n = 4 ∨ n = 6) else decide (n = 10 ∨ n = 11) }

/-- the second write is to port 1: the third, done before it, is not reported before it -/
example : (Wr.cmds exC (Wr.init fun _ => 0) exWr 10).map (fun x => portOf exC x.sel) = [0, 1, 0, 1, 0, 1] ∧ Wr.ramDone exWr 0 10 = 2 ∧ Wr.ramDone exWr 1 10 = 0 ∧
    (List.range 16).map (Wr.ctrlDone exC (Wr.init fun _ => 0) exWr) = [0, 0, 0, 0, 0, 0, 1, 1, 1, 1, 1, 1, 2, 3, 4, 4] := by
  set_option maxRecDepth 1000000 in decide

end Corundum.RamDemux
