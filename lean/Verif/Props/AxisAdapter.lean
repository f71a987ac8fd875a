import Verif.Proof.AxisAdapter

/-! C106-C108: the AXI stream width adapter. -/
namespace Corundum.AxisAdapter

variable {α : Type} [Inhabited α]

/-! ### C106 -/

/-- C106: whatever the timing on both sides, the bytes and ends of frames delivered are those accepted, in order: nothing is lost in
between, duplicated, reordered or changed.  (What is accepted and not yet delivered: C107.)
Assumed of the sender: `tkeep` is set even where it is said to be unused - see the counterexample; without `tkeep` at the output the lanes
in use at the input are the lowest ones. -/
theorem C106_lossless_partial {k : Kind} {c : Cfg} (hc : c.Ok k) {st : St α} (hs : Reset k c st) {is : List (Inp α)}
    (hf : ∀ i ∈ is, i.rst = false ∧ i.beat.Wide c.s ∧ (i.valid = true → Sane c i.beat)) :
    stream (run k c st is).2.2 <+: stream ((run k c st is).2.1.map (meant c)) := by
  obtain ⟨h1, h2⟩ := Inv_reset hc hs
  have := (run_pend hc is st h1 hf).2
  rw [h2, List.nil_append] at this
  rw [this]
  exact List.prefix_append _ _

/-- C106: with equal widths the transfer goes through as it is. -/
theorem C106_bypass {c : Cfg} (_he : c.s = c.m) {b : Beat α} (h1 : c.mKeep = false → b.Full) (h2 : c.sKeep = false → b.Full) :
    (bypass c b).items = (meant c b).items := by
  rw [bypass, out_it h1, meant_it h2]

/-- C106: a reset at any time ends in a state as assumed above. -/
theorem C106_reset {k : Kind} {c : Cfg} (hc : c.Ok k) {st : St α} (hs : Reset k c st) {is : List (Inp α)}
    (hf : ∀ i ∈ is, i.rst = false ∧ i.beat.Wide c.s ∧ (i.valid = true → Sane c i.beat)) {i : Inp α} (hr : i.rst = true)
    (hw : i.beat.Wide c.s) : Reset k c (step k c (run k c st is).1 i) := by
  have hi := (run_pend hc is st (Inv_reset hc hs).1 hf).1
  generalize (run k c st is).1 = st at *
  cases k with
  | down => simp [step, downStep, hr, Reset]
  | up =>
    have := (up_step (i := { i with rst := false }) hc hi rfl hw).1.wide
    have e : upStep c st i = { upStep c st { i with rst := false } with seg := 0, sv := false, mv := false } := by
      simp only [upStep, hr, if_true, Bool.false_eq_true, if_false]
    rw [step, e]
    exact ⟨rfl, rfl, rfl, this⟩

/-- C106 fails where `tkeep` is said to be unused at the input (`S_KEEP_ENABLE = 0`: "tkeep assumed to be 1'b1"): a wider output takes
`s_axis_tkeep` all the same, and if it is wired to 0 all bytes are lost. -/
theorem C106_keep_counterexample : ∃ (c : Cfg) (is : List (Inp Nat)), c.Ok .up ∧ c.sKeep = false ∧
    (∀ i ∈ is, i.rst = false ∧ i.beat.Wide c.s) ∧
    let st : St Nat := ⟨0, false, ⟨[0], [false], false, 0, 0, 0⟩, false, ⟨[0, 0], [false, false], false, 0, 0, 0⟩⟩
    Reset .up c st ∧ stream ((run .up c st is).2.1.map (meant c)) = [.byte 7, .byte 8, .fin 0 0 0] ∧
      stream (run .up c st is).2.2 = [.fin 0 0 0] := by
  refine ⟨{ s := 1, m := 2, sKeep := false },
    [⟨⟨[7], [false], false, 0, 0, 0⟩, true, true, false⟩, ⟨⟨[8], [false], true, 0, 0, 0⟩, true, true, false⟩,
      ⟨⟨[0], [false], false, 0, 0, 0⟩, false, true, false⟩],
    ⟨by decide, by decide, by decide, rfl⟩, rfl, ?_, ⟨rfl, rfl, rfl, rfl, rfl⟩, by decide, by decide⟩
  intro i hi
  simp only [List.mem_cons, List.not_mem_nil, or_false] at hi
  rcases hi with rfl | rfl | rfl <;> exact ⟨rfl, rfl, rfl⟩

/-! ### C107 -/

/-- C107: once the sender pauses after a complete frame and the receiver takes two transfers, a wider output has delivered everything. -/
theorem C107_drained_up {c : Cfg} (hc : c.Ok .up) {st : St α} (hs : Reset .up c st) {is : List (Inp α)}
    (hf : ∀ i ∈ is, i.rst = false ∧ i.beat.Wide c.s ∧ (i.valid = true → Sane c i.beat)) {b : Beat α}
    (hb : (run .up c st is).2.1.getLast? = some b) (hl : b.last = true) {idle : List (Inp α)} (hlen : idle.length = 2)
    (hi : ∀ i ∈ idle, i.rst = false ∧ i.beat.Wide c.s ∧ i.valid = false ∧ i.ready = true) :
    (run .up c st (is ++ idle)).2.1 = (run .up c st is).2.1 ∧
    stream (run .up c st (is ++ idle)).2.2 = stream ((run .up c st is).2.1.map (meant c)) := by
  obtain ⟨h1, h2⟩ := Inv_reset hc hs
  obtain ⟨g1, _⟩ := run_pend hc is st h1 hf
  have hd := (done_run hc is st h1 hf).2 b hb hl
  have hi' : ∀ i ∈ idle, Fed c i := fun i h => ⟨(hi i h).1, (hi i h).2.1, fun e => by rw [(hi i h).2.2.1] at e; cases e⟩
  have htk : (run .up c st (is ++ idle)).2.1 = (run .up c st is).2.1 := by
    rw [run_append]
    suffices h : ∀ (l : List (Inp α)) (s : St α), (∀ i ∈ l, i.valid = false) → (run .up c s l).2.1 = [] by
      dsimp only
      rw [h idle _ fun i h => (hi i h).2.2.1, List.append_nil]
    intro l
    induction l with
    | nil => intro s _; rfl
    | cons i l ih =>
      intro s h
      simp [run, taken, h i List.mem_cons_self, ih _ fun j hj => h j (List.mem_cons_of_mem _ hj)]
  refine ⟨htk, ?_⟩
  obtain ⟨_, f2⟩ := run_pend hc (is ++ idle) st h1 fun i h => (List.mem_append.1 h).elim (hf i) (hi' i)
  rw [h2, List.nil_append, htk] at f2
  rw [f2]
  match idle, hlen with
  | [i, j], _ =>
    have ai := hi i List.mem_cons_self
    have aj := hi j (List.mem_cons_of_mem _ List.mem_cons_self)
    obtain ⟨e1, e2, e3⟩ := up_empty g1 hd ai.1 aj.1 ai.2.2 aj.2.2
    rw [run_append]
    have hp : pend .up c (run .up c (run .up c st is).1 [i, j]).1 = [] := by
      show upPend c (upStep c (upStep c _ i) j) = []
      rw [upPend, e1, e2, e3, part_zero]
      rfl
    dsimp only
    rw [hp, List.append_nil]

/-- C107: once the sender pauses and the receiver takes transfers for as many cycles as a wide transfer has narrow ones, and two more, a
narrower output has delivered everything. -/
theorem C107_drained_down {c : Cfg} (hc : c.Ok .down) {st : St α} (hs : Reset .down c st) {is : List (Inp α)}
    (hf : ∀ i ∈ is, i.rst = false ∧ i.beat.Wide c.s ∧ (i.valid = true → Sane c i.beat)) {idle : List (Inp α)}
    (hlen : c.s / c.m + 2 ≤ idle.length) (hi : ∀ i ∈ idle, i.rst = false ∧ i.beat.Wide c.s ∧ i.valid = false ∧ i.ready = true) :
    (run .down c st (is ++ idle)).2.1 = (run .down c st is).2.1 ∧
    stream (run .down c st (is ++ idle)).2.2 = stream ((run .down c st is).2.1.map (meant c)) := by
  obtain ⟨h1, h2⟩ := Inv_reset hc hs
  obtain ⟨g1, _⟩ := run_pend hc is st h1 hf
  have hi' : ∀ i ∈ idle, Fed c i := fun i h => ⟨(hi i h).1, (hi i h).2.1, fun e => by rw [(hi i h).2.2.1] at e; cases e⟩
  have htk : (run .down c st (is ++ idle)).2.1 = (run .down c st is).2.1 := by
    rw [run_append]
    suffices h : ∀ (l : List (Inp α)) (s : St α), (∀ i ∈ l, i.valid = false) → (run .down c s l).2.1 = [] by
      dsimp only
      rw [h idle _ fun i h => (hi i h).2.2.1, List.append_nil]
    intro l
    induction l with
    | nil => intro s _; rfl
    | cons i l ih =>
      intro s h
      simp [run, taken, h i List.mem_cons_self, ih _ fun j hj => h j (List.mem_cons_of_mem _ hj)]
  refine ⟨htk, ?_⟩
  obtain ⟨_, f2⟩ := run_pend hc (is ++ idle) st h1 fun i h => (List.mem_append.1 h).elim (hf i) (hi' i)
  rw [h2, List.nil_append, htk] at f2
  rw [f2]
  have hl : Left c (run .down c st is).1 (c.s / c.m) := by
    intro e x hx
    have hw := (DownInv.buf g1 e).1.2
    rw [Nat.div_mul_cancel hc.2.1, List.drop_of_length_le (by rw [hw]; exact Nat.le_refl _)] at hx
    cases hx
  obtain ⟨e1, e2⟩ := down_empty idle _ _ hl hlen fun i h => ⟨(hi i h).1, (hi i h).2.2⟩
  rw [run_append]
  dsimp only
  rw [pend, downPend, e1, e2]
  simp

/-- C107: a transfer offered and not taken is still offered, unchanged, in the next cycle. -/
theorem C107_stable {k : Kind} {c : Cfg} {st : St α} {i : Inp α} (hr : i.rst = false) (hv : st.mv = true) (hn : i.ready = false) :
    (step k c st i).mv = true ∧ outBeat c (step k c st i).mb = outBeat c st.mb := by
  cases k <;> cases h : i.valid <;> cases h' : st.sv <;> simp [step, upStep, downStep, hr, hv, hn, h, h']

/-! ### C108 -/

/-- C108: if transfers at the input use all lanes, except at the end of a frame where they use the lowest ones, so do transfers at the
output. -/
theorem C108_packed {k : Kind} {c : Cfg} (hc : c.Ok k) {st : St α} (hs : Reset k c st) {is : List (Inp α)}
    (hf : ∀ i ∈ is, i.rst = false ∧ i.beat.Wide c.s ∧ (i.valid = true → Sane c i.beat ∧ i.beat.Packed)) :
    ∀ b ∈ (run k c st is).2.2, b.Packed := by
  have key : ∀ (is : List (Inp α)) (st : St α), Inv k c st → PInv k c st →
      (∀ i ∈ is, i.rst = false ∧ i.beat.Wide c.s ∧ (i.valid = true → Sane c i.beat ∧ i.beat.Packed)) →
      ∀ b ∈ (run k c st is).2.2, b.Packed := by
    intro is
    induction is with
    | nil => intro st _ _ _ b hb; cases hb
    | cons i is ih =>
      intro st h1 h2 hf b hb
      obtain ⟨f1, f2, f3⟩ := hf i List.mem_cons_self
      rw [run] at hb
      rcases List.mem_append.1 hb with hb | hb
      · rw [given] at hb
        split at hb
        · rename_i hv
          obtain rfl := List.mem_singleton.1 hb
          have hp := h2.1 (Bool.and_eq_true _ _ ▸ hv).1
          cases hm : c.mKeep with
          | true => simp only [Beat.Packed, Beat.Dense, Beat.Full, outBeat, hm, if_true]; exact hp
          | false =>
            obtain ⟨⟨n, r, hk⟩, _⟩ := hp
            refine ⟨⟨n + r, 0, ?_⟩, fun _ x hx => ?_⟩
            · simp only [outBeat, hm, if_false, Bool.false_eq_true, hk, List.length_append, List.length_replicate, List.replicate_zero,
                List.append_nil]
              congr 1; omega
            · simp only [outBeat, hm, if_false, Bool.false_eq_true] at hx
              exact List.eq_of_mem_replicate hx
        · cases hb
      · refine ih _ (Inv_step hc h1 ⟨f1, f2, fun h => (f3 h).1⟩).1 ?_ (fun j hj => hf j (List.mem_cons_of_mem _ hj)) b hb
        cases k with
        | up => exact up_packed hc h1 h2 f1 f2 fun h => (f3 h).2
        | down => exact down_packed hc h2 f1 fun h => ⟨f2, (f3 h).2⟩
  refine key is st (Inv_reset hc hs).1 ?_ hf
  obtain ⟨h1, h2, h3⟩ := hs
  refine ⟨by simp [h2], ?_⟩
  cases k with
  | up => exact ⟨by simp [h1], by simp [h3.1]⟩
  | down => exact fun e => by rw [h1] at e; cases e

/-! ### examples -/

/-- 2 lanes to 4 and 4 lanes to 2, a frame of 5 bytes and one of 2, the receiver slow in the beginning -/
def cfgUp : Cfg := { s := 2, m := 4, destEn := true }
def cfgDown : Cfg := { s := 4, m := 2, destEn := true }

def zeroSt : St Nat := ⟨0, false, ⟨[0, 0], [false, false], false, 0, 0, 0⟩, false, ⟨[0, 0, 0, 0], [false, false, false, false], false, 0, 0, 0⟩⟩

def feedUp : List (Inp Nat) :=
  [⟨⟨[1, 2], [true, true], false, 0, 9, 0⟩, true, false, false⟩, ⟨⟨[3, 4], [true, true], false, 0, 9, 0⟩, true, false, false⟩,
    ⟨⟨[5, 0], [true, false], true, 0, 9, 1⟩, true, false, false⟩, ⟨⟨[6, 7], [true, true], true, 0, 3, 0⟩, true, true, false⟩,
    ⟨⟨[6, 7], [true, true], true, 0, 3, 0⟩, true, true, false⟩]

def feedDown : List (Inp Nat) :=
  [⟨⟨[1, 2, 3, 4], [true, true, true, true], false, 0, 9, 0⟩, true, false, false⟩,
    ⟨⟨[5, 0, 0, 0], [true, false, false, false], true, 0, 9, 1⟩, true, true, false⟩,
    ⟨⟨[5, 0, 0, 0], [true, false, false, false], true, 0, 9, 1⟩, true, true, false⟩]

example : cfgUp.Ok .up ∧ cfgDown.Ok .down ∧ Reset .up cfgUp zeroSt ∧ Reset .down cfgDown zeroSt :=
  ⟨⟨by decide, by decide, by decide, rfl⟩, ⟨by decide, by decide, by decide, rfl, by decide⟩, ⟨rfl, rfl, rfl, rfl, rfl⟩, rfl, rfl, trivial⟩

example : (∀ i ∈ feedUp, i.rst = false ∧ i.beat.Wide cfgUp.s ∧ (i.valid = true → Sane cfgUp i.beat ∧ i.beat.Packed)) ∧
    (run .up cfgUp zeroSt feedUp).2.2 = [⟨[1, 2, 3, 4], [true, true, true, true], false, 0, 9, 0⟩, ⟨[5, 0, 3, 4], [true, false, false, false], true, 0, 9, 1⟩] ∧
    stream ((run .up cfgUp zeroSt feedUp).2.1.map (meant cfgUp)) =
      [.byte 1, .byte 2, .byte 3, .byte 4, .byte 5, .fin 0 9 1, .byte 6, .byte 7, .fin 0 3 0] := by
  refine ⟨?_, by decide, by decide⟩
  intro i hi
  have hf : ∀ b : Beat Nat, Sane cfgUp b ↔ b.Wide 2 := fun b => ⟨fun h => h.1, fun h => ⟨h, nofun, nofun⟩⟩
  simp only [feedUp, List.mem_cons, List.not_mem_nil, or_false] at hi
  rcases hi with rfl | rfl | rfl | rfl | rfl <;> refine ⟨rfl, ⟨rfl, rfl⟩, fun _ => ⟨(hf _).2 ⟨rfl, rfl⟩, ?_⟩⟩
  · exact ⟨⟨1, 0, rfl⟩, fun _ => by unfold Beat.Full; decide⟩
  · exact ⟨⟨1, 0, rfl⟩, fun _ => by unfold Beat.Full; decide⟩
  · exact ⟨⟨0, 1, rfl⟩, nofun⟩
  · exact ⟨⟨1, 0, rfl⟩, nofun⟩
  · exact ⟨⟨1, 0, rfl⟩, nofun⟩

example : (run .down cfgDown zeroSt feedDown).2.2 = [⟨[1, 2], [true, true], false, 0, 9, 0⟩, ⟨[3, 4], [true, true], false, 0, 9, 0⟩] ∧
    stream ((run .down cfgDown zeroSt feedDown).2.1.map (meant cfgDown)) =
      [.byte 1, .byte 2, .byte 3, .byte 4, .byte 5, .fin 0 9 1] := by decide

end Corundum.AxisAdapter
