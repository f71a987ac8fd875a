import Verif.Model.DmaSinkDone
/-!
C144: the status of a descriptor follows its writes.
-/
namespace Corundum.DmaSinkDone
variable {α β : Type}

/-- number of commands for segment `k` among entries -/
def uses (k : Nat) (es : List (Entry β)) : Nat := es.countP fun e => e.mask k

/-- the RAM reports no write done before it has taken it -/
def RamOk (n : Nat) : St α β → List (In α β) → Prop
  | _, [] => True
  | s, i :: is => (∀ k, k < n → i.ramDone k = true → (s.segs k).dones < (s.segs k).taken.length) ∧
    ∀ t, step n s i = some t → RamOk n t is

structure SInv (s : Seg α) (ready : Bool) : Prop where
  flow : s.pushed = s.taken ++ s.out.toList ++ s.fifo
  dones : s.dones ≤ s.taken.length
  flag : s.done = decide (s.doneCount > 0)
  low : s.half = false → s.fifo.length ≤ 16
  mid : ready = true → s.fifo.length ≤ 17
  high : s.fifo.length ≤ 18

structure Inv (n : Nat) (s : St α β) : Prop where
  segs : ∀ k, k < n → SInv (s.segs k) s.ready
  flow : s.entered = s.entered.take s.popped ++ s.status
  pop : s.popped ≤ s.entered.length
  cnt : ∀ k, k < n → (s.segs k).pushed.length = uses k s.entered
  fin : ∀ k, k < n → uses k (s.entered.take s.popped) + (s.segs k).doneCount = (s.segs k).dones
  low : s.half = false → s.status.length ≤ 16
  mid : s.ready = true → s.status.length ≤ 17
  high : s.status.length ≤ 18
  rep : s.reports = ((s.entered.take s.popped).filter (·.last)).map (·.info)

theorem uses_append (k : Nat) (a b : List (Entry β)) : uses k (a ++ b) = uses k a + uses k b := List.countP_append

theorem uses_le (k : Nat) (a : List (Entry β)) : uses k a ≤ a.length := List.countP_le_length

theorem Inv_init (n : Nat) : Inv n (init : St α β) :=
  ⟨fun _ _ => ⟨rfl, Nat.le_refl _, rfl, fun _ => Nat.zero_le _, fun _ => Nat.zero_le _, Nat.zero_le _⟩, rfl, Nat.le_refl _,
    fun _ _ => rfl, fun _ _ => rfl, fun _ => Nat.zero_le _, fun _ => Nat.zero_le _, Nat.zero_le _, rfl⟩

theorem opt_le (o : Option α) : o.toList.length ≤ 1 := by cases o <;> simp

/-- one segment -/
theorem SInv_step {s : Seg α} {r r' : Bool} (i : SInv s r) (push : Option α) (hp : push.isSome = true → r = true)
    (ready done ack : Bool) (hd : done = true → s.dones < s.taken.length) (hc : s.doneCount < 32)
    (hr : r' = true → s.half = false) (ha : ack = true → s.doneCount > 0) :
    SInv (s.step push ready done ack) r' ∧ (s.step push ready done ack).pushed = s.pushed ++ push.toList ∧
      (s.step push ready done ack).doneCount + (if ack then 1 else 0) = s.doneCount + (if done then 1 else 0) := by
  have hi := i.high
  have hpush : (if s.fifo.length = depth then none else push) = push := by
    rw [if_neg]
    unfold depth
    omega
  have hlen : ((if (!s.fifo.isEmpty && (s.out.isNone || ready)) = true then s.fifo.tail else s.fifo) ++ push.toList).length ≤
      s.fifo.length + push.toList.length := by
    rw [List.length_append]
    split
    · rw [List.length_tail]; omega
    · omega
  have hp1 := opt_le push
  have hp2 : push.toList.length = 0 ∨ r = true := by
    cases push with
    | none => exact Or.inl rfl
    | some _ => exact Or.inr (hp rfl)
  unfold Seg.step
  simp only [hpush]
  refine ⟨⟨?_, ?_, ?_, ?_, ?_, ?_⟩, trivial, ?_⟩
  · rw [i.flow]
    cases hf : s.fifo with
    | nil => cases ho : s.out <;> cases ready <;> simp
    | cons x l => cases ho : s.out <;> cases ready <;> simp
  · have := i.dones
    dsimp only
    cases done
    · simp
      split
      · rw [List.length_append]; omega
      · exact this
    · have := hd rfl
      simp
      split
      · rw [List.length_append]; omega
      · omega
  · have hf := i.flag
    have hd32 : s.doneCount < depth := hc
    cases done <;> cases ack <;> simp [hd32, hf]
    by_cases h0 : 0 < s.doneCount
    · simp [h0]; omega
    · simp [h0]
  · intro h
    have h : ¬ _ ≥ _ := of_decide_eq_false h
    simp only [depth] at h
    dsimp only
    omega
  · intro h
    have := i.low (hr h)
    dsimp only
    omega
  · dsimp only
    rcases hp2 with h | h
    · omega
    · have := i.mid h
      omega
  · have hd32 : s.doneCount < depth := hc
    cases done <;> cases ack <;> simp [hd32]
    have := ha rfl
    rw [if_pos this]
    simp
    omega

theorem take_flow {γ : Type} {l x : List γ} {n : Nat} (h : l = l.take n ++ x) (_ : n ≤ l.length) : x = l.drop n := by
  have := List.take_append_drop n l
  have e : l.take n ++ x = l.take n ++ l.drop n := by rw [← h, this]
  exact List.append_cancel_left e

/-- an entry is taken out only when every segment of it has a write done -/
theorem pop_spec {n : Nat} {s : St α β} (i : Inv n s) {e : Entry β} (h : s.pop n = some e) :
    (∃ l, s.status = e :: l) ∧ ∀ k, k < n → e.mask k = true → (s.segs k).doneCount > 0 := by
  unfold St.pop at h
  split at h
  · cases h
  · rename_i e' l hs
    split at h
    · rename_i ha
      simp only [Option.some.injEq] at h
      subst h
      refine ⟨⟨l, hs⟩, fun k hk hm => ?_⟩
      rw [List.all_eq_true] at ha
      have := ha k (List.mem_range.2 hk)
      rw [hm, (i.segs k hk).flag] at this
      simpa using this
    · cases h

theorem done_lt {n : Nat} {s : St α β} (i : Inv n s) (k : Nat) (hk : k < n) : (s.segs k).doneCount ≤ 18 := by
  have h1 := i.fin k hk
  have h2 := i.cnt k hk
  have h3 := (i.segs k hk).dones
  have h4 := congrArg List.length (i.segs k hk).flow
  rw [List.length_append, List.length_append] at h4
  have h5 : uses k s.entered = uses k (s.entered.take s.popped) + uses k s.status := by
    rw [← uses_append, ← i.flow]
  have := uses_le k s.status
  have := i.high
  omega

theorem Inv_step {n : Nat} {s : St α β} (i : Inv n s) (x : In α β)
    (hd : ∀ k, k < n → x.ramDone k = true → (s.segs k).dones < (s.segs k).taken.length) :
    ∃ t, step n s x = some t ∧ Inv n t := by
  obtain ⟨p, hp⟩ : ∃ p, s.pop n = p := ⟨_, rfl⟩
  obtain ⟨acc, hacc⟩ : ∃ a, s.accepted x = a := ⟨_, rfl⟩
  have hready : acc.isSome = true → s.ready = true := by
    intro h
    rw [← hacc] at h
    unfold St.accepted at h
    split at h
    · assumption
    · cases h
  have hal := opt_le (acc.map Prod.fst)
  have ha2 : (acc.map Prod.fst).toList.length = 0 ∨ s.ready = true := by
    cases acc with
    | none => exact Or.inl rfl
    | some _ => exact Or.inr (hready rfl)
  have hhigh := i.high
  have hlen : ((if p.isSome = true then s.status.tail else s.status) ++ (acc.map Prod.fst).toList).length ≤
      s.status.length + (acc.map Prod.fst).toList.length := by
    rw [List.length_append]
    split
    · rw [List.length_tail]; omega
    · omega
  have hlen18 : ((if p.isSome = true then s.status.tail else s.status) ++ (acc.map Prod.fst).toList).length ≤ 18 := by
    rcases ha2 with h | h
    · omega
    · have := i.mid h
      omega
  unfold step
  simp only [hp, hacc]
  rw [if_neg (by unfold depth; omega)]
  refine ⟨_, rfl, ?_⟩
  have hseg : ∀ k, k < n → SInv ((s.segs k).step (acc.bind fun a => if a.1.mask k then some (a.2 k) else none)
        (x.ramReady k) (x.ramDone k) (ack p k))
        (x.more && (List.range n).all (fun k => !(s.segs k).half) && !s.half) ∧ _ := fun k hk =>
    SInv_step (i.segs k hk) (acc.bind fun a => if a.1.mask k then some (a.2 k) else none)
      (fun h => by
        cases acc with
        | none => cases h
        | some _ => exact hready rfl) (x.ramReady k) (x.ramDone k)
      (ack p k) (hd k hk) (by have := done_lt i k hk; omega)
      (fun h => by
        simp only [Bool.and_eq_true, List.all_eq_true, List.mem_range] at h
        have := h.1.2 k hk
        simpa using this)
      (fun h => by
        cases p with
        | none => cases h
        | some e => exact (pop_spec i hp).2 k hk h)
  have hen : ∀ q, q ≤ s.entered.length → (s.entered ++ (acc.map Prod.fst).toList).take q = s.entered.take q :=
    fun q hq => List.take_append_of_le_length hq
  have hpop : s.popped + (if p.isSome = true then 1 else 0) ≤ s.entered.length ∧
      s.entered.take (s.popped + (if p.isSome = true then 1 else 0)) = s.entered.take s.popped ++ p.toList ∧
      s.status = p.toList ++ (if p.isSome = true then s.status.tail else s.status) := by
    cases p with
    | none => exact ⟨i.pop, by simp, by simp⟩
    | some e =>
      obtain ⟨⟨l, hs⟩, _⟩ := pop_spec i hp
      have hdrop := take_flow i.flow i.pop
      rw [hs] at hdrop
      have hlt : s.popped < s.entered.length := by
        apply Classical.byContradiction
        intro h
        rw [List.drop_eq_nil_of_le (by omega)] at hdrop
        cases hdrop
      have he : s.entered[s.popped] = e := by
        rw [List.drop_eq_getElem_cons hlt] at hdrop
        exact (List.cons.inj hdrop).1.symm
      refine ⟨hlt, ?_, by rw [hs]; rfl⟩
      simp only [Option.isSome_some, if_true, Option.toList_some]
      rw [List.take_succ_eq_append_getElem hlt, he]
  obtain ⟨q1, q2, q3⟩ := hpop
  refine ⟨fun k hk => (hseg k hk).1, ?_, ?_, fun k hk => ?_, fun k hk => ?_, ?_, ?_, hlen18, ?_⟩
  · dsimp only
    rw [hen _ q1, q2, ← List.append_assoc, List.append_assoc (s.entered.take s.popped), ← q3, ← i.flow]
  · dsimp only
    rw [List.length_append]
    omega
  · dsimp only
    rw [(hseg k hk).2.1, List.length_append, i.cnt k hk, uses_append]
    congr 1
    cases acc with
    | none => rfl
    | some a =>
      by_cases hm : a.1.mask k = true
      · simp [hm, uses]
      · simp [hm, uses]
  · dsimp only
    have h1 := (hseg k hk).2.2
    rw [hen _ q1, q2, uses_append]
    have hfin := i.fin k hk
    have hdn : ((s.segs k).step (acc.bind fun a => if a.1.mask k then some (a.2 k) else none)
        (x.ramReady k) (x.ramDone k) (ack p k)).dones =
        (s.segs k).dones + if x.ramDone k then 1 else 0 := rfl
    rw [hdn]
    have hu : uses k p.toList = if (ack p k) = true then 1 else 0 := by
      cases p with
      | none => rfl
      | some e =>
        by_cases hm : e.mask k = true
        · simp [uses, ack, hm]
        · simp [uses, ack, hm]
    rw [hu]
    omega
  · intro h
    have h : ¬ _ ≥ _ := of_decide_eq_false h
    simp only [depth] at h
    dsimp only
    omega
  · intro h
    simp only [Bool.and_eq_true] at h
    have := i.low (by simpa using h.2)
    dsimp only
    omega
  · dsimp only
    rw [hen _ q1, q2]
    cases p with
    | none => simp [i.rep]
    | some e =>
      by_cases hl : e.last = true
      · simp [i.rep, hl]
      · simp [i.rep, hl]

theorem Inv_run {n : Nat} : ∀ (is : List (In α β)) {s : St α β}, Inv n s → RamOk n s is →
    ∃ t, run n s is = some t ∧ Inv n t
  | [], s, i, _ => ⟨s, rfl, i⟩
  | x :: is, s, i, h => by
    obtain ⟨t, h1, h2⟩ := Inv_step i x h.1
    obtain ⟨u, h3, h4⟩ := Inv_run is h2 (h.2 t h1)
    exact ⟨u, by simp only [run, h1, h3], h4⟩

/-- C144. Whatever transfers come and however the RAM takes and completes writes, no FIFO overflows and every segment hands its
commands to the RAM in the order in which they were made, each once: those taken, the one waiting and those in the FIFO are
all there are, one for each transfer accepted that uses the segment. -/
theorem C144_lossless (n : Nat) (is : List (In α β)) (h : RamOk n init is) :
    ∃ t, run n init is = some t ∧ ∀ k, k < n →
      (t.segs k).pushed = (t.segs k).taken ++ (t.segs k).out.toList ++ (t.segs k).fifo ∧
      (t.segs k).pushed.length = uses k t.entered := by
  obtain ⟨t, h1, i⟩ := Inv_run is (Inv_init n) h
  exact ⟨t, h1, fun k hk => ⟨(i.segs k hk).flow, i.cnt k hk⟩⟩

/-- C144. The status reported is that of descriptors in order, and it is reported only when all writes of the descriptor, and of
those before it, are done: the entries up to the last one reported have no more commands on any segment than are done. -/
theorem C144_after_writes (n : Nat) (is : List (In α β)) (h : RamOk n init is) :
    ∃ t, run n init is = some t ∧ ∃ q, q ≤ t.entered.length ∧
      t.reports = ((t.entered.take q).filter (·.last)).map (·.info) ∧
      ∀ k, k < n → uses k (t.entered.take q) ≤ (t.segs k).dones ∧ (t.segs k).dones ≤ (t.segs k).taken.length := by
  obtain ⟨t, h1, i⟩ := Inv_run is (Inv_init n) h
  exact ⟨t, h1, t.popped, i.pop, i.rep, fun k hk => ⟨by have := i.fin k hk; omega, (i.segs k hk).dones⟩⟩

/-- nothing comes in and the RAM is quiet -/
def quiet : In α β := ⟨none, true, fun _ => true, fun _ => false⟩

theorem drain {n : Nat} : ∀ (m : Nat) {s : St α β}, Inv n s → s.status.length ≤ m →
    (∀ k, k < n → (s.segs k).fifo = [] ∧ (s.segs k).out = none ∧ (s.segs k).dones = (s.segs k).taken.length) →
    ∃ t, run n s (List.replicate m quiet) = some t ∧ t.status = [] ∧ t.entered = s.entered ∧ Inv n t
  | 0, s, i, hm, _ => ⟨s, rfl, List.length_eq_zero_iff.1 (by omega), rfl, i⟩
  | m + 1, s, i, hm, hq => by
    obtain ⟨t, h1, h2⟩ := Inv_step i quiet (fun k _ h => by cases h)
    have hacc : s.accepted (quiet : In α β) = none := by unfold St.accepted quiet; split <;> rfl
    have ht := h1
    unfold step at h1
    simp only [hacc] at h1
    by_cases hbig : ((if (s.pop n).isSome = true then s.status.tail else s.status) ++
        ((none : Option (Entry β × (Nat → α))).map Prod.fst).toList).length > depth
    · rw [if_pos hbig] at h1
      cases h1
    · rw [if_neg hbig] at h1
      simp only [Option.some.injEq] at h1
      have hst : t.status.length ≤ m := by
        rw [← h1]
        simp only [Option.map_none, Option.toList_none, List.append_nil]
        cases hs : s.status with
        | nil => split <;> simp
        | cons e l =>
          have hp : s.pop n = some e := by
            unfold St.pop
            rw [hs]
            dsimp only
            rw [if_pos]
            rw [List.all_eq_true]
            intro k hk
            have hk := List.mem_range.1 hk
            by_cases hmk : e.mask k = true
            · obtain ⟨q1, q2, q3⟩ := hq k hk
              have f := (i.segs k hk).flow
              rw [q1, q2] at f
              have hc := i.cnt k hk
              have hf := i.fin k hk
              have hu : uses k s.entered = uses k (s.entered.take s.popped) + uses k s.status := by
                rw [← uses_append, ← i.flow]
              have hu1 : uses k s.status ≥ 1 := by
                rw [hs]
                unfold uses
                rw [List.countP_cons, if_pos hmk]
                omega
              have hl : (s.segs k).pushed.length = (s.segs k).taken.length := by rw [f]; simp
              rw [(i.segs k hk).flag]
              have : (s.segs k).doneCount > 0 := by omega
              simp [this]
            · simp [hmk]
          have := congrArg List.length hs
          rw [List.length_cons] at this
          rw [hp]
          simp only [Option.isSome_some, if_true, List.tail_cons]
          omega
      have hen : t.entered = s.entered := by rw [← h1]; simp
      have hq' : ∀ k, k < n → (t.segs k).fifo = [] ∧ (t.segs k).out = none ∧ (t.segs k).dones = (t.segs k).taken.length := by
        intro k hk
        obtain ⟨q1, q2, q3⟩ := hq k hk
        rw [← h1]
        simp [Seg.step, q1, q2, q3, quiet]
      obtain ⟨u, g1, g2, g3, g4⟩ := drain m h2 hst hq'
      refine ⟨u, ?_, g2, by rw [g3, hen], g4⟩
      rw [List.replicate_succ]
      simp only [run, ht, g1]

/-- C144. Each status is reported: once the RAM has taken and completed all commands, as many cycles as there are entries
waiting, at most 18, report all of them. -/
theorem C144_reported (n : Nat) (is : List (In α β)) (h : RamOk n init is) :
    ∃ s, run n init is = some s ∧
      ((∀ k, k < n → (s.segs k).fifo = [] ∧ (s.segs k).out = none ∧ (s.segs k).dones = (s.segs k).taken.length) →
        ∃ t, run n s (List.replicate 18 quiet) = some t ∧
          t.reports = (s.entered.filter (·.last)).map (·.info)) := by
  obtain ⟨s, h1, i⟩ := Inv_run is (Inv_init n) h
  refine ⟨s, h1, fun hq => ?_⟩
  obtain ⟨t, g1, g2, g3, g4⟩ := drain 18 i i.high hq
  refine ⟨t, g1, ?_⟩
  rw [g4.rep, ← g3]
  have := g4.flow
  rw [g2, List.append_nil] at this
  rw [← this]

/-- C144. And each command gets to the RAM: a segment with a command and a RAM that is ready hands one over in each two cycles. -/
theorem C144_progress (s : Seg α) (done ack : Bool) (hf : s.fifo ≠ [] ∨ s.out ≠ none) :
    ((s.step none true done ack).taken.length > s.taken.length ∨ (s.step none true done ack).out ≠ none) ∧
      (s.out ≠ none → (s.step none true done ack).taken.length = s.taken.length + 1) := by
  unfold Seg.step
  cases ho : s.out <;> cases hl : s.fifo <;> simp_all

/-- the case of two segments: a transfer on both is accepted, taken and done, first on one and then on the other segment, and then
reported -/
def caseIn (offer : Bool) (done : Nat → Bool) : In Nat Nat :=
  ⟨if offer then some (⟨fun _ => true, true, 7⟩, fun k => k) else none, true, fun _ => true, done⟩

def caseRun : List (In Nat Nat) :=
  [caseIn false fun _ => false, caseIn true fun _ => false, caseIn false fun _ => false, caseIn false fun _ => false,
   caseIn false (fun k => k == 0), caseIn false (fun k => k == 1)]

example : ((run 2 init caseRun).map fun t => (t.reports, (t.segs 0).taken, (t.segs 1).taken, t.status.length)) =
      some ([], [0], [1], 1) ∧
    ((run 2 init (caseRun ++ [quiet])).map fun t => (t.reports, t.status.length)) = some ([7], 0) := by decide

end Corundum.DmaSinkDone
