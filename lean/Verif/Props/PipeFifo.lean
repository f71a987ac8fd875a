import Verif.Model.PipeFifo
/-!
C151: the pipeline loses nothing, whatever its length.
-/
namespace Corundum.PipeFifo

/-- transfers taken from the input and transfers taken by the output -/
structure Mon where
  ins : List Nat
  outs : List Nat
deriving DecidableEq, Repr

def run (l : Nat) : St × Mon → List In → St × Mon
  | x, [] => x
  | x, i :: is =>
    run l (x.1.step l i,
      { ins := if i.valid && x.1.ready then x.2.ins ++ [i.data] else x.2.ins
        outs := if i.ready then x.2.outs ++ x.1.out.toList else x.2.outs }) is

/-- number of stages with a transfer, and with ready -/
def full (p : List (Option Nat)) : Nat := p.countP (·.isSome)

theorem width (l : Nat) (h : 0 < l) : 2 * l + 1 ≤ 2 ^ (addrWidth l - 1) ∧ 2 ^ addrWidth l = 2 * 2 ^ (addrWidth l - 1) ∧
    1 < 2 ^ (addrWidth l - 1) := by
  unfold addrWidth
  split
  · have : l = 1 := by omega
    subst this
    decide
  · have h1 : l * 4 < 2 ^ (Nat.log2 (l * 4) + 1) := Nat.lt_log2_self
    rw [Nat.add_sub_cancel, Nat.pow_succ] at *
    generalize 2 ^ Nat.log2 (l * 4) = x at *
    omega

/-- transfers in the pipeline, oldest first -/
def inPipe (p : List (Option Nat)) : List Nat := p.reverse.filterMap id

structure Inv (l : Nat) (s : St) (m : Mon) : Prop where
  pipe : s.pipe.length = l
  rdy : s.rdy.length = l
  low : s.half = false → s.fifo.length ≤ 2 ^ (addrWidth l - 1)
  high : s.half = true → s.fifo.length + full s.pipe + s.rdy.count true ≤ 2 ^ (addrWidth l - 1) + 2 * l + 1
  data : m.ins = m.outs ++ s.out.toList ++ s.fifo ++ inPipe s.pipe

theorem split_last (p : List (Option Nat)) (h : 0 < p.length) : ∃ q x, p = q ++ [x] :=
  ⟨p.dropLast, p.getLast (by intro e; rw [e] at h; cases h), (List.dropLast_concat_getLast _).symm⟩

theorem full_le (p : List (Option Nat)) : full p ≤ p.length := List.countP_le_length

/-- the FIFO has room for what leaves the pipeline -/
theorem room {l : Nat} (hl : 0 < l) {s : St} {m : Mon} (h : Inv l s m) (v : Nat) (hv : s.pipe.getLastD none = some v) :
    s.fifo.length ≠ 2 ^ addrWidth l := by
  obtain ⟨w1, w2, w3⟩ := width l hl
  obtain ⟨q, x, hq⟩ := split_last s.pipe (by rw [h.pipe]; exact hl)
  have hx : x = some v := by
    rw [hq] at hv
    simpa using hv
  have hf : 1 ≤ full s.pipe := by
    rw [hq, hx]
    simp [full]
  cases hh : s.half
  · have := h.low hh
    omega
  · have := h.high hh
    omega

theorem Inv_step {l : Nat} (hl : 0 < l) {s : St} {m : Mon} (h : Inv l s m) (i : In) :
    Inv l (s.step l i)
      { ins := if i.valid && s.ready then m.ins ++ [i.data] else m.ins
        outs := if i.ready then m.outs ++ s.out.toList else m.outs } := by
  obtain ⟨w1, w2, w3⟩ := width l hl
  have hroom := fun v => room hl h v
  obtain ⟨h1, h2, h3, h4, h5⟩ := h
  obtain ⟨q, x, hq⟩ := split_last s.pipe (by omega)
  have hql : q.length + 1 = l := by rw [hq] at h1; simpa using h1
  obtain ⟨r, rs, hr⟩ : ∃ r rs, s.rdy = r :: rs := by
    cases hrd : s.rdy with
    | nil => rw [hrd] at h2; simp at h2; omega
    | cons r rs => exact ⟨r, rs, rfl⟩
  have hrl : rs.length + 1 = l := by rw [hr] at h2; simpa using h2
  have hgl : s.pipe.getLastD none = x := by rw [hq]; simp
  have harr : (if s.fifo.length ≠ 2 ^ addrWidth l then (s.pipe.getLastD none).toList else []) = x.toList := by
    rw [hgl]
    cases x with
    | none => simp
    | some v => rw [if_pos (hroom v hgl)]
  have e1 : (s.step l i).pipe = s.taken i :: q := by simp [St.step, hq]
  have e2 : (s.step l i).rdy = rs ++ [!s.half] := by simp [St.step, hr]
  have e3 : (s.step l i).fifo = (if s.pop i then s.fifo.tail else s.fifo) ++ x.toList := by
    show (if s.pop i then s.fifo.tail else s.fifo) ++
      (if s.fifo.length ≠ 2 ^ addrWidth l then (s.pipe.getLastD none).toList else []) = _
    rw [harr]
  have e4 : (s.step l i).half = decide (s.fifo.length ≥ 2 ^ (addrWidth l - 1)) := rfl
  have hpop : (if s.pop i then s.fifo.tail else s.fifo).length ≤ s.fifo.length := by
    split
    · simp
    · exact Nat.le_refl _
  have hxl : x.toList.length = full [x] := by cases x <;> rfl
  have hfx : full [x] ≤ 1 := full_le [x]
  have hfp : full s.pipe = full q + full [x] := by rw [hq]; simp [full]
  have htk : full [s.taken i] ≤ [r].count true := by
    have hrdy : s.ready = r := by simp [St.ready, hr]
    unfold St.taken
    rw [hrdy]
    cases r <;> cases i.valid <;> simp [full]
  have hft : full (s.taken i :: q) = full [s.taken i] + full q := by
    rw [show s.taken i :: q = [s.taken i] ++ q from rfl]
    unfold full
    rw [List.countP_append]
  have hrc : s.rdy.count true = [r].count true + rs.count true := by
    rw [hr, show r :: rs = [r] ++ rs from rfl, List.count_append]
  have hlen : (s.step l i).fifo.length ≤ s.fifo.length + full [x] := by
    rw [e3, List.length_append, hxl]
    omega
  refine ⟨by rw [e1]; simpa using hql, by rw [e2]; simpa using hrl, ?_, ?_, ?_⟩
  · intro hh
    rw [e4] at hh
    have := of_decide_eq_false hh
    omega
  · intro hh
    rw [e4] at hh
    have hge := of_decide_eq_true hh
    rw [e1, e2, hft, List.count_append]
    cases hs : s.half
    · have := h3 hs
      have a1 := full_le q
      have a2 : rs.count true ≤ rs.length := List.count_le_length
      have a3 : [!false].count true = 1 := rfl
      have a4 : [r].count true ≤ 1 := List.count_le_length
      omega
    · have := h4 hs
      have a3 : [!true].count true = 0 := rfl
      omega
  · dsimp only
    rw [e1, e3]
    have hip : inPipe (s.taken i :: q) = inPipe q ++ (s.taken i).toList := by
      unfold inPipe
      rw [List.reverse_cons, List.filterMap_append]
      cases s.taken i <;> simp
    have hip' : inPipe s.pipe = x.toList ++ inPipe q := by
      rw [hq]
      unfold inPipe
      rw [List.reverse_append]
      cases x <;> simp
    rw [hip] at *
    have hin : (if i.valid && s.ready then m.ins ++ [i.data] else m.ins) = m.ins ++ (s.taken i).toList := by
      unfold St.taken
      split <;> simp
    rw [hin, h5, hip']
    have hmid : (if i.ready then m.outs ++ s.out.toList else m.outs) ++ (s.step l i).out.toList ++
        (if s.pop i then s.fifo.tail else s.fifo) = m.outs ++ s.out.toList ++ s.fifo := by
      have eo : (s.step l i).out = if s.pop i then s.fifo.head? else if i.ready then none else s.out := rfl
      rw [eo]
      obtain ⟨f, hf⟩ : ∃ f, s.fifo = f := ⟨_, rfl⟩
      obtain ⟨o, ho⟩ : ∃ o, s.out = o := ⟨_, rfl⟩
      unfold St.pop
      rw [hf, ho]
      cases f <;> cases o <;> cases i.ready <;> simp
    rw [show ∀ (a b c d e f : List Nat), a ++ b ++ (c ++ d) ++ (e ++ f) = (a ++ b ++ c) ++ (d ++ (e ++ f)) from by
      intros; simp only [List.append_assoc], hmid]
    simp only [List.append_assoc]

theorem Inv_run {l : Nat} (hl : 0 < l) : ∀ (is : List In) (x : St × Mon), Inv l x.1 x.2 → Inv l (run l x is).1 (run l x is).2
  | [], _, h => h
  | i :: is, _, h => Inv_run hl is _ (Inv_step hl h i)

theorem Inv_init (l : Nat) : Inv l (.init l) ⟨[], []⟩ := by
  refine ⟨by simp [St.init], by simp [St.init], fun _ => Nat.zero_le _, (fun h => by cases h), ?_⟩
  have : ∀ l, inPipe (List.replicate l none) = [] := by
    intro l
    unfold inPipe
    rw [List.reverse_replicate]
    induction l with
    | zero => rfl
    | succ l ih => simpa [List.replicate_succ] using ih
  simp [St.init, this]

/-- C151. For every length of the pipeline, and whatever the pauses of the input and the stalls of the output: what was taken from the input is
what the output has taken, then the output register, the FIFO and the pipeline, in order. So nothing is lost although ready takes `l` cycles to reach the
input, and nothing is repeated or out of order. -/
theorem C151_lossless (l : Nat) (hl : 0 < l) (is : List In) :
    let x := run l (.init l, ⟨[], []⟩) is
    x.2.ins = x.2.outs ++ x.1.out.toList ++ x.1.fifo ++ x.1.pipe.reverse.filterMap id :=
  (Inv_run hl is (.init l, ⟨[], []⟩) (Inv_init l)).data

/-- C151. The FIFO never has to refuse a transfer. -/
theorem C151_room (l : Nat) (hl : 0 < l) (is : List In) (v : Nat)
    (hv : (run l (.init l, ⟨[], []⟩) is).1.pipe.getLast? = some (some v)) :
    (run l (.init l, ⟨[], []⟩) is).1.fifo.length < 2 ^ addrWidth l := by
  have h := Inv_run hl is (.init l, ⟨[], []⟩) (Inv_init l)
  generalize run l (.init l, ⟨[], []⟩) is = x at *
  have hv' : x.1.pipe.getLastD none = some v := by rw [List.getLastD_eq_getLast?, hv]; rfl
  have hne := room hl h v hv'
  obtain ⟨w1, w2, w3⟩ := width l hl
  cases hh : x.1.half
  · have := h.low hh
    omega
  · have := h.high hh
    omega

/-- with an output that is always ready the FIFO has at most one entry and ready is passed on unchanged -/
structure Fast (l n : Nat) (s : St) : Prop where
  fifo : s.fifo.length ≤ 1
  half : s.half = false
  rdy : s.rdy = List.replicate (l - n) false ++ List.replicate (min n l) true

theorem Fast_step {l n : Nat} (hl : 0 < l) {s : St} (h : Fast l n s) (i : In) (hi : i.ready = true) : Fast l (n + 1) (s.step l i) := by
  obtain ⟨w1, w2, w3⟩ := width l hl
  obtain ⟨h1, h2, h3⟩ := h
  refine ⟨?_, ?_, ?_⟩
  · show ((if s.pop i then s.fifo.tail else s.fifo) ++ (if s.fifo.length ≠ 2 ^ addrWidth l then (s.pipe.getLastD none).toList else [])).length ≤ 1
    have a1 : (if s.pop i then s.fifo.tail else s.fifo).length = 0 := by
      unfold St.pop
      rw [hi]
      cases hf : s.fifo with
      | nil => simp
      | cons y ys =>
        rw [hf] at h1
        simp only [List.length_cons] at h1
        simp
        exact List.eq_nil_of_length_eq_zero (by omega)
    have a2 : (if s.fifo.length ≠ 2 ^ addrWidth l then (s.pipe.getLastD none).toList else []).length ≤ 1 := by
      split
      · cases s.pipe.getLastD none <;> simp
      · simp
    rw [List.length_append]
    omega
  · show decide (s.fifo.length ≥ 2 ^ (addrWidth l - 1)) = false
    rw [decide_eq_false_iff_not]
    omega
  · show s.rdy.tail ++ [!s.half] = _
    rw [h2, h3]
    by_cases hn : n < l
    · rw [show l - n = (l - (n + 1)) + 1 by omega, List.replicate_succ, List.cons_append, List.tail_cons, List.append_assoc,
        show min (n + 1) l = min n l + 1 by omega, List.replicate_succ']
      rfl
    · rw [show l - n = 0 by omega, show l - (n + 1) = 0 by omega, show min n l = (l - 1) + 1 by omega,
        show min (n + 1) l = (l - 1) + 1 by omega]
      simp only [List.replicate_zero, List.nil_append]
      conv => rhs; rw [List.replicate_succ']
      rw [List.replicate_succ, List.tail_cons]
      rfl

theorem Fast_run {l : Nat} (hl : 0 < l) : ∀ (is : List In) (n : Nat) (x : St × Mon), Fast l n x.1 → (∀ i ∈ is, i.ready = true) →
    Fast l (n + is.length) (run l x is).1
  | [], _, _, h, _ => h
  | i :: is, n, x, h, hi => by
    have := Fast_run hl is (n + 1)
      (x.1.step l i, { ins := if i.valid && x.1.ready then x.2.ins ++ [i.data] else x.2.ins
                       outs := if i.ready then x.2.outs ++ x.1.out.toList else x.2.outs })
      (Fast_step hl h i (hi i (List.mem_cons_self ..))) (fun j hj => hi j (List.mem_cons_of_mem _ hj))
    rw [show n + 1 + is.length = n + (i :: is).length by simp; omega] at this
    exact this

/-- C151. With an output that is always ready the input is ready in every cycle from cycle `l` on: one transfer per cycle. -/
theorem C151_rate (l : Nat) (hl : 0 < l) (is : List In) (hi : ∀ i ∈ is, i.ready = true) (hn : l ≤ is.length) :
    (run l (.init l, ⟨[], []⟩) is).1.ready = true := by
  have h := Fast_run hl is 0 (.init l, ⟨[], []⟩) ⟨by simp [St.init], rfl, by simp [St.init]⟩ hi
  unfold St.ready
  rw [h.rdy, show l - (0 + is.length) = 0 by omega, show min (0 + is.length) l = (l - 1) + 1 by omega, List.replicate_succ]
  rfl

/-- cycles without input in which the output is ready -/
theorem empty_pipe (l : Nat) : ∀ (js : List In) (x : St × Mon) (k : Nat), (∀ j ∈ js, j.valid = false) →
    (x.1.pipe.take k = List.replicate k none) → x.1.pipe.length = l → k + js.length ≤ l →
    (run l x js).1.pipe.take (k + js.length) = List.replicate (k + js.length) none
  | [], _, _, _, h, _, _ => h
  | j :: js, x, k, hj, h, hl, hk => by
    simp only [List.length_cons] at hk ⊢
    have hv := hj j (List.mem_cons_self ..)
    have ht : (x.1.step l j).pipe = none :: x.1.pipe.dropLast := by simp [St.step, St.taken, hv]
    have := empty_pipe l js (x.1.step l j, { ins := if j.valid && x.1.ready then x.2.ins ++ [j.data] else x.2.ins
                                             outs := if j.ready then x.2.outs ++ x.1.out.toList else x.2.outs }) (k + 1)
      (fun i hi => hj i (List.mem_cons_of_mem _ hi))
      (by
        dsimp only
        rw [ht, List.take_succ_cons, List.replicate_succ, ← h, List.dropLast_eq_take, List.take_take, show min k (x.1.pipe.length - 1) = k by omega])
      (by dsimp only; rw [ht]; simp; omega) (by omega)
    rw [show k + (js.length + 1) = k + 1 + js.length by omega]
    exact this

theorem stay_empty (l : Nat) (hl : 0 < l) : ∀ (js : List In) (x : St × Mon), (∀ j ∈ js, j.valid = false ∧ j.ready = true) →
    x.1.pipe = List.replicate l none → x.1.fifo.length < js.length →
    (run l x js).1.pipe = List.replicate l none ∧ (run l x js).1.fifo = [] ∧ (run l x js).1.out = none
  | [], _, _, _, h => absurd h (Nat.not_lt_zero _)
  | j :: js, x, hj, hp, hf => by
    obtain ⟨hv, hr⟩ := hj j (List.mem_cons_self ..)
    obtain ⟨n, rfl⟩ : ∃ n, l = n + 1 := ⟨l - 1, by omega⟩
    have ht : (x.1.step (n + 1) j).pipe = List.replicate (n + 1) none := by
      have : (x.1.step (n + 1) j).pipe = none :: x.1.pipe.dropLast := by simp [St.step, St.taken, hv]
      rw [this, hp, List.replicate_succ', List.dropLast_concat, ← List.replicate_succ, ← List.replicate_succ']
    have hlast : x.1.pipe.getLastD none = none := by
      rw [hp, List.replicate_succ']
      simp
    have hq : (x.1.step (n + 1) j).fifo = x.1.fifo.tail ∧ (x.1.step (n + 1) j).out = x.1.fifo.head? := by
      have e : (x.1.step (n + 1) j).fifo = (if x.1.pop j then x.1.fifo.tail else x.1.fifo) ++
          (if x.1.fifo.length ≠ 2 ^ addrWidth (n + 1) then (x.1.pipe.getLastD none).toList else []) := rfl
      have e' : (x.1.step (n + 1) j).out = if x.1.pop j then x.1.fifo.head? else if j.ready then none else x.1.out := rfl
      have hpop : x.1.pop j = !x.1.fifo.isEmpty := by simp [St.pop, hr]
      rw [e, e', hlast, hpop, hr]
      cases x.1.fifo <;> simp
    match js, hf with
    | [], hf =>
      simp only [List.length_cons, List.length_nil] at hf
      have h0 : x.1.fifo = [] := List.eq_nil_of_length_eq_zero (by omega)
      rw [h0] at hq
      exact ⟨ht, hq.1, hq.2⟩
    | k :: js, hf =>
      exact stay_empty (n + 1) hl (k :: js) _ (fun i hi => hj i (List.mem_cons_of_mem _ hi)) ht (by
        dsimp only
        rw [hq.1, List.length_tail]
        simp only [List.length_cons] at hf ⊢
        omega)

theorem run_append (l : Nat) : ∀ (is js : List In) (x : St × Mon), run l x (is ++ js) = run l (run l x is) js
  | [], _, _ => rfl
  | i :: is, js, x => by
    rw [List.cons_append, run, run, run_append l is js]

/-- C151. After any history, `l + 2 ^ A + 1` cycles without input in which the output is ready, where `2 ^ A` is the size of the FIFO, put out
everything taken. -/
theorem C151_drained (l : Nat) (hl : 0 < l) (is js : List In) (hj : ∀ j ∈ js, j.valid = false ∧ j.ready = true)
    (hn : js.length = l + 2 ^ addrWidth l + 1) :
    let x := run l (.init l, ⟨[], []⟩) (is ++ js)
    x.2.outs = x.2.ins ∧ x.2.ins = (run l (.init l, ⟨[], []⟩) is).2.ins := by
  obtain ⟨js1, js2, rfl, h1⟩ : ∃ js1 js2, js = js1 ++ js2 ∧ js1.length = l :=
    ⟨js.take l, js.drop l, (List.take_append_drop ..).symm, by rw [List.length_take, hn]; exact Nat.min_eq_left (Nat.le_trans (Nat.le_add_right _ _) (Nat.le_succ _))⟩
  have hA := Inv_run hl is (.init l, ⟨[], []⟩) (Inv_init l)
  have hB := Inv_run hl (is ++ js1) (.init l, ⟨[], []⟩) (Inv_init l)
  have hC := Inv_run hl (is ++ (js1 ++ js2)) (.init l, ⟨[], []⟩) (Inv_init l)
  obtain ⟨w1, w2, w3⟩ := width l hl
  have hp : (run l (.init l, ⟨[], []⟩) (is ++ js1)).1.pipe = List.replicate l none := by
    have := empty_pipe l js1 (run l (.init l, ⟨[], []⟩) is) 0 (fun j h => (hj j (List.mem_append_left _ h)).1) rfl hA.pipe (by omega)
    rw [← run_append, Nat.zero_add, h1] at this
    rw [← this, List.take_of_length_le (by rw [hB.pipe]; exact Nat.le_refl _)]
  have hf : (run l (.init l, ⟨[], []⟩) (is ++ js1)).1.fifo.length < js2.length := by
    rw [List.length_append] at hn
    cases hh : (run l (.init l, ⟨[], []⟩) (is ++ js1)).1.half
    · have := hB.low hh
      omega
    · have := hB.high hh
      omega
  obtain ⟨e1, e2, e3⟩ := stay_empty l hl js2 _ (fun j h => hj j (List.mem_append_right _ h)) hp hf
  rw [← run_append, List.append_assoc] at e1 e2 e3
  have hd := hC.data
  have hi := (Inv_init l).data
  simp only [St.init, Option.toList, List.append_nil, List.nil_append] at hi
  rw [e1, e2, e3, ← hi] at hd
  have hins : ∀ (js : List In) (x : St × Mon), (∀ j ∈ js, j.valid = false) → (run l x js).2.ins = x.2.ins := by
    intro js
    induction js with
    | nil => exact fun _ _ => rfl
    | cons j js ih =>
      intro x h
      rw [run, ih _ (fun i hi => h i (List.mem_cons_of_mem _ hi))]
      simp [h j (List.mem_cons_self ..)]
  refine ⟨by simpa using hd.symm, ?_⟩
  rw [run_append]
  exact hins _ _ (fun j h => (hj j h).1)

theorem offer (l : Nat) (hl0 : 0 < l) : ∀ (js : List In) (x : St × Mon), (∀ j ∈ js, j.ready = false) → x.1.pipe.length = l →
    (x.1.out.isSome = true ∨ (x.1.fifo ≠ [] ∧ 1 ≤ js.length) ∨ ∃ (k v : Nat), x.1.pipe[k]? = some (some v) ∧ l - k + 1 ≤ js.length) →
    (run l x js).1.out.isSome = true
  | [], x, _, _, h => by
    rcases h with h | ⟨_, h⟩ | ⟨_, _, _, h⟩
    · exact h
    · exact absurd h (by simp)
    · exact absurd h (by simp)
  | j :: js, x, hj, hl, h => by
    have hr := hj j (List.mem_cons_self ..)
    have eo : (x.1.step l j).out = if x.1.pop j then x.1.fifo.head? else if j.ready then none else x.1.out := rfl
    have ef : (x.1.step l j).fifo = (if x.1.pop j then x.1.fifo.tail else x.1.fifo) ++
      (if x.1.fifo.length ≠ 2 ^ addrWidth l then (x.1.pipe.getLastD none).toList else []) := rfl
    have ep : (x.1.step l j).pipe = x.1.taken j :: x.1.pipe.dropLast := rfl
    have hpop : x.1.pop j = (!x.1.fifo.isEmpty && x.1.out.isNone) := by simp [St.pop, hr]
    have hsome : (x.1.out.isSome = true ∨ x.1.fifo ≠ []) → (x.1.step l j).out.isSome = true := by
      intro h
      rw [eo, hpop, hr]
      obtain ⟨o, ho⟩ : ∃ o, x.1.out = o := ⟨_, rfl⟩
      obtain ⟨f, hf⟩ : ∃ f, x.1.fifo = f := ⟨_, rfl⟩
      rw [ho, hf] at h
      rw [ho, hf]
      cases o <;> cases f
      · rcases h with h | h
        · cases h
        · exact absurd rfl h
      all_goals rfl
    refine offer l hl0 js (x.1.step l j, { ins := if j.valid && x.1.ready then x.2.ins ++ [j.data] else x.2.ins
                                           outs := if j.ready then x.2.outs ++ x.1.out.toList else x.2.outs })
      (fun i hi => hj i (List.mem_cons_of_mem _ hi)) ?_ ?_
    · dsimp only
      rw [ep, List.length_cons, List.length_dropLast]
      omega
    · by_cases hq : x.1.out.isSome = true ∨ x.1.fifo ≠ []
      · exact .inl (hsome hq)
      · rcases h with h | ⟨h, _⟩ | ⟨k, v, h, hk⟩
        · exact absurd (.inl h) hq
        · exact absurd (.inr h) hq
        · right
          have hf : x.1.fifo = [] := by
            cases hc : x.1.fifo with
            | nil => rfl
            | cons a b => exact absurd (.inr (by rw [hc]; simp)) hq
          have hkl : k < l := by
            rw [← hl]
            exact (List.getElem?_eq_some_iff.1 h).1
          simp only [List.length_cons] at hk
          by_cases hlast : k + 1 = l
          · left
            refine ⟨?_, by omega⟩
            have hg : x.1.pipe.getLastD none = some v := by
              rw [List.getLastD_eq_getLast?, List.getLast?_eq_getElem?, hl, show l - 1 = k by omega, h]
              rfl
            dsimp only
            have hz : ([] : List Nat).length ≠ 2 ^ addrWidth l := by
              have : 0 < 2 ^ addrWidth l := Nat.pow_pos (by omega)
              exact Nat.ne_of_lt this
            rw [ef, hg, hf, if_pos hz]
            exact fun hc => by simpa using (List.append_eq_nil_iff.1 hc).2
          · right
            refine ⟨k + 1, v, ?_, by omega⟩
            dsimp only
            rw [ep, List.getElem?_cons_succ, List.getElem?_dropLast, if_pos (by omega), h]

/-- C151. A transfer is offered without waiting for the output to be ready: after any history that has taken more than it has put out, and `l + 1`
further cycles without ready, the output is valid. -/
theorem C151_offered (l : Nat) (hl : 0 < l) (is js : List In)
    (h : (run l (.init l, ⟨[], []⟩) is).2.ins ≠ (run l (.init l, ⟨[], []⟩) is).2.outs)
    (hj : ∀ j ∈ js, j.ready = false) (hn : l + 1 ≤ js.length) :
    (run l (run l (.init l, ⟨[], []⟩) is) js).1.out.isSome = true := by
  have hI := Inv_run hl is (.init l, ⟨[], []⟩) (Inv_init l)
  generalize run l (.init l, ⟨[], []⟩) is = x at *
  refine offer l hl js x hj hI.pipe ?_
  by_cases h1 : x.1.out.isSome = true
  · exact .inl h1
  · by_cases h2 : x.1.fifo = []
    · have h1' : x.1.out = none := by simpa using h1
      have hd := hI.data
      rw [h1', h2] at hd
      simp only [Option.toList, List.append_nil] at hd
      cases hc : inPipe x.1.pipe with
      | nil => rw [hc, List.append_nil] at hd; exact absurd hd h
      | cons v vs =>
        have hm : v ∈ inPipe x.1.pipe := by rw [hc]; exact List.mem_cons_self ..
        have hm' : some v ∈ x.1.pipe := by simpa [inPipe] using hm
        obtain ⟨k, hk⟩ := List.mem_iff_getElem?.1 hm'
        exact .inr (.inr ⟨k, v, hk, by omega⟩)
    · exact .inr (.inl ⟨h2, by omega⟩)

/-- a case: one transfer taken, then three cycles without ready -/
example :
    let x := run 2 (.init 2, ⟨[], []⟩) [⟨false, 0, true⟩, ⟨false, 0, true⟩, ⟨true, 7, true⟩]
    x.2.ins = [7] ∧ x.2.outs = [] ∧ (run 2 x (List.replicate 3 ⟨false, 0, false⟩)).1.out = some 7 := by decide +kernel

/-- a case: two stages, the output stalled for 31 cycles; the FIFO goes beyond half, and everything comes out in order -/
example :
    let x := run 2 (.init 2, ⟨[], []⟩) ((List.range 40).map fun n => ⟨true, n, decide (n > 30)⟩)
    x.2.ins = List.range' 2 14 ∧ x.2.outs = List.range' 2 9 ∧ x.1.fifo = [12, 13, 14, 15] ∧ x.1.out = some 11 := by decide +kernel

/-- a case for `C151_room`: the FIFO is half full and a transfer leaves the pipeline -/
example :
    let x := run 2 (.init 2, ⟨[], []⟩) ((List.range 15).map fun n => ⟨true, n, false⟩)
    x.1.pipe.getLast? = some (some 13) ∧ x.1.fifo.length = 10 ∧ x.1.half = true := by decide +kernel

/-- a case for `C151_drained`: one stage, ten transfers taken during a stall, then ten cycles -/
example :
    let x := run 1 (.init 1, ⟨[], []⟩) ((List.range 20).map (fun n => ⟨true, n, false⟩) ++ List.replicate (1 + 2 ^ addrWidth 1 + 1) ⟨false, 0, true⟩)
    x.2.outs = x.2.ins ∧ x.2.ins.length = 8 := by decide +kernel

end Corundum.PipeFifo
