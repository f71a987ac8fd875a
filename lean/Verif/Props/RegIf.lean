import Verif.Proof.RegIf
/-!
C146, C147: accesses through the AXI-Lite register interface.
-/
namespace Corundum.RegIf

theorem zip_take {α β : Type} : ∀ (as xs : List α) (bs ys : List β), as.length = bs.length →
    ((as ++ xs).zip (bs ++ ys)).take as.length = as.zip bs
  | [], _, [], _, _ => by simp
  | a :: as, xs, b :: bs, ys, h => by
    simp only [List.cons_append, List.zip_cons_cons, List.length_cons, List.take_succ_cons]
    rw [zip_take as xs bs ys (by simpa using h)]

theorem map_pair {γ δ α : Type} (f : γ → δ) (g : γ → α) : ∀ l : List γ, (l.map f).zip (l.map g) = l.map fun x => (f x, g x)
  | [] => rfl
  | x :: l => by simp [map_pair f g l]

/-- C146. Whatever the order and timing of addresses, data and responses on the bus: the n-th write made on the register side
has the n-th address and the n-th data (with strobes) taken from the bus; at most one address and one data word have been taken
beyond those; each write gets exactly one response, not before it is over; each write is acknowledged at most once, and no
acknowledge goes to another write. -/
theorem C146_writes (t : Nat) (is : List WIn) :
    let x := wrun t (.init, .init) is
    (x.2.over.map fun e => (e.addr, e.data)) = (x.2.aws.zip x.2.ws).take x.2.over.length ∧
      x.2.over.length ≤ x.2.aws.length ∧ x.2.aws.length ≤ x.2.over.length + 1 ∧
      x.2.over.length ≤ x.2.ws.length ∧ x.2.ws.length ≤ x.2.over.length + 1 ∧
      x.2.over.length = x.2.responses + (if x.1.bv then 1 else 0) ∧
      x.2.acks = (x.2.over.filter (·.acked)).length := by
  intro x
  have h : WInv t x.1 x.2 := WInv_run is _ (WInv_init t)
  refine ⟨?_, ?_, ?_, ?_, ?_, h.resp, h.acks⟩
  · have := zip_take (x.2.over.map (·.addr)) (if x.1.awv then [x.1.addr] else []) (x.2.over.map (·.data))
      (if x.1.wv then [x.1.data] else []) (by simp)
    rw [← h.aws, ← h.ws, List.length_map, map_pair] at this
    exact this.symm
  · rw [h.aws]; simp
  · rw [h.aws]; cases x.1.awv <;> simp
  · rw [h.ws]; simp
  · rw [h.ws]; cases x.1.wv <;> simp

/-- C146. While a write is made its address and data are those next in order, in every cycle, and no response is pending. -/
theorem C146_stable (t : Nat) (is : List WIn) (he : (wrun t (.init, .init) is).1.en = true) :
    let x := wrun t (.init, .init) is
    x.2.aws[x.2.over.length]? = some x.1.addr ∧ x.2.ws[x.2.over.length]? = some x.1.data ∧ x.1.bv = false := by
  intro x
  have h : WInv t x.1 x.2 := WInv_run is _ (WInv_init t)
  have h1 := h.en
  rw [show x.1.en = true from he] at h1
  have ha : x.1.awv = true := by revert h1; cases x.1.awv <;> simp
  have hw : x.1.wv = true := by revert h1; cases x.1.wv <;> simp
  have hb : x.1.bv = false := by revert h1; cases x.1.bv <;> simp
  refine ⟨?_, ?_, hb⟩
  · rw [h.aws, ha]; simp
  · rw [h.ws, hw]; simp

/-- C146. A write is given up only after `TIMEOUT - 1` further cycles without acknowledge and without `wait`, and none lasts
longer. -/
theorem C146_timeout (t : Nat) (is : List WIn) (e : Access (Nat × Nat)) (he : e ∈ (wrun t (.init, .init) is).2.over) :
    e.age ≤ t - 1 ∧ (e.acked = false → e.age = t - 1) :=
  (WInv_run is _ (WInv_init t)).late e he

/-- C146. The bus does not hang: from any state, if an address and data have been taken for a write not yet over, the bus
takes responses and the register side does not ask to wait, the write is over after `TIMEOUT + 1` cycles, acknowledged or not. -/
theorem C146_progress (t : Nat) (is js : List WIn) (hj : ∀ i ∈ js, i.wait = false ∧ i.bready = true) (hl : t + 1 ≤ js.length) (ht : 0 < t)
    (ha : (wrun t (.init, .init) is).2.over.length < (wrun t (.init, .init) is).2.aws.length)
    (hw : (wrun t (.init, .init) is).2.over.length < (wrun t (.init, .init) is).2.ws.length) :
    (wrun t (.init, .init) is).2.over.length < (wrun t (wrun t (.init, .init) is) js).2.over.length := by
  generalize hx : wrun t (.init, .init) is = x at *
  have h : WInv t x.1 x.2 := by rw [← hx]; exact WInv_run is _ (WInv_init t)
  have hav : x.1.awv = true := by
    rw [h.aws] at ha
    revert ha
    cases x.1.awv <;> simp
  have hwv : x.1.wv = true := by
    rw [h.ws] at hw
    revert hw
    cases x.1.wv <;> simp
  cases he : x.1.en
  · match js, hj, hl with
    | j :: js, hj, hl =>
      obtain ⟨k1, k2⟩ := WInv_idle h j he
      have hjr := (hj j (List.mem_cons_self ..)).2
      have hd : x.1.done j = false := by simp [WSt.done, he]
      have hen : (x.1.step t j).en = true := by simp [WSt.step, hd, hav, hwv, hjr]
      have hawv : (x.1.step t j).awv = true := by simp [WSt.step, hd, hav]
      have := wbusy_ends js (x.1.step t j, x.2.step x.1 j (x.1.step t j)) k1 hen
        (fun i hi => (hj i (List.mem_cons_of_mem _ hi)).1) (by
          have := k1.timer hawv
          simp only [List.length_cons] at hl
          show (x.1.step t j).timer < js.length
          omega)
      rw [k2] at this
      exact this
  · refine wbusy_ends js x h he (fun i hi => (hj i hi).1) ?_
    have := h.timer hav
    omega

/-- C147. Whatever the timing: the n-th read made on the register side has the n-th address taken from the bus, at most one
more has been taken; the bus gets, in order and each once, the data that were on the register side in the last cycle of the reads,
that is the data acknowledged for reads that are acknowledged; no read is acknowledged twice. -/
theorem C147_reads (t : Nat) (is : List RIn) :
    let x := rrun t (.init, .init) is
    x.2.over.map (·.addr) = x.2.ars.take x.2.over.length ∧ x.2.over.length ≤ x.2.ars.length ∧
      x.2.ars.length ≤ x.2.over.length + 1 ∧
      x.2.over.map (·.data) = x.2.rs ++ (if x.1.rv then [x.1.data] else []) ∧
      x.2.acks = (x.2.over.filter (·.acked)).length := by
  intro x
  have h : RInv t x.1 x.2 := RInv_run is _ (RInv_init t)
  refine ⟨?_, ?_, ?_, h.rs, h.acks⟩
  · rw [h.ars, List.take_left' (by simp)]
  · rw [h.ars]; simp
  · rw [h.ars]; cases x.1.arv <;> simp

/-- C147. While a read is made its address is the one next in order, in every cycle, and no data are pending. -/
theorem C147_stable (t : Nat) (is : List RIn) (he : (rrun t (.init, .init) is).1.en = true) :
    let x := rrun t (.init, .init) is
    x.2.ars[x.2.over.length]? = some x.1.addr ∧ x.1.rv = false := by
  intro x
  have h : RInv t x.1 x.2 := RInv_run is _ (RInv_init t)
  have h1 := h.en
  rw [show x.1.en = true from he] at h1
  have ha : x.1.arv = true := by revert h1; cases x.1.arv <;> simp
  have hb : x.1.rv = false := by revert h1; cases x.1.rv <;> simp
  refine ⟨?_, hb⟩
  rw [h.ars, ha]; simp

/-- C147. A read is given up only after `TIMEOUT - 1` further cycles without acknowledge and without `wait`, and none lasts
longer. -/
theorem C147_timeout (t : Nat) (is : List RIn) (e : Access Nat) (he : e ∈ (rrun t (.init, .init) is).2.over) :
    e.age ≤ t - 1 ∧ (e.acked = false → e.age = t - 1) :=
  (RInv_run is _ (RInv_init t)).late e he

/-- C147. The bus does not hang: from any state, if an address has been taken for a read not yet over, the bus takes data and the
register side does not ask to wait, the read is over after `TIMEOUT + 1` cycles, acknowledged or not. -/
theorem C147_progress (t : Nat) (is js : List RIn) (hj : ∀ i ∈ js, i.wait = false ∧ i.rready = true) (hl : t + 1 ≤ js.length) (ht : 0 < t)
    (ha : (rrun t (.init, .init) is).2.over.length < (rrun t (.init, .init) is).2.ars.length) :
    (rrun t (.init, .init) is).2.over.length < (rrun t (rrun t (.init, .init) is) js).2.over.length := by
  generalize hx : rrun t (.init, .init) is = x at *
  have h : RInv t x.1 x.2 := by rw [← hx]; exact RInv_run is _ (RInv_init t)
  have hav : x.1.arv = true := by
    rw [h.ars] at ha
    revert ha
    cases x.1.arv <;> simp
  cases he : x.1.en
  · match js, hj, hl with
    | j :: js, hj, hl =>
      obtain ⟨k1, k2⟩ := RInv_idle h j he
      have hjr := (hj j (List.mem_cons_self ..)).2
      have hd : x.1.done j = false := by simp [RSt.done, he]
      have hen : (x.1.step t j).en = true := by simp [RSt.step, hd, hav, hjr]
      have hawv : (x.1.step t j).arv = true := by simp [RSt.step, hd, hav]
      have := rbusy_ends js (x.1.step t j, x.2.step x.1 j (x.1.step t j)) k1 hen
        (fun i hi => (hj i (List.mem_cons_of_mem _ hi)).1) (by
          have := k1.timer hawv
          simp only [List.length_cons] at hl
          show (x.1.step t j).timer < js.length
          omega)
      rw [k2] at this
      exact this
  · refine rbusy_ends js x h he (fun i hi => (hj i hi).1) ?_
    have := h.timer hav
    omega

/-- a case: data before the address, acknowledged in the second cycle, then a second write that times out -/
example : (wrun 4 (.init, .init)
    ([⟨false, 0, true, (7, 1), true, false, false⟩, ⟨true, 16, true, (9, 15), true, false, false⟩, ⟨true, 20, false, (0, 0), true, false, false⟩,
      ⟨true, 20, true, (8, 3), true, false, true⟩, ⟨true, 20, true, (8, 3), true, false, false⟩] ++
      List.replicate 5 ⟨false, 0, false, (0, 0), true, false, false⟩)).2.over = [⟨16, (7, 1), true, 1⟩, ⟨20, (8, 3), false, 3⟩] := by
  decide +kernel

end Corundum.RegIf
