import Verif.Model.QueueMap
/-!
C43: flow steering selects the configured queue. C47: the AXI-lite indirection table is a memory.
-/
namespace Corundum.QueueMap

/-! ### C43 -/

/-- the queue a request must be steered to, given masks, direct enable and table: independent of the pipeline -/
def lookup (c : Cfg) (hmask amask : Nat → Nat) (direct : Nat → Bool) (tbl : Nat → Nat) (id dest hash : Nat) : Nat :=
  if dest.testBit (c.D - 1) = true ∧ direct id = true then dest % 2 ^ c.Q
  else tbl (id * 2 ^ c.A + ((dest &&& amask id) + (hash &&& hmask id)) % 2 ^ c.A) % 2 ^ c.Q

/-- the parameter checks and the range of the request port number -/
structure Ok (c : Cfg) (i : In) : Prop where
  hD : 0 < c.D
  hQ : c.Q < c.D
  hdest : i.dest < 2 ^ c.D
  hid : i.id < c.ports
  hcp : c.ports ≤ 2 ^ c.CP

theorem idx_eq (c : Cfg) (i : In) (h : Ok c i) : (if c.ports > 1 then i.id % 2 ^ c.CP * 2 ^ c.A else 0) = i.id * 2 ^ c.A := by
  have := h.hid
  have := h.hcp
  split
  · rw [Nat.mod_eq_of_lt (by omega)]
  · have : i.id = 0 := by omega
    rw [this]; simp

theorem d1_bit (c : Cfg) (i : In) (b : Bool) : (i.dest % 2 ^ (c.D - 1) + (if i.dest.testBit (c.D - 1) && b then 2 ^ (c.D - 1) else 0)).testBit (c.D - 1) =
    (i.dest.testBit (c.D - 1) && b) := by
  have hlt : i.dest % 2 ^ (c.D - 1) < 2 ^ (c.D - 1) := Nat.mod_lt _ (Nat.two_pow_pos _)
  by_cases h : (i.dest.testBit (c.D - 1) && b) = true
  · rw [if_pos h, h, Nat.add_comm, Nat.testBit_two_pow_add_eq, Nat.testBit_lt_two_pow hlt]; rfl
  · rw [if_neg h, Nat.add_zero, Nat.testBit_lt_two_pow hlt]
    simpa using h

theorem d1_mod (c : Cfg) (i : In) (h : Ok c i) (b : Bool) :
    (i.dest % 2 ^ (c.D - 1) + (if i.dest.testBit (c.D - 1) && b then 2 ^ (c.D - 1) else 0)) % 2 ^ c.Q = i.dest % 2 ^ c.Q := by
  have hq := h.hQ
  have hd : 2 ^ c.Q ∣ 2 ^ (c.D - 1) := Nat.pow_dvd_pow 2 (by omega)
  rw [Nat.add_mod, Nat.mod_mod_of_dvd _ hd]
  split
  · rw [Nat.mod_eq_zero_of_dvd hd]; simp
  · simp

/-- **C43** A request presented in any state leaves three cycles later with its tag, steered by the masks of that cycle and the
table content one cycle later, whatever else happens (other requests, register and table writes) in those cycles. -/
theorem C43_lookup (c : Cfg) (s : St) (i1 i2 i3 : In) (h : Ok c i1) (r1 : i1.rst = false) (r2 : i2.rst = false) (r3 : i3.rst = false) :
    let s3 := step c (step c (step c s i1) i2) i3
    s3.respV = i1.valid ∧ s3.respT = i1.tag ∧
      s3.respQ = lookup c s.hmask s.amask s.direct (step c s i1).tbl i1.id i1.dest i1.hash := by
  simp only [step, r1, r2, r3, Bool.false_eq_true, if_false]
  refine ⟨trivial, trivial, ?_⟩
  rw [d1_bit, d1_mod c i1 h, idx_eq c i1 h]
  unfold lookup
  simp only [Bool.and_eq_true]
  split
  · rfl
  · rw [Nat.add_comm]

/-- **C43** The table entry consulted lies in the block of the requesting port (and so inside the table). -/
theorem C43_block (c : Cfg) (s : St) (i : In) (h : Ok c i) (r : i.rst = false) :
    i.id * 2 ^ c.A ≤ (step c s i).idx ∧ (step c s i).idx < (i.id + 1) * 2 ^ c.A ∧ (step c s i).idx < 2 ^ (c.CP + c.A) := by
  simp only [step, r, Bool.false_eq_true, if_false]
  rw [idx_eq c i h, Nat.add_mul]
  have := Nat.mod_lt ((i.dest &&& s.amask i.id) + (i.hash &&& s.hmask i.id)) (Nat.two_pow_pos c.A)
  have h1 : (i.id + 1) * 2 ^ c.A ≤ 2 ^ c.CP * 2 ^ c.A := Nat.mul_le_mul_right _ (by have := h.hid; have := h.hcp; omega)
  rw [Nat.add_mul] at h1
  rw [Nat.pow_add]
  omega

/-- no configuration or table write and no reset in this cycle -/
def Quiet (i : In) : Prop := i.rst = false ∧ i.wrEn = false ∧ i.awvalid = false

theorem quiet_cfg (c : Cfg) (s : St) (i : In) (h : Quiet i) :
    (step c s i).hmask = s.hmask ∧ (step c s i).amask = s.amask ∧ (step c s i).direct = s.direct ∧ (step c s i).tbl = s.tbl := by
  obtain ⟨a, b, d⟩ := h
  simp [step, a, wr, b, memWr, writeEligible, d]

/-- the two responses in flight: second stage, then first stage -/
def pend (c : Cfg) (s : St) : List (Nat × Nat) :=
  (if s.v2 then [(s.t2, if s.d2.testBit (c.D - 1) then s.d2 % 2 ^ c.Q else s.queue)] else []) ++
  (if s.v1 then [(s.t1, if s.d1.testBit (c.D - 1) then s.d1 % 2 ^ c.Q else s.tbl s.idx % 2 ^ c.Q)] else [])

/-- requests steered by the (fixed) configuration `s` -/
def want (c : Cfg) (s : St) (is : List In) : List (Nat × Nat) :=
  (is.filter (·.valid)).map (fun i => (i.tag, lookup c s.hmask s.amask s.direct s.tbl i.id i.dest i.hash))

theorem stream_inv (c : Cfg) : ∀ (is : List In) (s : St), (∀ i ∈ is, Quiet i ∧ (i.valid = true → Ok c i)) →
    outs c s is ++ pend c (run c s is) = pend c s ++ want c s is := by
  intro is
  induction is with
  | nil => intro s _; simp [outs, run, want]
  | cons i is ih =>
    intro s h
    obtain ⟨hq, hok⟩ := h i (by simp)
    have ih' := ih (step c s i) (fun j hj => h j (by simp [hj]))
    have e : run c s (i :: is) = run c (step c s i) is := rfl
    rw [outs, e, List.append_assoc, ih']
    obtain ⟨q1, q2, q3, q4⟩ := quiet_cfg c s i hq
    have hw : want c (step c s i) is = want c s is := by unfold want; rw [q1, q2, q3, q4]
    rw [hw]
    have hc : want c s (i :: is) = (if i.valid then [(i.tag, lookup c s.hmask s.amask s.direct s.tbl i.id i.dest i.hash)] else []) ++ want c s is := by
      unfold want
      cases hv : i.valid <;> simp [hv]
    rw [hc, ← List.append_assoc, ← List.append_assoc]
    congr 1
    have hr := hq.1
    have hp : pend c (step c s i) = (if s.v1 then [(s.t1, if s.d1.testBit (c.D - 1) then s.d1 % 2 ^ c.Q else s.tbl s.idx % 2 ^ c.Q)] else []) ++
        (if i.valid then [(i.tag, lookup c s.hmask s.amask s.direct s.tbl i.id i.dest i.hash)] else []) := by
      unfold pend
      rw [q4]
      simp only [step, hr, Bool.false_eq_true, if_false]
      congr 1
      cases hv : i.valid
      · rfl
      · have ho := hok hv
        simp only [if_true]
        rw [d1_bit, d1_mod c i ho, idx_eq c i ho]
        unfold lookup
        simp only [Bool.and_eq_true]
        rw [Nat.add_comm (_ % 2 ^ c.A)]
    have ho : (if (step c s i).respV then [((step c s i).respT, (step c s i).respQ)] else []) =
        (if s.v2 then [(s.t2, if s.d2.testBit (c.D - 1) then s.d2 % 2 ^ c.Q else s.queue)] else []) := by
      simp only [step, hr, Bool.false_eq_true, if_false]
    rw [hp, ho]
    unfold pend
    simp only [List.append_assoc]

theorem outs_append (c : Cfg) : ∀ (a b : List In) (s : St), outs c s (a ++ b) = outs c s a ++ outs c (run c s a) b := by
  intro a
  induction a with
  | nil => intro b s; rfl
  | cons i a ih =>
    intro b s
    simp only [List.cons_append, outs]
    rw [ih, List.append_assoc]
    rfl

/-- **C43** With the configuration unchanged, the responses to any stream of requests (any spacing, any ports) are exactly the steered requests, in
order and with their tags, once the pipeline (two idle cycles) has drained. -/
theorem C43_stream (c : Cfg) (s : St) (is : List In) (h : ∀ i ∈ is, Quiet i ∧ (i.valid = true → Ok c i)) (h1 : s.v1 = false) (h2 : s.v2 = false)
    (e1 e2 : In) (he1 : Quiet e1 ∧ e1.valid = false) (he2 : Quiet e2 ∧ e2.valid = false) :
    outs c s (is ++ [e1, e2]) =
      (is.filter (·.valid)).map (fun i => (i.tag, lookup c s.hmask s.amask s.direct s.tbl i.id i.dest i.hash)) := by
  have hall : ∀ i ∈ is ++ [e1, e2], Quiet i ∧ (i.valid = true → Ok c i) := by
    intro i hi
    simp only [List.mem_append, List.mem_cons, List.not_mem_nil, or_false] at hi
    rcases hi with hi | hi | hi
    · exact h i hi
    · subst hi; exact ⟨he1.1, fun hv => by rw [he1.2] at hv; exact absurd hv (by simp)⟩
    · subst hi; exact ⟨he2.1, fun hv => by rw [he2.2] at hv; exact absurd hv (by simp)⟩
  have := stream_inv c (is ++ [e1, e2]) s hall
  have hp0 : pend c s = [] := by simp [pend, h1, h2]
  have hp1 : pend c (run c s (is ++ [e1, e2])) = [] := by
    have : run c s (is ++ [e1, e2]) = step c (step c (run c s is) e1) e2 := by simp [run, List.foldl_append]
    rw [this]
    simp [pend, step, he1.1.1, he2.1.1, he1.2, he2.2]
  rw [hp0, hp1, List.append_nil, List.nil_append] at this
  rw [this]
  unfold want
  rw [List.filter_append]
  simp [he1.2, he2.2]

/-- **C43** Two requests of one port whose masked hash and masked destination agree (in particular: same hash, same destination) go to the same queue,
unless one of them asks for direct steering. -/
theorem C43_same_flow (c : Cfg) (hm am : Nat → Nat) (dr : Nat → Bool) (tbl : Nat → Nat) (id d d' h h' : Nat)
    (hh : h &&& hm id = h' &&& hm id) (hd : d &&& am id = d' &&& am id) (n1 : ¬ (d.testBit (c.D - 1) = true ∧ dr id = true))
    (n2 : ¬ (d'.testBit (c.D - 1) = true ∧ dr id = true)) : lookup c hm am dr tbl id d h = lookup c hm am dr tbl id d' h' := by
  unfold lookup
  rw [if_neg n1, if_neg n2, hh, hd]

/-- **C43** If every entry of the port's block of the table holds a queue of the set `P`, then every response is a queue of `P` or the directly requested one. -/
theorem C43_configured (c : Cfg) (hm am : Nat → Nat) (dr : Nat → Bool) (tbl : Nat → Nat) (P : Nat → Prop) (id d h : Nat)
    (ht : ∀ j, j < 2 ^ c.A → P (tbl (id * 2 ^ c.A + j) % 2 ^ c.Q)) :
    P (lookup c hm am dr tbl id d h) ∨ (lookup c hm am dr tbl id d h = d % 2 ^ c.Q ∧ dr id = true) := by
  unfold lookup
  split
  · next h => exact Or.inr ⟨rfl, h.2⟩
  · exact Or.inl (ht _ (Nat.mod_lt _ (Nat.two_pow_pos _)))

/-- **C43** Writing the mask registers of port `k` (and no others) configures exactly that port. -/
theorem C43_config (c : Cfg) (s : St) (i : In) (k : Nat) (hk : k < c.ports) (hr : i.rst = false) (he : i.wrEn = true) (ha : s.ack = false) :
    (i.wrAddr = c.rbb + 0x14 + k * 16 → c.rbb % 4 = 0 → (step c s i).hmask = upd s.hmask k (i.wrData % 2 ^ c.Q) ∧ (step c s i).amask = s.amask ∧
      (step c s i).direct = s.direct ∧ (step c s i).ack = true) ∧
    (i.wrAddr = c.rbb + 0x18 + k * 16 → c.rbb % 4 = 0 → (step c s i).amask = upd s.amask k (i.wrData % 2 ^ 31 % 2 ^ c.Q) ∧
      (step c s i).direct = upd s.direct k (i.wrData.testBit 31) ∧ (step c s i).hmask = s.hmask ∧ (step c s i).ack = true) := by
  simp only [step, hr, Bool.false_eq_true, if_false, wr, he, ha, Bool.not_false, Bool.true_and, Bool.and_eq_true, decide_eq_true_eq, regHash, regApp,
    beq_iff_eq, List.any_eq_true, List.mem_range, Bool.or_eq_true]
  constructor
  · intro h h4
    refine ⟨?_, ?_, ?_, ⟨k, hk, Or.inl (by omega)⟩⟩
    · funext j
      unfold upd
      by_cases hj : j = k
      · rw [if_pos hj, if_pos ⟨by omega, by omega⟩]
      · rw [if_neg hj, if_neg (by omega)]
    · funext j; rw [if_neg (by omega)]
    · funext j; rw [if_neg (by omega)]
  · intro h h4
    refine ⟨?_, ?_, ?_, ⟨k, hk, Or.inr (by omega)⟩⟩
    · funext j
      unfold upd
      by_cases hj : j = k
      · rw [if_pos hj, if_pos ⟨by omega, by omega⟩]
      · rw [if_neg hj, if_neg (by omega)]
    · funext j
      unfold upd
      by_cases hj : j = k
      · rw [if_pos hj, if_pos ⟨by omega, by omega⟩]
      · rw [if_neg hj, if_neg (by omega)]
    · funext j; rw [if_neg (by omega)]

/-! ### C47 -/

/-- write accepted in this cycle (address, data) -/
def wrNow (c : Cfg) (s : St) (i : In) : List (Nat × Nat) := if memWr s.ax i && !i.rst then [(tblAddr c i.awaddr, i.wdata)] else []
/-- read accepted in this cycle: value it must return -/
def rdNow (c : Cfg) (s : St) (i : In) : List Nat := if memRd s.ax i then [s.tbl (tblAddr c i.araddr)] else []

/-- write data handshakes seen by the master: both address and data taken -/
def wrTaken (c : Cfg) : St → List In → List (Nat × Nat)
  | _, [] => []
  | s, i :: is => (if s.ax.awready && i.awvalid && i.wvalid then [(tblAddr c i.awaddr, i.wdata)] else []) ++ wrTaken c (step c s i) is
/-- memory writes performed -/
def wrDone (c : Cfg) : St → List In → List (Nat × Nat)
  | _, [] => []
  | s, i :: is => wrNow c s i ++ wrDone c (step c s i) is
/-- read data handshakes seen by the master -/
def rdTaken (c : Cfg) : St → List In → List Nat
  | _, [] => []
  | s, i :: is => (if s.ax.rvalidP && i.rready then [s.ax.rdataP] else []) ++ rdTaken c (step c s i) is
/-- what the accepted reads found in the table -/
def rdDone (c : Cfg) : St → List In → List Nat
  | _, [] => []
  | s, i :: is => rdNow c s i ++ rdDone c (step c s i) is
/-- write responses taken by the master -/
def bTaken (c : Cfg) : St → List In → Nat
  | _, [] => 0
  | s, i :: is => (if s.ax.bvalid && i.bready then 1 else 0) + bTaken c (step c s i) is

def applyWrites (t : Nat → Nat) (ws : List (Nat × Nat)) : Nat → Nat := ws.foldl (fun t w => upd t w.1 w.2) t

def rdPend (a : Axil) : List Nat := (if a.rvalidP then [a.rdataP] else []) ++ (if a.rvalid then [a.rdata] else [])

/-- **C47** read data: every accepted read returns, exactly once and in order, what the table held when the read was accepted, under any back-pressure. -/
theorem C47_reads (c : Cfg) : ∀ (is : List In) (s : St), (∀ i ∈ is, i.rst = false) →
    rdTaken c s is ++ rdPend (run c s is).ax = rdPend s.ax ++ rdDone c s is := by
  intro is
  induction is with
  | nil => intro s _; simp [rdTaken, rdDone, run]
  | cons i is ih =>
    intro s h
    have hr := h i (by simp)
    have ih' := ih (step c s i) (fun j hj => h j (by simp [hj]))
    have e : run c s (i :: is) = run c (step c s i) is := rfl
    rw [rdTaken, rdDone, e, List.append_assoc, ih', ← List.append_assoc, ← List.append_assoc]
    congr 1
    simp only [step, hr, Bool.false_eq_true, if_false, rdPend, axilStep, rdNow]
    have hm : memRd s.ax i = true → i.rready = true ∨ s.ax.rvalidP = false := by
      intro hm
      simp only [memRd, readEligible, Bool.and_eq_true, Bool.or_eq_true, Bool.not_eq_true'] at hm
      rcases hm.2.1.2 with (h | h) | h
      · exact Or.inr h
      · exact Or.inl h
      · exact Or.inr h
    cases hb : memRd s.ax i <;> cases hp : s.ax.rvalidP <;> cases hv : s.ax.rvalid <;> cases hy : i.rready <;> simp_all

/-- **C47** write responses: one per accepted write. -/
theorem C47_responses (c : Cfg) : ∀ (is : List In) (s : St), (∀ i ∈ is, i.rst = false) →
    bTaken c s is + (run c s is).ax.bvalid.toNat = s.ax.bvalid.toNat + (wrDone c s is).length := by
  intro is
  induction is with
  | nil => intro s _; simp [bTaken, wrDone, run]
  | cons i is ih =>
    intro s h
    have hr := h i (by simp)
    have ih' := ih (step c s i) (fun j hj => h j (by simp [hj]))
    have e : run c s (i :: is) = run c (step c s i) is := rfl
    rw [bTaken, wrDone, e, List.length_append, Nat.add_assoc, ih', ← Nat.add_assoc, ← Nat.add_assoc]
    congr 1
    simp only [step, hr, Bool.false_eq_true, if_false, axilStep, wrNow, Bool.not_false, Bool.and_true]
    have hm : memWr s.ax i = true → i.bready = true ∨ s.ax.bvalid = false := by
      intro hm
      simp only [memWr, writeEligible, Bool.and_eq_true, Bool.or_eq_true, Bool.not_eq_true'] at hm
      rcases hm.1.1.2 with h | h
      · exact Or.inr h
      · exact Or.inl h
    cases hb : memWr s.ax i <;> cases hp : s.ax.bvalid <;> cases hy : i.bready <;> simp_all

/-- **C47** the table is changed by the accepted writes, in order, and by nothing else. -/
theorem C47_table (c : Cfg) : ∀ (is : List In) (s : St), (∀ i ∈ is, i.rst = false) →
    (run c s is).tbl = applyWrites s.tbl (wrDone c s is) := by
  intro is
  induction is with
  | nil => intro s _; rfl
  | cons i is ih =>
    intro s h
    have hr := h i (by simp)
    have e : run c s (i :: is) = run c (step c s i) is := rfl
    rw [e, ih (step c s i) (fun j hj => h j (by simp [hj])), wrDone]
    unfold applyWrites
    rw [List.foldl_append]
    congr 1
    simp only [step, hr, Bool.false_eq_true, if_false, wrNow, Bool.not_false, Bool.and_true, memRd]
    by_cases hb : memWr s.ax i = true <;> simp [hb]

/-- the master keeps a write request stable until it is taken (AXI rule) -/
def Stable (c : Cfg) : St → List In → Prop
  | s, i :: j :: is => (i.awvalid = true → i.wvalid = true → s.ax.awready = false → j.awvalid = true ∧ j.wvalid = true ∧ j.awaddr = i.awaddr ∧ j.wdata = i.wdata) ∧
      Stable c (step c s i) (j :: is)
  | _, _ => True

/-- **C47** every write the master sees taken was performed exactly once, in order: the performed writes are the taken ones, plus
possibly one that is acknowledged in the next cycle. -/
theorem C47_writes (c : Cfg) : ∀ (is : List In) (s : St), (∀ i ∈ is, i.rst = false) → Stable c s is → s.ax.awready = false →
    wrDone c s is = wrTaken c s is ∨ ∃ w, wrDone c s is = wrTaken c s is ++ [w] ∧ (run c s is).ax.awready = true := by
  have key : ∀ (is : List In) (s : St), (∀ i ∈ is, i.rst = false) → Stable c s is →
      (s.ax.awready = false → wrDone c s is = wrTaken c s is ∨ ∃ w, wrDone c s is = wrTaken c s is ++ [w] ∧ (run c s is).ax.awready = true) ∧
      (∀ w, s.ax.awready = true → (∀ i ∈ is.head?, i.awvalid = true ∧ i.wvalid = true ∧ w = (tblAddr c i.awaddr, i.wdata)) →
        w :: wrDone c s is = wrTaken c s is ∨ ∃ w', w :: wrDone c s is = wrTaken c s is ++ [w'] ∧ (run c s is).ax.awready = true) := by
    intro is
    induction is with
    | nil =>
      intro s _ _
      refine ⟨fun _ => Or.inl rfl, fun w hw _ => Or.inr ⟨w, rfl, hw⟩⟩
    | cons i is ih =>
      intro s h hst
      have hr := h i (by simp)
      have hst' : Stable c (step c s i) is := by
        cases is with
        | nil => simp [Stable]
        | cons j is => exact hst.2
      obtain ⟨k1, k2⟩ := ih (step c s i) (fun j hj => h j (by simp [hj])) hst'
      have e : run c s (i :: is) = run c (step c s i) is := rfl
      have ha : (step c s i).ax.awready = memWr s.ax i := by simp [step, hr, axilStep]
      rw [e, wrDone, wrTaken]
      constructor
      · intro hn
        rw [hn]
        simp only [Bool.false_and, Bool.false_eq_true, if_false, List.nil_append]
        cases hm : memWr s.ax i
        · have : wrNow c s i = [] := by simp [wrNow, hm]
          rw [this, List.nil_append]
          exact k1 (ha.trans hm)
        · have : wrNow c s i = [(tblAddr c i.awaddr, i.wdata)] := by simp [wrNow, hm, hr]
          rw [this]
          refine k2 _ (ha.trans hm) ?_
          intro j hj
          have hv : i.awvalid = true ∧ i.wvalid = true := by
            simp only [memWr, writeEligible, Bool.and_eq_true] at hm
            exact hm.1.1.1
          cases is with
          | nil => simp at hj
          | cons j' is =>
            simp at hj
            subst hj
            obtain ⟨x1, x2, x3, x4⟩ := hst.1 hv.1 hv.2 hn
            exact ⟨x1, x2, by rw [x3, x4]⟩
      · intro w hw hi
        obtain ⟨y1, y2, y3⟩ := hi i (by simp)
        have hm : memWr s.ax i = false := by simp [memWr, writeEligible, hw]
        have : wrNow c s i = [] := by simp [wrNow, hm]
        rw [this, hw, y1, y2]
        simp only [Bool.and_self, if_true, List.nil_append, List.cons_append, y3, List.cons.injEq, true_and]
        exact k1 (ha.trans hm)
  exact fun is s h hst hn => (key is s h hst).1 hn

/-! ### examples -/

def exCfg : Cfg := { ports := 2, A := 3, Q := 4, D := 5, CP := 1, rbb := 0x100 }

example : Ok exCfg { valid := true, id := 1, dest := 0x12, hash := 0xdeadbeef, tag := 3 } :=
  ⟨by decide, by decide, by decide, by decide, by decide⟩

/-- configure port 1, fill an entry, look it up, read it back -/
def exRun : List In :=
  [{ wrEn := true, wrAddr := 0x124, wrData := 7 }, { awvalid := true, awaddr := 52, wvalid := true, wdata := 9 },
   { awvalid := true, awaddr := 52, wvalid := true, wdata := 9, bready := true }, {},
   { valid := true, id := 1, dest := 2, hash := 0xabcd, tag := 6, arvalid := true, araddr := 52, rready := true },
   { valid := true, id := 0, dest := 2, hash := 0xabcd, tag := 7, arvalid := true, araddr := 52, rready := true }, { rready := true }, {}]

example : outs exCfg init exRun = [(6, 9), (7, 0)] ∧ rdTaken exCfg init exRun = [9] ∧ wrTaken exCfg init exRun = [(13, 9)] ∧
    wrDone exCfg init exRun = [(13, 9)] := by decide

end Corundum.QueueMap
