import Verif.Proof.PcieLinkOrder

/-! C121: nothing is lost or sent twice on a link.  C122: order and time.  C123: connecting ports. -/
namespace Corundum.PcieLink

/-! ### C121 -/

/-- C121: at any time, what the other port was given are packets sent, each as often as it was sent at most. -/
theorem C121_no_duplicates {c : Cfg} (hser : ∀ p, 1 ≤ c.ser p) (es : List Ev) :
    ∃ rest, ((run c es).out.map Prod.snd ++ rest).Perm ((sent c es).map Prod.snd) := by
  have := (inv_run (c := c) hser es).perm
  rw [List.append_assoc] at this
  exact ⟨_, this⟩

/-- C121: a packet does not arrive earlier than the time on the wire and the delay of the link after it was sent. -/
theorem C121_not_early {c : Cfg} (hser : ∀ p, 1 ≤ c.ser p) (es : List Ev) {t : Nat} {p : Pkt} (h : (t, p) ∈ (run c es).out) :
    ∃ u, (u, p) ∈ sent c es ∧ u + c.ser p + c.link ≤ t :=
  (inv_run (c := c) hser es).out t p h

/-- C121: all has arrived when a single wire would have carried it, whatever calls of `send` overlapped. -/
theorem C121_in_time {c : Cfg} (hser : ∀ p, 1 ≤ c.ser p) (es : List Ev) (h : free c.ser 0 (sent c es) + c.link < (run c es).now) :
    ((run c es).out.map Prod.snd).Perm ((sent c es).map Prod.snd) :=
  ((inv_run (c := c) hser es).done h).2.2

/-- C121: something can always go on, and however it goes on, without further calls all arrives after finitely many events. -/
theorem C121_in_the_end {c : Cfg} (hser : ∀ p, 1 ≤ c.ser p) (pre : List Ev) :
    (∃ e, (run c pre).Can e) ∧
    ∃ n, ∀ es, Takes c (run c pre) es → n ≤ es.length → ((run c (pre ++ es)).out.map Prod.snd).Perm ((sent c pre).map Prod.snd) := by
  refine ⟨can_some _, (run c pre).weight + (free c.ser 0 (sent c pre) + c.link + 1 - (run c pre).now), fun es ht hn => ?_⟩
  obtain ⟨h1, h2⟩ := takes_run hser es pre ht
  have := ((inv_run (c := c) hser (pre ++ es)).idle (h2 hn)).2
  rw [h1] at this
  exact this

/-- a link of generation 3 with 16 lanes, as between two ports with nothing changed -/
def wide : Cfg := ⟨serial 3 16, 10⟩

theorem serial_pos {speed width : Nat} (h1 : 1 ≤ speed) (h3 : speed ≤ 3) (hw : 1 ≤ width) (h16 : width ≤ 16) (p : Pkt) : 1 ≤ serial speed width p := by
  have hs : 24 ≤ p.wireSize := by
    unfold Pkt.wireSize Pkt.size
    split
    · omega
    · split
      · omega
      · split <;> omega
  unfold serial
  have hr : speed = 1 ∨ speed = 2 ∨ speed = 3 := by omega
  rcases hr with rfl | rfl | rfl <;> simp only [genRate] <;> simp <;> rw [Nat.le_div_iff_mul_le (by omega)] <;> omega

theorem wide_pos (p : Pkt) : 1 ≤ wide.ser p := serial_pos (by decide) (by decide) (by decide) (by decide) p

/-- a write of 32 dwords -/
def long : Pkt := ⟨2, List.replicate 32 0, 1⟩

/-- a read request -/
def short : Pkt := ⟨0, [], 2⟩

/-- both sent, the second call while the first is in progress, and run to the end -/
def race : List Ev :=
  [.send long, .send short, .run 0, .run 0, .run 0, .run 0, .tick, .run 1, .run 1] ++ List.replicate 8 .tick ++ [.run 0, .run 1, .tick, .tick, .run 0] ++
    List.replicate 8 .tick ++ [.run 0] ++ List.replicate 2 .tick

example : sent wide race = [(0, long), (0, short)] ∧ (run wide race).now = 21 ∧ free wide.ser 0 (sent wide race) + wide.link = 20 := by decide +kernel

/-! ### C122 -/

/-- C122: as long as no call of `send` begins while another is in progress, packets arrive in the order they were sent, each at the time at which a wire
that carries one packet at a time, as early as it can, would deliver it. -/
theorem C122_order {c : Cfg} (hser : ∀ p, 1 ≤ c.ser p) {es : List Ev} (ho : OneAtATime c es) :
    (run c es).out <+: wire c.ser c.link 0 (sent c es) ∧
    ∀ x ∈ wire c.ser c.link 0 (sent c es), x.1 < (run c es).now → x ∈ (run c es).out :=
  ord_out (inv_run hser es) (ord_run hser es ho)

theorem flag_sent (c : Cfg) (es : List Ev) : ∀ t, (t, Job.flag) ∈ (run c es).jobs → ∃ p, (t, p) ∈ sent c es := by
  suffices ∀ n (es : List Ev), es.length = n → ∀ t, (t, Job.flag) ∈ (run c es).jobs → ∃ p, (t, p) ∈ sent c es from this _ es rfl
  intro n
  induction n with
  | zero =>
    intro es he
    rw [List.length_eq_zero_iff.1 he]
    intro t ht
    simp [run] at ht
  | succ n ih =>
    intro es he
    have hne : es ≠ [] := by intro h; simp [h] at he
    rw [← List.dropLast_concat_getLast hne]
    have h := ih es.dropLast (by simp [he])
    generalize es.getLast hne = e
    generalize es.dropLast = es' at h
    rw [run_snoc, sent_snoc]
    intro t ht
    cases e with
    | send p =>
      simp only [St.step, St.send] at ht
      split at ht
      · obtain ⟨q, hq⟩ := h t ht
        exact ⟨q, by simp [hq]⟩
      · rcases List.mem_append.1 ht with ht | ht
        · obtain ⟨q, hq⟩ := h t ht
          exact ⟨q, by simp [hq]⟩
        · exact ⟨p, by simp at ht; simp [ht]⟩
    | run i =>
      simp only [List.append_nil]
      refine h t ?_
      simp only [St.step] at ht
      split at ht
      · rename_i u j hi
        obtain ⟨a, b, e1, e2⟩ := split_at hi
        split at ht
        · rw [e2] at ht
          have : (t, Job.flag) ∈ a ++ b := by
            cases j with
            | flag => exact ht
            | tx =>
              simp only [St.exec] at ht
              split at ht
              · simpa using ht
              · exact ht
            | wire p => simpa [St.exec] using ht
            | fly p => exact ht
          rw [e1]
          simp at this ⊢
          rcases this with this | this
          · exact Or.inl this
          · exact Or.inr (Or.inr this)
        · exact ht
      · exact ht
    | tick =>
      simp only [List.append_nil]
      refine h t ?_
      simp only [St.step] at ht
      split at ht <;> exact ht

/-- C122: it is enough that no two calls are made at the same time of the simulation. -/
theorem C122_spaced {c : Cfg} (hser : ∀ p, 1 ≤ c.ser p) {es : List Ev} (ho : ((sent c es).map Prod.fst).Pairwise (· < ·)) :
    (run c es).out <+: wire c.ser c.link 0 (sent c es) ∧
    ∀ x ∈ wire c.ser c.link 0 (sent c es), x.1 < (run c es).now → x ∈ (run c es).out := by
  refine C122_order hser ?_
  rintro pre p post rfl ⟨t, ht⟩
  obtain ⟨q, hq⟩ := flag_sent c pre t ht
  have hnow := (inv_run (c := c) hser pre).flag t ht
  have e : sent c (pre ++ .send p :: post) = sent c pre ++ ((run c pre).now, p) :: sends c post ((run c pre).step c (.send p)) := by
    unfold sent
    rw [sends_append]
    rfl
  rw [e, List.map_append, List.map_cons] at ho
  have := (List.pairwise_append.1 ho).2.2 t (List.mem_map.2 ⟨_, hq, rfl⟩) (run c pre).now (by simp)
  omega

/-- a long packet and, one after the other, two short ones -/
def spaced : List Ev :=
  [.send long, .run 0, .run 0, .tick, .send short, .tick, .send short] ++ List.replicate 7 .tick ++
    [.run 0, .run 0, .tick, .run 1, .run 1, .tick, .run 2, .run 2] ++ List.replicate 8 .tick ++ [.run 0, .tick, .run 0, .tick, .run 0, .tick]

example : ((sent wide spaced).map Prod.fst).Pairwise (· < ·) ∧ (run wide spaced).out = [(19, long), (20, short), (21, short)] := by decide +kernel

/-- C122: two calls at the same time, both before `tx_scheduled` is set: there are two transmitters, and the second packet overtakes the first. -/
theorem C122_overtake_counterexample :
    ((sent wide race).map Prod.snd = [long, short]) ∧ (run wide race).out.map Prod.snd = [short, long] := by decide +kernel

/-! ### C123 -/

/-- C123: connecting succeeds exactly when neither port is connected and they are not the same. -/
theorem C123_accepted (w : Ports) (i j : Nat) : (connect w i j).1 = true ↔ i ≠ j ∧ (w i).other = none ∧ (w j).other = none := by
  unfold connect
  cases hi : (w i).other with
  | some x => simp
  | none =>
    simp only [Option.isSome_none, Bool.false_eq_true, if_false]
    cases hj : (w j).other with
    | some x => simp [connectInt, hj]
    | none =>
      by_cases hij : i = j
      · subst hij
        simp [connectInt, hj, Ports.put]
      · simp [connectInt, hj, hi, Ports.put, hij]

/-- C123: after that the two are each other's partner and have the same speed, width and delay: the lesser of the speeds and widths, the sum of the delays;
all other ports are as before. -/
theorem C123_agree {w w' : Ports} {i j : Nat} (h : connect w i j = (true, w')) :
    (w' i).other = some j ∧ (w' j).other = some i ∧
    (∀ k, k = i ∨ k = j → (w' k).curSpeed = min (w i).maxSpeed (w j).maxSpeed ∧ (w' k).curWidth = min (w i).maxWidth (w j).maxWidth ∧
      (w' k).linkDelay = (w i).portDelay + (w j).portDelay) ∧
    ∀ k, k ≠ i → k ≠ j → w' k = w k := by
  have ha := (C123_accepted w i j).1 (by rw [h])
  obtain ⟨hij, h1, h2⟩ := ha
  have e : connect w i j = (true, ((w.put j { w j with
      other := some i
      curSpeed := min (w j).maxSpeed (w i).maxSpeed
      curWidth := min (w j).maxWidth (w i).maxWidth
      linkDelay := (w j).portDelay + (w i).portDelay }).put i { w i with
      other := some j
      curSpeed := min (w i).maxSpeed (w j).maxSpeed
      curWidth := min (w i).maxWidth (w j).maxWidth
      linkDelay := (w i).portDelay + (w j).portDelay })) := by
    simp [connect, connectInt, h1, h2, Ports.put, hij]
  rw [e] at h
  obtain ⟨_, rfl⟩ := Prod.mk.inj h
  have hji : ¬ j = i := fun h => hij h.symm
  refine ⟨by simp [Ports.put], by simp [Ports.put, hji], ?_, ?_⟩
  · rintro k (rfl | rfl)
    · simp [Ports.put]
    · simp [Ports.put, hji, Nat.min_comm, Nat.add_comm]
  · intro k hk hk'
    simp [Ports.put, hk, hk']

/-- C123: an attempt with two different ports that is refused changes nothing. -/
theorem C123_refused {w w' : Ports} {i j : Nat} (hij : i ≠ j) (h : connect w i j = (false, w')) : w' = w := by
  unfold connect at h
  split at h
  · exact (Prod.mk.inj h).2.symm
  · rename_i h1
    cases hj : (w j).other with
    | some x =>
      simp [connectInt, hj] at h
      exact h.symm
    | none =>
      have : (connect w i j).1 = true := (C123_accepted w i j).2 ⟨hij, by simpa using h1, hj⟩
      unfold connect at this
      rw [if_neg h1] at this
      rw [h] at this
      cases this

example : (connect (fun _ => {}) 0 1).1 = true ∧ ((connect (fun _ => {}) 0 1).2 1).cfg.link = 10 := by decide

/-- C123: ports of up to 16 lanes and generation 3 need some time for every packet, which C121 and C122 ask for. -/
theorem C123_takes_time {w w' : Ports} {i j : Nat} (h : connect w i j = (true, w'))
    (hs : 1 ≤ (w i).maxSpeed ∧ 1 ≤ (w j).maxSpeed ∧ (w i).maxSpeed ≤ 3) (hw : 1 ≤ (w i).maxWidth ∧ 1 ≤ (w j).maxWidth ∧ (w i).maxWidth ≤ 16) (p : Pkt) :
    1 ≤ (w' i).cfg.ser p := by
  obtain ⟨_, _, h3, _⟩ := C123_agree h
  obtain ⟨e1, e2, _⟩ := h3 i (Or.inl rfl)
  unfold Port.cfg
  rw [e1, e2]
  exact serial_pos (by omega) (by omega) (by omega) (by omega) p

/-- C123: with 16 lanes of generation 4 a packet without data takes no time at all. -/
theorem C123_no_time_counterexample : serial 4 16 short = 0 := by decide

/-- C123: a port connected with itself raises the exception, and then is connected with itself. -/
theorem C123_self_counterexample (w : Ports) (i : Nat) (h : (w i).other = none) :
    (connect w i i).1 = false ∧ ((connect w i i).2 i).other = some i := by
  simp [connect, connectInt, h, Ports.put]

end Corundum.PcieLink
