import Verif.Spec.RegIf
/-! Invariants for C146 and C147. -/
namespace Corundum.RegIf

structure WInv (t : Nat) (s : WSt) (m : WMon) : Prop where
  en : s.en = (s.awv && s.wv && !s.bv)
  aws : m.aws = m.over.map (·.addr) ++ (if s.awv then [s.addr] else [])
  ws : m.ws = m.over.map (·.data) ++ (if s.wv then [s.data] else [])
  resp : m.over.length = m.responses + (if s.bv then 1 else 0)
  timer : s.awv = true → s.timer + m.age = t - 1
  age : s.en = false → m.age = 0
  late : ∀ e ∈ m.over, e.age ≤ t - 1 ∧ (e.acked = false → e.age = t - 1)
  acks : m.acks = (m.over.filter (·.acked)).length

theorem WInv_init (t : Nat) : WInv t .init .init :=
  ⟨rfl, rfl, rfl, rfl, (fun h => by cases h), fun _ => rfl, (fun _ h => by cases h), rfl⟩

/-- a cycle in which an access ends -/
theorem WInv_done {t : Nat} {s : WSt} {m : WMon} (h : WInv t s m) (i : WIn) (hd : s.done i = true) :
    WInv t (s.step t i) (m.step s i (s.step t i)) ∧ (m.step s i (s.step t i)).over.length = m.over.length + 1 := by
  obtain ⟨h1, h2, h3, h4, h5, h6, h7, h8⟩ := h
  have hen : s.en = true := by
    unfold WSt.done at hd
    revert hd
    cases s.en <;> simp
  rw [hen] at h1
  have ha : s.awv = true := by revert h1; cases s.awv <;> simp
  have hw : s.wv = true := by revert h1; cases s.wv <;> simp
  have hb : s.bv = false := by revert h1; cases s.bv <;> simp
  have hor : i.ack = true ∨ s.timer = 0 := by
    unfold WSt.done at hd
    simpa [hen] using hd
  have e1 : (s.step t i).awv = false := by simp [WSt.step, ha, hd]
  have e2 : (s.step t i).wv = false := by simp [WSt.step, hw, hd]
  have e3 : (s.step t i).bv = true := by simp [WSt.step, hd]
  have e4 : (s.step t i).en = false := by simp [WSt.step, hd]
  have e5 : (m.step s i (s.step t i)).over = m.over ++ [⟨s.addr, s.data, i.ack, m.age⟩] := by simp [WMon.step, hen, e4]
  have h5' := h5 ha
  refine ⟨⟨by rw [e4, e1]; rfl, ?_, ?_, ?_, (fun h => by rw [e1] at h; cases h), ?_, ?_, ?_⟩, by rw [e5]; simp⟩
  · rw [e5, e1]
    simp [WMon.step, WSt.awready, ha, h2]
  · rw [e5, e2]
    simp [WMon.step, WSt.wready, hw, h3]
  · rw [e5, e3]
    simp [WMon.step, hb, h4]
  · intro _
    simp [WMon.step, e4]
  · rw [e5]
    intro e he
    rcases List.mem_append.1 he with he | he
    · exact h7 e he
    · rw [List.mem_singleton.1 he]
      refine ⟨show m.age ≤ t - 1 by omega, fun hk => ?_⟩
      have hk' : i.ack = false := hk
      rw [hk'] at hor
      show m.age = t - 1
      have : s.timer = 0 := by simpa using hor
      omega
  · rw [e5, List.filter_append, List.length_append, ← h8]
    cases hk : i.ack <;> simp [WMon.step, hen, hk]

/-- a cycle in which an access goes on -/
theorem WInv_busy {t : Nat} {s : WSt} {m : WMon} (h : WInv t s m) (i : WIn) (hd : s.done i = false) (hen : s.en = true) :
    WInv t (s.step t i) (m.step s i (s.step t i)) ∧ (m.step s i (s.step t i)).over = m.over ∧ (s.step t i).en = true ∧
      s.timer ≠ 0 ∧ (i.wait = false → (s.step t i).timer + 1 = s.timer) := by
  obtain ⟨h1, h2, h3, h4, h5, h6, h7, h8⟩ := h
  rw [hen] at h1
  have ha : s.awv = true := by revert h1; cases s.awv <;> simp
  have hw : s.wv = true := by revert h1; cases s.wv <;> simp
  have hb : s.bv = false := by revert h1; cases s.bv <;> simp
  have hor : i.ack = false ∧ s.timer ≠ 0 := by
    unfold WSt.done at hd
    simpa [hen] using hd
  have e1 : (s.step t i).awv = true := by simp [WSt.step, ha, hd]
  have e2 : (s.step t i).wv = true := by simp [WSt.step, hw, hd]
  have e3 : (s.step t i).bv = false := by simp [WSt.step, hd, hb]
  have e4 : (s.step t i).en = true := by simp [WSt.step, hd, ha, hw, hb]
  have e5 : (m.step s i (s.step t i)).over = m.over := by simp [WMon.step, hen, e4]
  have e6 : (s.step t i).addr = s.addr := by simp [WSt.step, ha]
  have e7 : (s.step t i).data = s.data := by simp [WSt.step, hw]
  have h5' := h5 ha
  refine ⟨⟨by rw [e4, e1, e2, e3]; rfl, ?_, ?_, ?_, ?_, (fun h => by rw [e4] at h; cases h), by rw [e5]; exact h7, ?_⟩, e5, e4,
    hor.2, ?_⟩
  · rw [e5, e1, e6]
    simp [WMon.step, WSt.awready, ha, h2]
  · rw [e5, e2, e7]
    simp [WMon.step, WSt.wready, hw, h3]
  · rw [e5, e3]
    simp [WMon.step, hb, h4]
  · intro _
    cases hwt : i.wait
    · simp [WSt.step, WMon.step, hen, hwt, hor, ha, hw, hb, hd]
      omega
    · simp [WSt.step, WMon.step, hen, hwt, ha, hw, hb, hd, h5']
  · rw [e5, ← h8]
    simp [WMon.step, hor.1]
  · intro hwt
    simp [WSt.step, hen, hwt, hor]
    omega

/-- a cycle without an access -/
theorem WInv_idle {t : Nat} {s : WSt} {m : WMon} (h : WInv t s m) (i : WIn) (hen : s.en = false) :
    WInv t (s.step t i) (m.step s i (s.step t i)) ∧ (m.step s i (s.step t i)).over = m.over := by
  obtain ⟨h1, h2, h3, h4, h5, h6, h7, h8⟩ := h
  have hd : s.done i = false := by simp [WSt.done, hen]
  have h6' := h6 hen
  have e5 : (m.step s i (s.step t i)).over = m.over := by simp [WMon.step, hen]
  refine ⟨⟨rfl, ?_, ?_, ?_, ?_, ?_, by rw [e5]; exact h7, ?_⟩, e5⟩
  · rw [e5]
    cases ha : s.awv <;> cases hv : i.awvalid <;> simp [WSt.step, WMon.step, WSt.awready, ha, hd, h2, hv]
  · rw [e5]
    cases ha : s.wv <;> cases hv : i.wvalid <;> simp [WSt.step, WMon.step, WSt.wready, ha, hd, h3, hv]
  · rw [e5, h4]
    cases hb : s.bv <;> cases hr : i.bready <;> simp [WSt.step, WMon.step, hd, hb, hr]
  · intro _
    cases ha : s.awv
    · simp [WSt.step, WMon.step, hen, ha]
    · have := h5 ha
      simp [WSt.step, WMon.step, hen, ha]
      omega
  · intro _
    simp [WMon.step, hen]
  · rw [e5, ← h8]
    simp [WMon.step, hen]

theorem WInv_step {t : Nat} {s : WSt} {m : WMon} (h : WInv t s m) (i : WIn) :
    WInv t (s.step t i) (m.step s i (s.step t i)) := by
  cases hd : s.done i
  · cases hen : s.en
    · exact (WInv_idle h i hen).1
    · exact (WInv_busy h i hd hen).1
  · exact (WInv_done h i hd).1

theorem WInv_run {t : Nat} : ∀ (is : List WIn) (x : WSt × WMon), WInv t x.1 x.2 → WInv t (wrun t x is).1 (wrun t x is).2
  | [], _, h => h
  | i :: is, _, h => WInv_run is _ (WInv_step h i)

theorem wover_mono {t : Nat} : ∀ (is : List WIn) (x : WSt × WMon), x.2.over.length ≤ (wrun t x is).2.over.length
  | [], _ => Nat.le_refl _
  | i :: is, x => by
    refine Nat.le_trans ?_ (wover_mono is _)
    show x.2.over.length ≤ (x.2.step x.1 i (x.1.step t i)).over.length
    unfold WMon.step
    dsimp only
    split <;> simp

/-- an access ends after the cycles left, if there is no `wait` -/
theorem wbusy_ends {t : Nat} : ∀ (is : List WIn) (x : WSt × WMon), WInv t x.1 x.2 → x.1.en = true →
    (∀ i ∈ is, i.wait = false) → x.1.timer < is.length → x.2.over.length < (wrun t x is).2.over.length
  | [], _, _, _, _, h => by simp at h
  | i :: is, x, h, hen, hw, hl => by
    cases hd : x.1.done i
    · obtain ⟨k1, k2, k3, k4, k5⟩ := WInv_busy h i hd hen
      have := wbusy_ends is (x.1.step t i, x.2.step x.1 i (x.1.step t i)) k1 k3
        (fun j hj => hw j (List.mem_cons_of_mem _ hj)) (by
          have := k5 (hw i (List.mem_cons_self ..))
          simp only [List.length_cons] at hl
          show (x.1.step t i).timer < is.length
          omega)
      rw [k2] at this
      exact this
    · obtain ⟨_, k2⟩ := WInv_done h i hd
      have := wover_mono (t := t) is (x.1.step t i, x.2.step x.1 i (x.1.step t i))
      show _ < (wrun t (x.1.step t i, x.2.step x.1 i (x.1.step t i)) is).2.over.length
      rw [k2] at this
      omega

structure RInv (t : Nat) (s : RSt) (m : RMon) : Prop where
  en : s.en = (s.arv && !s.rv)
  ars : m.ars = m.over.map (·.addr) ++ (if s.arv then [s.addr] else [])
  rs : m.over.map (·.data) = m.rs ++ (if s.rv then [s.data] else [])
  timer : s.arv = true → s.timer + m.age = t - 1
  age : s.en = false → m.age = 0
  late : ∀ e ∈ m.over, e.age ≤ t - 1 ∧ (e.acked = false → e.age = t - 1)
  acks : m.acks = (m.over.filter (·.acked)).length

theorem RInv_init (t : Nat) : RInv t .init .init :=
  ⟨rfl, rfl, rfl, (fun h => by cases h), fun _ => rfl, (fun _ h => by cases h), rfl⟩

theorem RInv_done {t : Nat} {s : RSt} {m : RMon} (h : RInv t s m) (i : RIn) (hd : s.done i = true) :
    RInv t (s.step t i) (m.step s i (s.step t i)) ∧ (m.step s i (s.step t i)).over.length = m.over.length + 1 := by
  obtain ⟨h1, h2, h4, h5, h6, h7, h8⟩ := h
  have hen : s.en = true := by
    unfold RSt.done at hd
    revert hd
    cases s.en <;> simp
  rw [hen] at h1
  have ha : s.arv = true := by revert h1; cases s.arv <;> simp
  have hb : s.rv = false := by revert h1; cases s.rv <;> simp
  have hor : i.ack = true ∨ s.timer = 0 := by
    unfold RSt.done at hd
    simpa [hen] using hd
  have e1 : (s.step t i).arv = false := by simp [RSt.step, ha, hd]
  have e3 : (s.step t i).rv = true := by simp [RSt.step, hd]
  have e4 : (s.step t i).en = false := by simp [RSt.step, hd]
  have e6 : (s.step t i).data = i.data := by simp [RSt.step, hd]
  have e5 : (m.step s i (s.step t i)).over = m.over ++ [⟨s.addr, i.data, i.ack, m.age⟩] := by simp [RMon.step, hen, e4]
  have h5' := h5 ha
  refine ⟨⟨by rw [e4, e1]; rfl, ?_, ?_, (fun h => by rw [e1] at h; cases h), ?_, ?_, ?_⟩, by rw [e5]; simp⟩
  · rw [e5, e1]
    simp [RMon.step, RSt.arready, ha, h2]
  · rw [e5, e3, e6]
    simp [RMon.step, hb, h4]
  · intro _
    simp [RMon.step, e4]
  · rw [e5]
    intro e he
    rcases List.mem_append.1 he with he | he
    · exact h7 e he
    · rw [List.mem_singleton.1 he]
      refine ⟨show m.age ≤ t - 1 by omega, fun hk => ?_⟩
      have hk' : i.ack = false := hk
      rw [hk'] at hor
      show m.age = t - 1
      have : s.timer = 0 := by simpa using hor
      omega
  · rw [e5, List.filter_append, List.length_append, ← h8]
    cases hk : i.ack <;> simp [RMon.step, hen, hk]

theorem RInv_busy {t : Nat} {s : RSt} {m : RMon} (h : RInv t s m) (i : RIn) (hd : s.done i = false) (hen : s.en = true) :
    RInv t (s.step t i) (m.step s i (s.step t i)) ∧ (m.step s i (s.step t i)).over = m.over ∧ (s.step t i).en = true ∧
      s.timer ≠ 0 ∧ (i.wait = false → (s.step t i).timer + 1 = s.timer) := by
  obtain ⟨h1, h2, h4, h5, h6, h7, h8⟩ := h
  rw [hen] at h1
  have ha : s.arv = true := by revert h1; cases s.arv <;> simp
  have hb : s.rv = false := by revert h1; cases s.rv <;> simp
  have hor : i.ack = false ∧ s.timer ≠ 0 := by
    unfold RSt.done at hd
    simpa [hen] using hd
  have e1 : (s.step t i).arv = true := by simp [RSt.step, ha, hd]
  have e3 : (s.step t i).rv = false := by simp [RSt.step, hd, hb]
  have e4 : (s.step t i).en = true := by simp [RSt.step, hd, ha, hb]
  have e5 : (m.step s i (s.step t i)).over = m.over := by simp [RMon.step, hen, e4]
  have e6 : (s.step t i).addr = s.addr := by simp [RSt.step, ha]
  have h5' := h5 ha
  refine ⟨⟨by rw [e4, e1, e3]; rfl, ?_, ?_, ?_, (fun h => by rw [e4] at h; cases h), by rw [e5]; exact h7, ?_⟩, e5, e4,
    hor.2, ?_⟩
  · rw [e5, e1, e6]
    simp [RMon.step, RSt.arready, ha, h2]
  · rw [e5, e3]
    simp [RMon.step, hb, h4]
  · intro _
    cases hwt : i.wait
    · simp [RSt.step, RMon.step, hen, hwt, hor, ha, hb, hd]
      omega
    · simp [RSt.step, RMon.step, hen, hwt, ha, hb, hd, h5']
  · rw [e5, ← h8]
    simp [RMon.step, hor.1]
  · intro hwt
    simp [RSt.step, hen, hwt, hor]
    omega

theorem RInv_idle {t : Nat} {s : RSt} {m : RMon} (h : RInv t s m) (i : RIn) (hen : s.en = false) :
    RInv t (s.step t i) (m.step s i (s.step t i)) ∧ (m.step s i (s.step t i)).over = m.over := by
  obtain ⟨h1, h2, h4, h5, h6, h7, h8⟩ := h
  have hd : s.done i = false := by simp [RSt.done, hen]
  have h6' := h6 hen
  have e5 : (m.step s i (s.step t i)).over = m.over := by simp [RMon.step, hen]
  refine ⟨⟨rfl, ?_, ?_, ?_, ?_, by rw [e5]; exact h7, ?_⟩, e5⟩
  · rw [e5]
    cases ha : s.arv <;> cases hv : i.arvalid <;> simp [RSt.step, RMon.step, RSt.arready, ha, hd, h2, hv]
  · rw [e5, h4]
    cases hb : s.rv <;> cases hr : i.rready <;> simp [RSt.step, RMon.step, hd, hb, hr]
  · intro _
    cases ha : s.arv
    · simp [RSt.step, RMon.step, hen, ha]
    · have := h5 ha
      simp [RSt.step, RMon.step, hen, ha]
      omega
  · intro _
    simp [RMon.step, hen]
  · rw [e5, ← h8]
    simp [RMon.step, hen]

theorem RInv_step {t : Nat} {s : RSt} {m : RMon} (h : RInv t s m) (i : RIn) :
    RInv t (s.step t i) (m.step s i (s.step t i)) := by
  cases hd : s.done i
  · cases hen : s.en
    · exact (RInv_idle h i hen).1
    · exact (RInv_busy h i hd hen).1
  · exact (RInv_done h i hd).1

theorem RInv_run {t : Nat} : ∀ (is : List RIn) (x : RSt × RMon), RInv t x.1 x.2 → RInv t (rrun t x is).1 (rrun t x is).2
  | [], _, h => h
  | i :: is, _, h => RInv_run is _ (RInv_step h i)

theorem rover_mono {t : Nat} : ∀ (is : List RIn) (x : RSt × RMon), x.2.over.length ≤ (rrun t x is).2.over.length
  | [], _ => Nat.le_refl _
  | i :: is, x => by
    refine Nat.le_trans ?_ (rover_mono is _)
    show x.2.over.length ≤ (x.2.step x.1 i (x.1.step t i)).over.length
    unfold RMon.step
    dsimp only
    split <;> simp

theorem rbusy_ends {t : Nat} : ∀ (is : List RIn) (x : RSt × RMon), RInv t x.1 x.2 → x.1.en = true →
    (∀ i ∈ is, i.wait = false) → x.1.timer < is.length → x.2.over.length < (rrun t x is).2.over.length
  | [], _, _, _, _, h => by simp at h
  | i :: is, x, h, hen, hw, hl => by
    cases hd : x.1.done i
    · obtain ⟨k1, k2, k3, k4, k5⟩ := RInv_busy h i hd hen
      have := rbusy_ends is (x.1.step t i, x.2.step x.1 i (x.1.step t i)) k1 k3
        (fun j hj => hw j (List.mem_cons_of_mem _ hj)) (by
          have := k5 (hw i (List.mem_cons_self ..))
          simp only [List.length_cons] at hl
          show (x.1.step t i).timer < is.length
          omega)
      rw [k2] at this
      exact this
    · obtain ⟨_, k2⟩ := RInv_done h i hd
      have := rover_mono (t := t) is (x.1.step t i, x.2.step x.1 i (x.1.step t i))
      show _ < (rrun t (x.1.step t i, x.2.step x.1 i (x.1.step t i)) is).2.over.length
      rw [k2] at this
      omega

end Corundum.RegIf
