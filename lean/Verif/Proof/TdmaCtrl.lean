import Verif.Spec.TdmaCtrl
namespace Corundum.TdmaCtrl

theorem next_eq {c : Cfg} {p : Nat} (h : p < c.count) : c.next p = p + 1 := by
  unfold Cfg.next
  unfold Cfg.count at h
  refine Nat.mod_eq_of_lt ?_
  rw [Nat.pow_succ]
  omega

/-- contents of a RAM up to its write pointer -/
def upto (m : Nat → Nat) (w : Nat) : List Nat := (List.range w).map m

theorem upto_len (m : Nat → Nat) (w : Nat) : (upto m w).length = w := by simp [upto]

theorem upto_push (m : Nat → Nat) (w v : Nat) : upto (upd m w v) (w + 1) = upto m w ++ [v] := by
  unfold upto
  rw [List.range_succ, List.map_append]
  congr 1
  · refine List.map_congr_left fun i hi => ?_
    have := List.mem_range.1 hi
    unfold upd
    rw [if_neg (by omega)]
  · simp [upd]

theorem upto_take {m : Nat → Nat} {w r : Nat} (h : r < w) : (upto m w).take (r + 1) = (upto m w).take r ++ [m r] := by
  rw [List.take_succ]
  congr 1
  simp [upto, h]

def bits (ram : Nat → Nat) (i n : Nat) : List Nat := (List.range n).filter fun q => (ram q).testBit i

theorem bits_succ (ram : Nat → Nat) (i n : Nat) : bits ram i (n + 1) = bits ram i n ++ if (ram n).testBit i then [n] else [] := by
  unfold bits
  rw [List.range_succ, List.filter_append]
  congr 1
  by_cases h : (ram n).testBit i = true <;> simp [h]

theorem members_eq (c : Cfg) (ram : Nat → Nat) (i : Nat) : members c ram i = bits ram i c.count := rfl

/-- the lists made by a fill that has come to row `n` -/
structure Lists (s : St) (n : Nat) : Prop where
  w0 : s.w0 ≤ n
  wn : s.wn ≤ n
  r0 : s.r0 = 0
  rn : s.rn = 0
  l0 : s.inconsistent = false → upto s.m0 s.w0 = bits s.ram 0 n
  ln : s.inconsistent = false → upto s.mn s.wn = bits s.ram s.curIndex n

/-- commands of slots -/
def cmds (c : Cfg) (ds : List (Nat × (Nat → Nat))) : List (Nat × Bool) := ds.flatMap (slotCmds c)

def ons (l : List Nat) : List (Nat × Bool) := l.map fun q => (q, true)
def offs (l : List Nat) : List (Nat × Bool) := l.map fun q => (q, false)

theorem cmds_snoc (c : Cfg) (ds : List (Nat × (Nat → Nat))) (d : Nat × (Nat → Nat)) :
    cmds c (ds ++ [d]) = cmds c ds ++ (ons (members c d.2 d.1) ++ offs (members c d.2 d.1)) := by
  simp [cmds, slotCmds, ons, offs]

/-- a slot that begins has not been taken up -/
def St.pendIdx (s : St) : List Nat := if s.gotStart = true ∧ s.phase ≠ .start0 ∧ s.phase ≠ .startN then [s.startIndex] else []

/-- what holds in each phase; `log` are the commands so far, `ds` the slots before the current one, `d` the current one -/
def PI (c : Cfg) (s : St) (log : List (Nat × Bool)) (ds : List (Nat × (Nat → Nat))) (d : Nat × (Nat → Nat)) : Prop :=
  match s.phase with
  | .idle => log = cmds c ds
  | .fill => log = cmds c ds ∧ s.ptr < c.count ∧ Lists s s.ptr
  | .waitStart => log = cmds c ds ∧ Lists s c.count
  | .start0 => s.r0 < s.w0 ∧ s.w0 ≤ c.count ∧ s.ws = s.r0 ∧ s.gotStart = true ∧ upto s.m0 s.w0 = members c d.2 d.1 ∧
      upto s.ms s.ws = (members c d.2 d.1).take s.r0 ∧ log = cmds c ds ++ ons ((members c d.2 d.1).take s.r0)
  | .startN => s.rn < s.wn ∧ s.wn ≤ c.count ∧ s.ws = s.rn ∧ s.gotStart = true ∧ upto s.mn s.wn = members c d.2 d.1 ∧
      upto s.ms s.ws = (members c d.2 d.1).take s.rn ∧ log = cmds c ds ++ ons ((members c d.2 d.1).take s.rn)
  | .waitStop => s.rs = 0 ∧ s.ws ≤ c.count ∧ upto s.ms s.ws = members c d.2 d.1 ∧ log = cmds c ds ++ ons (members c d.2 d.1)
  | .stop => s.rs < s.ws ∧ s.ws ≤ c.count ∧ upto s.ms s.ws = members c d.2 d.1 ∧
      log = cmds c ds ++ (ons (members c d.2 d.1) ++ offs ((members c d.2 d.1).take s.rs))

/-- a slot is under way -/
def Phase.busy : Phase → Bool
  | .idle | .fill | .waitStart => false
  | _ => true

/-- all slots -/
def slots (s : St) (ds : List (Nat × (Nat → Nat))) (d : Nat × (Nat → Nat)) : List (Nat × (Nat → Nat)) := if s.phase.busy then ds ++ [d] else ds

/-- invariant; `evs` are the indices of the slots that began, `P` holds for the contents that the RAM has had -/
def Inv (c : Cfg) (s : St) (log : List (Nat × Bool)) (evs : List Nat) (P : (Nat → Nat) → Prop) : Prop :=
  ∃ ds d, PI c s log ds d ∧ ((slots s ds d).map (·.1) ++ s.pendIdx).Sublist evs ∧ ∀ e ∈ slots s ds d, P e.2

/-- nothing new is offered -/
theorem log_keep {s t : St} {x : In} (h : t.pend = if s.valid && !x.ready then [(s.queue, s.enable)] else []) : s.taken x ++ t.pend = s.pend := by
  rw [h]
  unfold St.taken St.pend
  cases s.valid <;> cases x.ready <;> simp

/-- a new command is offered -/
theorem log_new {s t : St} {x : In} {q : Nat × Bool} (hf : (!s.valid || x.ready) = true) (h : t.pend = [q]) : s.taken x ++ t.pend = s.pend ++ [q] := by
  rw [h]
  unfold St.taken St.pend
  revert hf
  cases s.valid <;> cases x.ready <;> simp

def evOf (x : In) : List Nat := if x.start then [x.index] else []

theorem starts_cons (x : In) (xs : List In) : starts (x :: xs) = evOf x ++ starts xs := by
  unfold starts evOf
  cases h : x.start <;> simp [h]

theorem sub_keep {s t : St} {x : In} {A evs : List Nat} (h : (A ++ s.pendIdx).Sublist evs) (hs : s.phase ≠ .start0 ∧ s.phase ≠ .startN)
    (h1 : t.gotStart = (s.gotStart || (!s.gotStart && x.start))) (h2 : t.startIndex = if !s.gotStart && x.start then x.index else s.startIndex) :
    (A ++ t.pendIdx).Sublist (evs ++ evOf x) := by
  unfold St.pendIdx at *
  rw [h1, h2]
  cases hg : s.gotStart
  · rw [hg] at h
    simp only [Bool.false_eq_true, false_and, if_false, List.append_nil] at h
    cases hx : x.start
    · simp only [Bool.not_false, Bool.and_false, Bool.or_self, Bool.false_eq_true, false_and, if_false, List.append_nil]
      exact h.trans (List.sublist_append_left _ _)
    · have : evOf x = [x.index] := by simp [evOf, hx]
      rw [this]
      refine List.Sublist.append h ?_
      simp only [Bool.not_false, Bool.and_true, Bool.or_true, if_true, true_and]
      split
      · exact List.Sublist.refl _
      · exact List.nil_sublist _
  · rw [hg] at h
    simp only [true_and, if_pos hs] at h
    refine List.Sublist.trans ?_ (h.trans (List.sublist_append_left _ _))
    refine List.Sublist.append (List.Sublist.refl _) ?_
    simp only [Bool.not_true, Bool.false_and, Bool.or_false, Bool.false_eq_true, if_false, true_and]
    split
    · exact List.Sublist.refl _
    · exact List.nil_sublist _

theorem sub_drop {s t : St} {x : In} {A evs : List Nat} (h : (A ++ s.pendIdx).Sublist evs) (h1 : t.pendIdx = []) : (A ++ t.pendIdx).Sublist (evs ++ evOf x) := by
  rw [h1, List.append_nil]
  exact ((List.sublist_append_left A s.pendIdx).trans h).trans (List.sublist_append_left _ _)

theorem lists_write {s t : St} {n : Nat} (h : Lists s n) (e1 : t.w0 = s.w0) (e2 : t.wn = s.wn) (e3 : t.r0 = s.r0) (e4 : t.rn = s.rn) (e5 : t.m0 = s.m0)
    (e6 : t.mn = s.mn) (e7 : t.inconsistent = false → s.inconsistent = false ∧ t.ram = s.ram) (e8 : t.curIndex = s.curIndex) : Lists t n where
  w0 := by rw [e1]; exact h.w0
  wn := by rw [e2]; exact h.wn
  r0 := by rw [e3]; exact h.r0
  rn := by rw [e4]; exact h.rn
  l0 := fun hi => by rw [e1, e5, (e7 hi).2]; exact h.l0 (e7 hi).1
  ln := fun hi => by rw [e2, e6, e8, (e7 hi).2]; exact h.ln (e7 hi).1

theorem lists_zero {t : St} (e1 : t.w0 = 0) (e2 : t.wn = 0) (e3 : t.r0 = 0) (e4 : t.rn = 0) : Lists t 0 where
  w0 := by omega
  wn := by omega
  r0 := e3
  rn := e4
  l0 := fun _ => by rw [e1]; rfl
  ln := fun _ => by rw [e2]; rfl

/-- an edge puts its RAM, its flags and the rest of the registers together -/
theorem edge_incons {c : Cfg} {s : St} {x : In} (h : (s.edge c x).inconsistent = false) :
    (s.inconsistent && !(s.body c x).2) = false ∧ (s.edge c x).ram = s.ram := by
  have h' : ((s.inconsistent && !(s.body c x).2) || x.write.isSome) = false := h
  rw [Bool.or_eq_false_iff] at h'
  refine ⟨h'.1, ?_⟩
  unfold St.edge
  dsimp only
  cases hw : x.write with
  | none => rfl
  | some p => rw [hw] at h'; cases h'.2

theorem count_pos (c : Cfg) : 0 < c.count := Nat.two_pow_pos _

theorem Inv_edge {c : Cfg} {s : St} {x : In} {hand : List (Nat × Bool)} {evs : List Nat} {P Q : (Nat → Nat) → Prop}
    (h : Inv c s (hand ++ s.pend) evs P) (hQ : ∀ r, P r → Q r) (hr : Q s.ram) :
    Inv c (s.edge c x) (hand ++ s.taken x ++ (s.edge c x).pend) (evs ++ evOf x) Q := by
  obtain ⟨ds, d, hp, hs, hP⟩ := h
  rw [List.append_assoc]
  cases hph : s.phase with
  | idle =>
    simp only [PI, hph] at hp
    have hb : s.body c x = (St.refill { s with valid := s.valid && !x.ready }, true) := by simp only [St.body, hph]
    have e : ∀ t, t = s.edge c x → t.phase = .fill ∧ t.ptr = 0 ∧ t.w0 = 0 ∧ t.wn = 0 ∧ t.r0 = 0 ∧ t.rn = 0 ∧
        t.pend = (if s.valid && !x.ready then [(s.queue, s.enable)] else []) ∧ t.gotStart = (s.gotStart || (!s.gotStart && x.start)) ∧
        t.startIndex = (if !s.gotStart && x.start then x.index else s.startIndex) := by
      rintro _ rfl
      unfold St.edge
      rw [hb]
      exact ⟨rfl, rfl, rfl, rfl, rfl, rfl, rfl, rfl, rfl⟩
    obtain ⟨t, ht⟩ : ∃ t, t = s.edge c x := ⟨_, rfl⟩
    rw [← ht]
    obtain ⟨e1, e2, e3, e4, e5, e6, e7, e8, e9⟩ := e t ht
    have hsl : slots t ds d = slots s ds d := by simp [slots, Phase.busy, e1, hph]
    refine ⟨ds, d, ?_, ?_, ?_⟩
    · simp only [PI, e1]
      rw [log_keep e7, e2]
      exact ⟨hp, count_pos c, lists_zero e3 e4 e5 e6⟩
    · rw [hsl]; exact sub_keep hs ⟨by simp [hph], by simp [hph]⟩ e8 e9
    · rw [hsl]; exact fun e he => hQ _ (hP e he)
  | fill =>
    simp only [PI, hph] at hp
    obtain ⟨hp, hpt, hl⟩ := hp
    have hb : s.body c x = (s.onFill c { s with valid := s.valid && !x.ready }, false) := by simp only [St.body, hph]
    have n0 := next_eq (c := c) (p := s.w0) (by have := hl.w0; omega)
    have nn := next_eq (c := c) (p := s.wn) (by have := hl.wn; omega)
    have e : ∀ t, t = s.edge c x → t.phase = (if s.ptr + 1 = c.count then .waitStart else .fill) ∧ t.ptr = (s.ptr + 1) % c.count ∧
        t.w0 = (if (s.ram s.ptr).testBit 0 then s.w0 + 1 else s.w0) ∧ t.m0 = (if (s.ram s.ptr).testBit 0 then upd s.m0 s.w0 s.ptr else s.m0) ∧
        t.wn = (if (s.ram s.ptr).testBit s.curIndex then s.wn + 1 else s.wn) ∧
        t.mn = (if (s.ram s.ptr).testBit s.curIndex then upd s.mn s.wn s.ptr else s.mn) ∧ t.r0 = s.r0 ∧ t.rn = s.rn ∧ t.curIndex = s.curIndex ∧
        t.pend = (if s.valid && !x.ready then [(s.queue, s.enable)] else []) ∧ t.gotStart = (s.gotStart || (!s.gotStart && x.start)) ∧
        t.startIndex = (if !s.gotStart && x.start then x.index else s.startIndex) := by
      rintro _ rfl
      unfold St.edge
      rw [hb]
      unfold St.onFill
      dsimp only
      cases h0 : (s.ram s.ptr).testBit 0 <;> cases h1 : (s.ram s.ptr).testBit s.curIndex <;> simp [St.pend, n0, nn]
    obtain ⟨t, ht⟩ : ∃ t, t = s.edge c x := ⟨_, rfl⟩
    have hin : t.inconsistent = false → s.inconsistent = false ∧ t.ram = s.ram := by
      intro hi
      have := edge_incons (ht ▸ hi)
      rw [hb] at this
      rw [ht]
      simpa using this
    rw [← ht]
    obtain ⟨e1, e2, e3, e4, e5, e6, e7, e8, e9, e10, e11, e12⟩ := e t ht
    have hls : Lists t (s.ptr + 1) := by
      refine ⟨?_, ?_, by rw [e7]; exact hl.r0, by rw [e8]; exact hl.rn, fun hi => ?_, fun hi => ?_⟩
      · have := hl.w0; rw [e3]; split <;> omega
      · have := hl.wn; rw [e5]; split <;> omega
      · rw [e3, e4, (hin hi).2, bits_succ]
        cases hb0 : (s.ram s.ptr).testBit 0
        · simpa using hl.l0 (hin hi).1
        · simp only [if_true]
          rw [upto_push, hl.l0 (hin hi).1]
      · rw [e5, e6, (hin hi).2, e9, bits_succ]
        cases hb0 : (s.ram s.ptr).testBit s.curIndex
        · simpa using hl.ln (hin hi).1
        · simp only [if_true]
          rw [upto_push, hl.ln (hin hi).1]
    have hb1 : t.phase.busy = false := by rw [e1]; split <;> rfl
    have hsl : slots t ds d = slots s ds d := by
      have hb2 : s.phase.busy = false := by rw [hph]; rfl
      simp [slots, hb1, hb2]
    refine ⟨ds, d, ?_, ?_, ?_⟩
    · by_cases hq : s.ptr + 1 = c.count
      · have : t.phase = .waitStart := by rw [e1, if_pos hq]
        simp only [PI, this]
        rw [log_keep e10, ← hq]
        exact ⟨hp, hls⟩
      · have : t.phase = .fill := by rw [e1, if_neg hq]
        simp only [PI, this]
        have h2 : t.ptr = s.ptr + 1 := by rw [e2, Nat.mod_eq_of_lt (by omega)]
        rw [log_keep e10, h2]
        exact ⟨hp, by omega, hls⟩
    · rw [hsl]; exact sub_keep hs ⟨by simp [hph], by simp [hph]⟩ e11 e12
    · rw [hsl]; exact fun e he => hQ _ (hP e he)
  | waitStart =>
    simp only [PI, hph] at hp
    obtain ⟨hp, hl⟩ := hp
    have hb : s.body c x = s.onWaitStart c { s with valid := s.valid && !x.ready } := by simp only [St.body, hph]
    have hbs : slots s ds d = ds := by simp [slots, hph, Phase.busy]
    rw [hbs] at hs hP
    cases hg : s.gotStart
    · have e : ∀ t, t = s.edge c x → t.phase = .waitStart ∧ t.w0 = s.w0 ∧ t.wn = s.wn ∧ t.r0 = s.r0 ∧ t.rn = s.rn ∧ t.m0 = s.m0 ∧ t.mn = s.mn ∧
          t.curIndex = s.curIndex ∧
          t.pend = (if s.valid && !x.ready then [(s.queue, s.enable)] else []) ∧ t.gotStart = (s.gotStart || (!s.gotStart && x.start)) ∧
          t.startIndex = (if !s.gotStart && x.start then x.index else s.startIndex) := by
        rintro _ rfl
        unfold St.edge
        rw [hb]
        simp [St.onWaitStart, hg, hph, St.pend]
      obtain ⟨t, ht⟩ : ∃ t, t = s.edge c x := ⟨_, rfl⟩
      have hin : t.inconsistent = false → s.inconsistent = false ∧ t.ram = s.ram := by
        intro hi
        have := edge_incons (ht ▸ hi)
        rw [hb] at this
        rw [ht]
        simpa [St.onWaitStart, hg] using this
      rw [← ht]
      obtain ⟨e1, e2, e3, e4, e5, e6, e7, e8, e9, e10, e11⟩ := e t ht
      have hsl : slots t ds d = ds := by simp [slots, e1, Phase.busy]
      refine ⟨ds, d, ?_, ?_, ?_⟩
      · simp only [PI, e1]
        rw [log_keep e9]
        exact ⟨hp, lists_write hl e2 e3 e4 e5 e6 e7 hin e8⟩
      · rw [hsl]; exact sub_keep hs ⟨by simp [hph], by simp [hph]⟩ e10 e11
      · rw [hsl]; exact fun e he => hQ _ (hP e he)
    · have hpi : s.pendIdx = [s.startIndex] := by simp [St.pendIdx, hg, hph]
      rw [hpi] at hs
      have hsx : (!s.gotStart && x.start) = false := by simp [hg]
      by_cases c0 : (!s.inconsistent && s.startIndex == 0) = true
      · have c0' := c0
        simp only [Bool.and_eq_true, Bool.not_eq_true', beq_iff_eq] at c0'
        have hl0 := hl.l0 c0'.1
        have hm : upto s.m0 s.w0 = members c s.ram s.startIndex := by rw [members_eq, c0'.2]; exact hl0
        by_cases hz : s.w0 = 0
        · have e : ∀ t, t = s.edge c x → t.phase = .waitStop ∧ t.rs = 0 ∧ t.ws = 0 ∧
              t.pend = (if s.valid && !x.ready then [(s.queue, s.enable)] else []) ∧ t.gotStart = false := by
            rintro _ rfl
            unfold St.edge
            rw [hb]
            simp [St.onWaitStart, hg, c0, hz, St.pend]
          obtain ⟨t, ht⟩ : ∃ t, t = s.edge c x := ⟨_, rfl⟩
          rw [← ht]
          obtain ⟨e1, e2, e3, e4, e5⟩ := e t ht
          have hsl : slots t ds (s.startIndex, s.ram) = ds ++ [(s.startIndex, s.ram)] := by simp [slots, e1, Phase.busy]
          have hnil : members c s.ram s.startIndex = [] := by rw [← hm, hz]; rfl
          refine ⟨ds, (s.startIndex, s.ram), ?_, ?_, ?_⟩
          · simp only [PI, e1]
            rw [log_keep e4, e3, hnil]
            exact ⟨e2, Nat.zero_le _, rfl, by simpa [ons] using hp⟩
          · rw [hsl]
            have : t.pendIdx = [] := by simp [St.pendIdx, e5]
            rw [this]
            simpa using hs.trans (List.sublist_append_left _ _)
          · rw [hsl]
            intro e he
            rcases List.mem_append.1 he with he | he
            · exact hQ _ (hP e he)
            · rw [List.mem_singleton.1 he]; exact hr
        · have e : ∀ t, t = s.edge c x → t.phase = .start0 ∧ t.ws = 0 ∧ t.w0 = s.w0 ∧ t.r0 = s.r0 ∧ t.m0 = s.m0 ∧
              t.pend = (if s.valid && !x.ready then [(s.queue, s.enable)] else []) ∧ t.gotStart = true := by
            rintro _ rfl
            unfold St.edge
            rw [hb]
            simp [St.onWaitStart, hg, c0, hz, St.pend]
          obtain ⟨t, ht⟩ : ∃ t, t = s.edge c x := ⟨_, rfl⟩
          rw [← ht]
          obtain ⟨e1, e2, e3, e4, e5, e6, e7⟩ := e t ht
          have hsl : slots t ds (s.startIndex, s.ram) = ds ++ [(s.startIndex, s.ram)] := by simp [slots, e1, Phase.busy]
          refine ⟨ds, (s.startIndex, s.ram), ?_, ?_, ?_⟩
          · simp only [PI, e1]
            rw [log_keep e6, e2, e3, e4, e5, hl.r0]
            exact ⟨by omega, hl.w0, rfl, e7, hm, rfl, by simpa [ons] using hp⟩
          · rw [hsl]
            have : t.pendIdx = [] := by simp [St.pendIdx, e1]
            rw [this]
            simpa using hs.trans (List.sublist_append_left _ _)
          · rw [hsl]
            intro e he
            rcases List.mem_append.1 he with he | he
            · exact hQ _ (hP e he)
            · rw [List.mem_singleton.1 he]; exact hr
      · by_cases c1 : (!s.inconsistent && s.startIndex == s.curIndex) = true
        · have c1' := c1
          simp only [Bool.and_eq_true, Bool.not_eq_true', beq_iff_eq] at c1'
          have hln := hl.ln c1'.1
          have hm : upto s.mn s.wn = members c s.ram s.startIndex := by rw [members_eq, c1'.2]; exact hln
          by_cases hz : s.wn = 0
          · have e : ∀ t, t = s.edge c x → t.phase = .waitStop ∧ t.rs = 0 ∧ t.ws = 0 ∧
                t.pend = (if s.valid && !x.ready then [(s.queue, s.enable)] else []) ∧ t.gotStart = false := by
              rintro _ rfl
              unfold St.edge
              rw [hb]
              simp only [St.onWaitStart, hg, c0, c1, hz, if_true]
              exact ⟨rfl, rfl, rfl, rfl, rfl⟩
            obtain ⟨t, ht⟩ : ∃ t, t = s.edge c x := ⟨_, rfl⟩
            rw [← ht]
            obtain ⟨e1, e2, e3, e4, e5⟩ := e t ht
            have hsl : slots t ds (s.startIndex, s.ram) = ds ++ [(s.startIndex, s.ram)] := by simp [slots, e1, Phase.busy]
            have hnil : members c s.ram s.startIndex = [] := by rw [← hm, hz]; rfl
            refine ⟨ds, (s.startIndex, s.ram), ?_, ?_, ?_⟩
            · simp only [PI, e1]
              rw [log_keep e4, e3, hnil]
              exact ⟨e2, Nat.zero_le _, rfl, by simpa [ons] using hp⟩
            · rw [hsl]
              have : t.pendIdx = [] := by simp [St.pendIdx, e5]
              rw [this]
              simpa using hs.trans (List.sublist_append_left _ _)
            · rw [hsl]
              intro e he
              rcases List.mem_append.1 he with he | he
              · exact hQ _ (hP e he)
              · rw [List.mem_singleton.1 he]; exact hr
          · have e : ∀ t, t = s.edge c x → t.phase = .startN ∧ t.ws = 0 ∧ t.wn = s.wn ∧ t.rn = s.rn ∧ t.mn = s.mn ∧
                t.pend = (if s.valid && !x.ready then [(s.queue, s.enable)] else []) ∧ t.gotStart = true := by
              rintro _ rfl
              unfold St.edge
              rw [hb]
              simp only [St.onWaitStart, hg, c0, c1, hz, if_true]
              exact ⟨rfl, rfl, rfl, rfl, rfl, rfl, rfl⟩
            obtain ⟨t, ht⟩ : ∃ t, t = s.edge c x := ⟨_, rfl⟩
            rw [← ht]
            obtain ⟨e1, e2, e3, e4, e5, e6, e7⟩ := e t ht
            have hsl : slots t ds (s.startIndex, s.ram) = ds ++ [(s.startIndex, s.ram)] := by simp [slots, e1, Phase.busy]
            refine ⟨ds, (s.startIndex, s.ram), ?_, ?_, ?_⟩
            · simp only [PI, e1]
              rw [log_keep e6, e2, e3, e4, e5, hl.rn]
              exact ⟨by omega, hl.wn, rfl, e7, hm, rfl, by simpa [ons] using hp⟩
            · rw [hsl]
              have : t.pendIdx = [] := by simp [St.pendIdx, e1]
              rw [this]
              simpa using hs.trans (List.sublist_append_left _ _)
            · rw [hsl]
              intro e he
              rcases List.mem_append.1 he with he | he
              · exact hQ _ (hP e he)
              · rw [List.mem_singleton.1 he]; exact hr
        · have e : ∀ t, t = s.edge c x → t.phase = .fill ∧ t.ptr = 0 ∧ t.w0 = 0 ∧ t.wn = 0 ∧ t.r0 = 0 ∧ t.rn = 0 ∧
              t.pend = (if s.valid && !x.ready then [(s.queue, s.enable)] else []) ∧ t.gotStart = (s.gotStart || (!s.gotStart && x.start)) ∧
              t.startIndex = (if !s.gotStart && x.start then x.index else s.startIndex) := by
            rintro _ rfl
            unfold St.edge
            rw [hb]
            simp only [St.onWaitStart, hg, c0, c1]
            exact ⟨rfl, rfl, rfl, rfl, rfl, rfl, rfl, rfl, rfl⟩
          obtain ⟨t, ht⟩ : ∃ t, t = s.edge c x := ⟨_, rfl⟩
          rw [← ht]
          obtain ⟨e1, e2, e3, e4, e5, e6, e7, e8, e9⟩ := e t ht
          have hsl : slots t ds d = ds := by simp [slots, e1, Phase.busy]
          refine ⟨ds, d, ?_, ?_, ?_⟩
          · simp only [PI, e1]
            rw [log_keep e7, e2]
            exact ⟨hp, count_pos c, lists_zero e3 e4 e5 e6⟩
          · rw [hsl]; exact sub_keep (by rw [hpi]; exact hs) ⟨by simp [hph], by simp [hph]⟩ e8 e9
          · rw [hsl]; exact fun e he => hQ _ (hP e he)
  | start0 =>
    simp only [PI, hph] at hp
    obtain ⟨p1, p2, p3, p4, p5, p6, p7⟩ := hp
    have hb : s.body c x = (s.onStart0 c { s with valid := s.valid && !x.ready } x, false) := by simp only [St.body, hph]
    have hbs : slots s ds d = ds ++ [d] := by simp [slots, hph, Phase.busy]
    rw [hbs] at hs hP
    have n0 := next_eq (c := c) (p := s.r0) (by omega)
    have nn := next_eq (c := c) (p := s.ws) (by omega)
    by_cases hf : (!s.valid || x.ready) = true
    · have htk : upto (upd s.ms s.ws (s.m0 s.r0)) (s.ws + 1) = (members c d.2 d.1).take (s.r0 + 1) := by
        rw [upto_push, p6, ← p5, upto_take p1]
      have hlg : ons ((members c d.2 d.1).take (s.r0 + 1)) = ons ((members c d.2 d.1).take s.r0) ++ [(s.m0 s.r0, true)] := by
        rw [← p5, upto_take p1]; simp [ons]
      by_cases hlast : s.r0 + 1 = s.w0
      · have e : ∀ t, t = s.edge c x → t.phase = .waitStop ∧ t.rs = 0 ∧ t.ws = s.ws + 1 ∧ t.ms = upd s.ms s.ws (s.m0 s.r0) ∧
            t.pend = [(s.m0 s.r0, true)] ∧ t.gotStart = false := by
          rintro _ rfl
          unfold St.edge
          rw [hb]
          simp [St.onStart0, hf, hlast, St.pend, p4, nn]
        obtain ⟨t, ht⟩ : ∃ t, t = s.edge c x := ⟨_, rfl⟩
        rw [← ht]
        obtain ⟨e1, e2, e3, e4, e5, e6⟩ := e t ht
        have hsl : slots t ds d = ds ++ [d] := by simp [slots, e1, Phase.busy]
        have hall : (members c d.2 d.1).take (s.r0 + 1) = members c d.2 d.1 := by
          rw [hlast, ← p5]; exact List.take_of_length_le (by rw [upto_len]; exact Nat.le_refl _)
        refine ⟨ds, d, ?_, ?_, ?_⟩
        · simp only [PI, e1]
          rw [log_new hf e5, e3, e4, htk]
          refine ⟨e2, by omega, hall, ?_⟩
          rw [← List.append_assoc, p7, List.append_assoc, ← hlg, hall]
        · rw [hsl]; exact sub_drop hs (by simp [St.pendIdx, e6])
        · rw [hsl]; exact fun e he => hQ _ (hP e he)
      · have e : ∀ t, t = s.edge c x → t.phase = .start0 ∧ t.ws = s.ws + 1 ∧ t.ms = upd s.ms s.ws (s.m0 s.r0) ∧ t.r0 = s.r0 + 1 ∧ t.w0 = s.w0 ∧ t.m0 = s.m0 ∧
            t.pend = [(s.m0 s.r0, true)] ∧ t.gotStart = true := by
          rintro _ rfl
          unfold St.edge
          rw [hb]
          simp [St.onStart0, hf, hlast, St.pend, p4, nn, n0, hph]
        obtain ⟨t, ht⟩ : ∃ t, t = s.edge c x := ⟨_, rfl⟩
        rw [← ht]
        obtain ⟨e1, e3, e4, e7, e8, e9, e5, e6⟩ := e t ht
        have hsl : slots t ds d = ds ++ [d] := by simp [slots, e1, Phase.busy]
        refine ⟨ds, d, ?_, ?_, ?_⟩
        · simp only [PI, e1]
          rw [log_new hf e5, e3, e4, e7, e8, e9, htk]
          refine ⟨by omega, p2, by omega, e6, p5, rfl, ?_⟩
          rw [← List.append_assoc, p7, List.append_assoc, ← hlg]
        · rw [hsl]; exact sub_drop hs (by simp [St.pendIdx, e1])
        · rw [hsl]; exact fun e he => hQ _ (hP e he)
    · have e : ∀ t, t = s.edge c x → t.phase = .start0 ∧ t.ws = s.ws ∧ t.ms = s.ms ∧ t.r0 = s.r0 ∧ t.w0 = s.w0 ∧ t.m0 = s.m0 ∧
          t.pend = (if s.valid && !x.ready then [(s.queue, s.enable)] else []) ∧ t.gotStart = true := by
        rintro _ rfl
        unfold St.edge
        rw [hb]
        unfold St.onStart0
        rw [if_neg hf]
        exact ⟨hph, rfl, rfl, rfl, rfl, rfl, rfl, by simp [p4]⟩
      obtain ⟨t, ht⟩ : ∃ t, t = s.edge c x := ⟨_, rfl⟩
      rw [← ht]
      obtain ⟨e1, e3, e4, e7, e8, e9, e5, e6⟩ := e t ht
      have hsl : slots t ds d = ds ++ [d] := by simp [slots, e1, Phase.busy]
      refine ⟨ds, d, ?_, ?_, ?_⟩
      · simp only [PI, e1]
        rw [log_keep e5, e3, e4, e7, e8, e9]
        exact ⟨p1, p2, p3, e6, p5, p6, p7⟩
      · rw [hsl]; exact sub_drop hs (by simp [St.pendIdx, e1])
      · rw [hsl]; exact fun e he => hQ _ (hP e he)
  | startN =>
    simp only [PI, hph] at hp
    obtain ⟨p1, p2, p3, p4, p5, p6, p7⟩ := hp
    have hb : s.body c x = (s.onStartN c { s with valid := s.valid && !x.ready } x, false) := by simp only [St.body, hph]
    have hbs : slots s ds d = ds ++ [d] := by simp [slots, hph, Phase.busy]
    rw [hbs] at hs hP
    have n0 := next_eq (c := c) (p := s.rn) (by omega)
    have nn := next_eq (c := c) (p := s.ws) (by omega)
    by_cases hf : (!s.valid || x.ready) = true
    · have htk : upto (upd s.ms s.ws (s.mn s.rn)) (s.ws + 1) = (members c d.2 d.1).take (s.rn + 1) := by
        rw [upto_push, p6, ← p5, upto_take p1]
      have hlg : ons ((members c d.2 d.1).take (s.rn + 1)) = ons ((members c d.2 d.1).take s.rn) ++ [(s.mn s.rn, true)] := by
        rw [← p5, upto_take p1]; simp [ons]
      by_cases hlast : s.rn + 1 = s.wn
      · have e : ∀ t, t = s.edge c x → t.phase = .waitStop ∧ t.rs = 0 ∧ t.ws = s.ws + 1 ∧ t.ms = upd s.ms s.ws (s.mn s.rn) ∧
            t.pend = [(s.mn s.rn, true)] ∧ t.gotStart = false := by
          rintro _ rfl
          unfold St.edge
          rw [hb]
          simp [St.onStartN, hf, hlast, St.pend, p4, nn]
        obtain ⟨t, ht⟩ : ∃ t, t = s.edge c x := ⟨_, rfl⟩
        rw [← ht]
        obtain ⟨e1, e2, e3, e4, e5, e6⟩ := e t ht
        have hsl : slots t ds d = ds ++ [d] := by simp [slots, e1, Phase.busy]
        have hall : (members c d.2 d.1).take (s.rn + 1) = members c d.2 d.1 := by
          rw [hlast, ← p5]; exact List.take_of_length_le (by rw [upto_len]; exact Nat.le_refl _)
        refine ⟨ds, d, ?_, ?_, ?_⟩
        · simp only [PI, e1]
          rw [log_new hf e5, e3, e4, htk]
          refine ⟨e2, by omega, hall, ?_⟩
          rw [← List.append_assoc, p7, List.append_assoc, ← hlg, hall]
        · rw [hsl]; exact sub_drop hs (by simp [St.pendIdx, e6])
        · rw [hsl]; exact fun e he => hQ _ (hP e he)
      · have e : ∀ t, t = s.edge c x → t.phase = .startN ∧ t.ws = s.ws + 1 ∧ t.ms = upd s.ms s.ws (s.mn s.rn) ∧ t.rn = s.rn + 1 ∧ t.wn = s.wn ∧ t.mn = s.mn ∧
            t.pend = [(s.mn s.rn, true)] ∧ t.gotStart = true := by
          rintro _ rfl
          unfold St.edge
          rw [hb]
          simp [St.onStartN, hf, hlast, St.pend, p4, nn, n0, hph]
        obtain ⟨t, ht⟩ : ∃ t, t = s.edge c x := ⟨_, rfl⟩
        rw [← ht]
        obtain ⟨e1, e3, e4, e7, e8, e9, e5, e6⟩ := e t ht
        have hsl : slots t ds d = ds ++ [d] := by simp [slots, e1, Phase.busy]
        refine ⟨ds, d, ?_, ?_, ?_⟩
        · simp only [PI, e1]
          rw [log_new hf e5, e3, e4, e7, e8, e9, htk]
          refine ⟨by omega, p2, by omega, e6, p5, rfl, ?_⟩
          rw [← List.append_assoc, p7, List.append_assoc, ← hlg]
        · rw [hsl]; exact sub_drop hs (by simp [St.pendIdx, e1])
        · rw [hsl]; exact fun e he => hQ _ (hP e he)
    · have e : ∀ t, t = s.edge c x → t.phase = .startN ∧ t.ws = s.ws ∧ t.ms = s.ms ∧ t.rn = s.rn ∧ t.wn = s.wn ∧ t.mn = s.mn ∧
          t.pend = (if s.valid && !x.ready then [(s.queue, s.enable)] else []) ∧ t.gotStart = true := by
        rintro _ rfl
        unfold St.edge
        rw [hb]
        unfold St.onStartN
        rw [if_neg hf]
        exact ⟨hph, rfl, rfl, rfl, rfl, rfl, rfl, by simp [p4]⟩
      obtain ⟨t, ht⟩ : ∃ t, t = s.edge c x := ⟨_, rfl⟩
      rw [← ht]
      obtain ⟨e1, e3, e4, e7, e8, e9, e5, e6⟩ := e t ht
      have hsl : slots t ds d = ds ++ [d] := by simp [slots, e1, Phase.busy]
      refine ⟨ds, d, ?_, ?_, ?_⟩
      · simp only [PI, e1]
        rw [log_keep e5, e3, e4, e7, e8, e9]
        exact ⟨p1, p2, p3, e6, p5, p6, p7⟩
      · rw [hsl]; exact sub_drop hs (by simp [St.pendIdx, e1])
      · rw [hsl]; exact fun e he => hQ _ (hP e he)
  | waitStop =>
    simp only [PI, hph] at hp
    obtain ⟨p1, p2, p3, p4⟩ := hp
    have hb : s.body c x = s.onWaitStop { s with valid := s.valid && !x.ready } := by simp only [St.body, hph]
    have hbs : slots s ds d = ds ++ [d] := by simp [slots, hph, Phase.busy]
    rw [hbs] at hs hP
    have e : ∀ t, t = s.edge c x → t.pend = (if s.valid && !x.ready then [(s.queue, s.enable)] else []) ∧
        t.gotStart = (s.gotStart || (!s.gotStart && x.start)) ∧ t.startIndex = (if !s.gotStart && x.start then x.index else s.startIndex) ∧
        ((s.gotStop = true ∧ s.ws = 0 ∧ t.phase = .fill ∧ t.ptr = 0 ∧ t.w0 = 0 ∧ t.wn = 0 ∧ t.r0 = 0 ∧ t.rn = 0) ∨
          (s.gotStop = true ∧ s.ws ≠ 0 ∧ t.phase = .stop ∧ t.rs = s.rs ∧ t.ws = s.ws ∧ t.ms = s.ms) ∨
          (s.gotStop = false ∧ t.phase = .waitStop ∧ t.rs = s.rs ∧ t.ws = s.ws ∧ t.ms = s.ms)) := by
      rintro _ rfl
      unfold St.edge
      rw [hb]
      unfold St.onWaitStop
      cases hgs : s.gotStop
      · simp [hph, St.pend]
      · by_cases hz : s.ws = 0 <;> simp [hz, St.pend, St.refill]
    obtain ⟨t, ht⟩ : ∃ t, t = s.edge c x := ⟨_, rfl⟩
    rw [← ht]
    obtain ⟨e1, e2, e3, e4⟩ := e t ht
    rcases e4 with ⟨_, hz, f1, f2, f3, f4, f5, f6⟩ | ⟨_, hz, f1, f2, f3, f4⟩ | ⟨_, f1, f2, f3, f4⟩
    · have hnil : members c d.2 d.1 = [] := by rw [← p3, hz]; rfl
      have hsl : slots t (ds ++ [d]) d = ds ++ [d] := by simp [slots, f1, Phase.busy]
      refine ⟨ds ++ [d], d, ?_, ?_, ?_⟩
      · simp only [PI, f1]
        rw [log_keep e1, f2, p4, cmds_snoc, hnil]
        exact ⟨by simp [ons, offs], count_pos c, lists_zero f3 f4 f5 f6⟩
      · rw [hsl]; exact sub_keep hs ⟨by simp [hph], by simp [hph]⟩ e2 e3
      · rw [hsl]; exact fun e he => hQ _ (hP e he)
    · have hsl : slots t ds d = ds ++ [d] := by simp [slots, f1, Phase.busy]
      refine ⟨ds, d, ?_, ?_, ?_⟩
      · simp only [PI, f1]
        rw [log_keep e1, f2, f3, f4, p1]
        exact ⟨by omega, p2, p3, by simpa [offs] using p4⟩
      · rw [hsl]; exact sub_keep hs ⟨by simp [hph], by simp [hph]⟩ e2 e3
      · rw [hsl]; exact fun e he => hQ _ (hP e he)
    · have hsl : slots t ds d = ds ++ [d] := by simp [slots, f1, Phase.busy]
      refine ⟨ds, d, ?_, ?_, ?_⟩
      · simp only [PI, f1]
        rw [log_keep e1, f2, f3, f4]
        exact ⟨p1, p2, p3, p4⟩
      · rw [hsl]; exact sub_keep hs ⟨by simp [hph], by simp [hph]⟩ e2 e3
      · rw [hsl]; exact fun e he => hQ _ (hP e he)
  | stop =>
    simp only [PI, hph] at hp
    obtain ⟨p1, p2, p3, p4⟩ := hp
    have hb : s.body c x = s.onStop c { s with valid := s.valid && !x.ready } x := by simp only [St.body, hph]
    have hbs : slots s ds d = ds ++ [d] := by simp [slots, hph, Phase.busy]
    rw [hbs] at hs hP
    have n0 := next_eq (c := c) (p := s.rs) (by omega)
    have hlg : offs ((members c d.2 d.1).take (s.rs + 1)) = offs ((members c d.2 d.1).take s.rs) ++ [(s.ms s.rs, false)] := by
      rw [← p3, upto_take p1]; simp [offs]
    by_cases hf : (!s.valid || x.ready) = true
    · have e : ∀ t, t = s.edge c x → t.pend = [(s.ms s.rs, false)] ∧
          t.gotStart = (s.gotStart || (!s.gotStart && x.start)) ∧ t.startIndex = (if !s.gotStart && x.start then x.index else s.startIndex) ∧
          ((s.rs + 1 = s.ws ∧ t.phase = .fill ∧ t.ptr = 0 ∧ t.w0 = 0 ∧ t.wn = 0 ∧ t.r0 = 0 ∧ t.rn = 0) ∨
            (s.rs + 1 ≠ s.ws ∧ t.phase = .stop ∧ t.rs = s.rs + 1 ∧ t.ws = s.ws ∧ t.ms = s.ms)) := by
        rintro _ rfl
        unfold St.edge
        rw [hb]
        unfold St.onStop
        by_cases hz : s.rs + 1 = s.ws <;> simp [hz, St.pend, St.refill, hf, hph, n0]
      obtain ⟨t, ht⟩ : ∃ t, t = s.edge c x := ⟨_, rfl⟩
      rw [← ht]
      obtain ⟨e1, e2, e3, e4⟩ := e t ht
      rcases e4 with ⟨hz, f1, f2, f3, f4, f5, f6⟩ | ⟨hz, f1, f2, f3, f4⟩
      · have hall : (members c d.2 d.1).take (s.rs + 1) = members c d.2 d.1 := by
          rw [hz, ← p3]; exact List.take_of_length_le (by rw [upto_len]; exact Nat.le_refl _)
        have hsl : slots t (ds ++ [d]) d = ds ++ [d] := by simp [slots, f1, Phase.busy]
        refine ⟨ds ++ [d], d, ?_, ?_, ?_⟩
        · simp only [PI, f1]
          rw [log_new hf e1, f2, ← List.append_assoc, p4, cmds_snoc]
          refine ⟨?_, count_pos c, lists_zero f3 f4 f5 f6⟩
          rw [List.append_assoc, List.append_assoc, ← hlg, hall]
        · rw [hsl]; exact sub_keep hs ⟨by simp [hph], by simp [hph]⟩ e2 e3
        · rw [hsl]; exact fun e he => hQ _ (hP e he)
      · have hsl : slots t ds d = ds ++ [d] := by simp [slots, f1, Phase.busy]
        refine ⟨ds, d, ?_, ?_, ?_⟩
        · simp only [PI, f1]
          rw [log_new hf e1, f2, f3, f4, ← List.append_assoc, p4]
          refine ⟨by omega, p2, p3, ?_⟩
          rw [List.append_assoc, List.append_assoc, ← hlg]
        · rw [hsl]; exact sub_keep hs ⟨by simp [hph], by simp [hph]⟩ e2 e3
        · rw [hsl]; exact fun e he => hQ _ (hP e he)
    · have e : ∀ t, t = s.edge c x → t.pend = (if s.valid && !x.ready then [(s.queue, s.enable)] else []) ∧
          t.gotStart = (s.gotStart || (!s.gotStart && x.start)) ∧ t.startIndex = (if !s.gotStart && x.start then x.index else s.startIndex) ∧
          t.phase = .stop ∧ t.rs = s.rs ∧ t.ws = s.ws ∧ t.ms = s.ms := by
        rintro _ rfl
        unfold St.edge
        rw [hb]
        unfold St.onStop
        rw [if_neg hf]
        exact ⟨rfl, rfl, rfl, hph, rfl, rfl, rfl⟩
      obtain ⟨t, ht⟩ : ∃ t, t = s.edge c x := ⟨_, rfl⟩
      rw [← ht]
      obtain ⟨e1, e2, e3, f1, f2, f3, f4⟩ := e t ht
      have hsl : slots t ds d = ds ++ [d] := by simp [slots, f1, Phase.busy]
      refine ⟨ds, d, ?_, ?_, ?_⟩
      · simp only [PI, f1]
        rw [log_keep e1, f2, f3, f4]
        exact ⟨p1, p2, p3, p4⟩
      · rw [hsl]; exact sub_keep hs ⟨by simp [hph], by simp [hph]⟩ e2 e3
      · rw [hsl]; exact fun e he => hQ _ (hP e he)

end Corundum.TdmaCtrl
