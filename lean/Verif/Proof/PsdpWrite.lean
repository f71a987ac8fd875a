import Verif.Proof.PsdpRam

/-! Segmented RAM: the write side under every schedule. -/

namespace Corundum.PsdpRam

open Corundum.Spec

/-- Entries of one segment, in order. -/
def sel {α : Type} (i : Nat) : List (Nat × α) → List α
  | [] => []
  | p :: t => if p.1 = i then p.2 :: sel i t else sel i t

theorem sel_append {α : Type} (i : Nat) : ∀ (a b : List (Nat × α)), sel i (a ++ b) = sel i a ++ sel i b
  | [], _ => rfl
  | p :: t, b => by
    rw [List.cons_append, sel, sel, sel_append i t b]
    split <;> rfl

theorem enqueue_sel {α : Type} : ∀ (l : List (Nat × α)) (q : Nat → List α) (i : Nat),
    enqueue q l i = q i ++ sel i l
  | [], q, i => by simp [enqueue, sel]
  | (s, o) :: t, q, i => by
    rw [enqueue, enqueue_sel t, sel]
    unfold upd
    by_cases h : i = s
    · rw [if_pos h, if_pos h.symm, h]; simp
    · rw [if_neg h, if_neg (fun e => h e.symm)]

/-- All operations of a list of commands. -/
def allOps (c : Cfg) (I : List (Nat × List Nat)) : List (Nat × Op) :=
  I.flatMap fun w => (writeOps c w.1 w.2).1

/-- Operations of one segment applied in order. -/
def execSeg (c : Cfg) (i : Nat) (l : List Op) (m : Mem) : Mem := l.foldl (fun m o => exec c i o m) m

theorem execSeg_congr (c : Cfg) (hsc : 0 < c.sc) (i : Nat) (x : Nat) : ∀ (l : List Op) (m m' : Mem),
    m x = m' x → execSeg c i l m x = execSeg c i l m' x
  | [], _, _, h => h
  | o :: l, m, m', h => execSeg_congr c hsc i x l _ _ (exec_congr c hsc i o m m' x h)

theorem execAll_congr (c : Cfg) (hsc : 0 < c.sc) (x : Nat) : ∀ (l : List (Nat × Op)) (m m' : Mem),
    m x = m' x → execAll c l m x = execAll c l m' x
  | [], _, _, h => h
  | p :: l, m, m', h => execAll_congr c hsc x l _ _ (exec_congr c hsc p.1 p.2 m m' x h)

/-- At one byte only the operations of its own segment count. -/
theorem execAll_sel (c : Cfg) (hsc : 0 < c.sc) (x : Nat) : ∀ (l : List (Nat × Op)) (m : Mem),
    (∀ p ∈ l, p.1 < c.sc) → execAll c l m x = execSeg c (segOf c x) (sel (segOf c x) l) m x
  | [], _, _ => rfl
  | p :: l, m, h => by
    have h' := execAll_sel c hsc x l (exec c p.1 p.2 m) fun q hq => h q (by simp [hq])
    show execAll c l (exec c p.1 p.2 m) x = _
    rw [h', sel]
    by_cases e : p.1 = segOf c x
    · rw [if_pos e, ← e]; rfl
    · rw [if_neg e]
      exact execSeg_congr c hsc _ x _ _ _ (exec_other c hsc (h p (by simp)) p.2 m x (fun q => e q.symm))

theorem sel_mem {α : Type} (i : Nat) : ∀ (l : List (Nat × α)) (o : α), o ∈ sel i l → (i, o) ∈ l
  | p :: t, o, h => by
    rw [sel] at h
    split at h
    · rename_i e
      rcases List.mem_cons.mp h with rfl | h
      · subst e; simp
      · exact List.mem_cons_of_mem _ (sel_mem i t o h)
    · exact List.mem_cons_of_mem _ (sel_mem i t o h)

theorem execSeg_skip (c : Cfg) (i x : Nat) : ∀ (l : List Op) (m : Mem),
    (∀ o ∈ l, ∀ m, exec c i o m x = m x) → execSeg c i l m x = m x
  | [], _, _ => rfl
  | o :: l, m, h => by
    show execSeg c i l (exec c i o m) x = _
    rw [execSeg_skip c i x l _ fun o' ho => h o' (by simp [ho]), h o (by simp)]

/-- The address range of a command. -/
def covers (w : Nat × List Nat) (x : Nat) : Prop := w.1 ≤ x ∧ x < w.1 + w.2.length

/-- Valid commands: `write` accepts them, and the data are bytes. -/
def Valid (c : Cfg) (w : Nat × List Nat) : Prop := w.1 + w.2.length ≤ c.space ∧ ∀ d ∈ w.2, d < 256

theorem allOps_seg (c : Cfg) (hsc : 0 < c.sc) (hsb : 0 < c.sbl) (I : List (Nat × List Nat))
    (h : ∀ w ∈ I, Valid c w) : ∀ p ∈ allOps c I, p.1 < c.sc := by
  intro p hp
  unfold allOps at hp
  rw [List.mem_flatMap] at hp
  obtain ⟨w, hw, hp⟩ := hp
  exact (writeOps_spec c hsc hsb w.1 w.2 (h w hw).2 (h w hw).1).2.2.1.seg p hp

theorem allOps_flat (c : Cfg) (hsc : 0 < c.sc) (hsb : 0 < c.sbl) : ∀ (I : List (Nat × List Nat)) (m : Mem),
    (∀ w ∈ I, Valid c w) → execAll c (allOps c I) m = I.foldl (fun m w => flatWrite c.space m w.1 w.2) m
  | [], _, _ => rfl
  | w :: I, m, h => by
    have e := (writeOps_spec c hsc hsb w.1 w.2 (h w (by simp)).2 (h w (by simp)).1).2.2.2 m
    show execAll c ((writeOps c w.1 w.2).1 ++ allOps c I) m = _
    unfold execAll at e ⊢
    rw [List.foldl_append, e]
    exact allOps_flat c hsc hsb I _ fun v hv => h v (by simp [hv])

/-- Response command belonging to a write. -/
def respOf (c : Cfg) (w : Nat × List Nat) : RespCmd :=
  ⟨w.1, w.2.length, segments c w.1 w.2.length, w.1 / c.sbl % c.sc⟩

/-- Operations whose completion the response coroutine has taken. -/
def taken (c : Cfg) (I : List (Nat × List Nat)) (J k : Nat) : List (Nat × Op) :=
  allOps c (I.take J) ++ (match (I.drop J) with | [] => [] | w :: _ => (writeOps c w.1 w.2).1.take k)

structure WInv (c : Cfg) (m0 : Mem) (I : List (Nat × List Nat)) (s : WSys) (E : Nat → List Op) : Prop where
  stream : ∀ i, sel i (allOps c I) = E i ++ (s.cmd i).toList ++ s.q i
  mem : ∀ x, s.mem x = execSeg c (segOf c x) (E (segOf c x)) m0 x
  comp : s.completed = (I.take s.completed.length).map fun w => (w.1, w.2.length)
  pend : s.rc = (I.drop s.completed.length).map (respOf c)
  jle : s.completed.length ≤ I.length
  kle : ∀ r rest, s.rc = r :: rest → s.k ≤ r.segs
  kz : s.rc = [] → s.k = 0
  count : ∀ i, (E i).length = (sel i (taken c I s.completed.length s.k)).length + s.respq i + (if s.done i then 1 else 0)

theorem WInv.init (c : Cfg) (m0 : Mem) : WInv c m0 [] (WSys.init m0) (fun _ => []) := by
  constructor <;> simp [WSys.init, allOps, sel, execSeg, taken]

theorem ramWrite_at (c : Cfg) (hsc : 0 < c.sc) (ready : Bool) (cmd : Nat → Option Op) (x : Nat) :
    ∀ (n : Nat) (m : Mem), n ≤ c.sc → ramWrite c ready cmd n m x =
      if segOf c x < n then execSeg c (segOf c x) (if ready then (cmd (segOf c x)).toList else []) m x else m x
  | 0, m, _ => by simp [ramWrite]
  | n + 1, m, hn => by
    rw [ramWrite]
    have ih := ramWrite_at c hsc ready cmd x n m (by omega)
    have hoth : ∀ o, segOf c x ≠ n → exec c n o (ramWrite c ready cmd n m) x = ramWrite c ready cmd n m x :=
      fun o h => exec_other c hsc (by omega) o _ x h
    have hseg : segOf c x ≠ n → ramSeg c ready (cmd n) n (ramWrite c ready cmd n m) x = ramWrite c ready cmd n m x := by
      intro h
      unfold ramSeg
      cases cmd n with
      | none => rfl
      | some o => cases ready <;> simp [hoth o h]
    by_cases hx : segOf c x = n
    · rw [if_neg (by omega)] at ih
      rw [if_pos (by omega), hx]
      unfold ramSeg
      cases hc : cmd n with
      | none => simpa [execSeg] using ih
      | some o =>
        cases hr : ready with
        | false => rw [hr] at ih; simpa [execSeg] using ih
        | true =>
          rw [hr] at ih
          simp only [if_true, Option.toList, execSeg, List.foldl_cons, List.foldl_nil]
          exact exec_congr c hsc n o _ _ x ih
    · rw [hseg hx, ih]
      by_cases h : segOf c x < n
      · rw [if_pos h, if_pos (show segOf c x < n + 1 by omega)]
      · rw [if_neg h, if_neg (show ¬ segOf c x < n + 1 by omega)]

theorem taken_append (c : Cfg) (I : List (Nat × List Nat)) (w : Nat × List Nat) (J k : Nat) (hJ : J ≤ I.length)
    (hk : J = I.length → k = 0) : taken c (I ++ [w]) J k = taken c I J k := by
  unfold taken
  rw [List.take_append_of_le_length hJ, List.drop_append_of_le_length hJ]
  cases h : I.drop J with
  | nil =>
    have : J = I.length := by
      have := congrArg List.length h
      rw [List.length_drop, List.length_nil] at this
      omega
    rw [hk this]
    simp
  | cons a t => rfl

theorem WInv.step {c : Cfg} (hsc : 0 < c.sc) (hsb : 0 < c.sbl) {m0 : Mem} {I : List (Nat × List Nat)} {s : WSys}
    {E : Nat → List Op} (h : WInv c m0 I s E) (hI : ∀ w ∈ I, Valid c w) (e : WEv) :
    ∃ E', WInv c m0 (I ++ issued [e]) (s.step c e) E' := by
  cases e with
  | write a d =>
    refine ⟨E, ?_⟩
    have hrc : s.rc = [] ↔ s.completed.length = I.length := by
      rw [h.pend, List.map_eq_nil_iff, List.drop_eq_nil_iff]
      have := h.jle
      omega
    constructor
    · intro i
      show sel i (allOps c (I ++ [(a, d)])) = E i ++ (s.cmd i).toList ++ enqueue s.q (writeOps c a d).1 i
      have : allOps c (I ++ [(a, d)]) = allOps c I ++ (writeOps c a d).1 := by simp [allOps]
      rw [this, sel_append, h.stream, enqueue_sel, List.append_assoc]
    · exact h.mem
    · show s.completed = ((I ++ [(a, d)]).take s.completed.length).map _
      rw [List.take_append_of_le_length h.jle]; exact h.comp
    · show s.rc ++ [respOf c (a, d)] = ((I ++ [(a, d)]).drop s.completed.length).map (respOf c)
      rw [List.drop_append_of_le_length h.jle, List.map_append, ← h.pend]; rfl
    · show s.completed.length ≤ (I ++ [(a, d)]).length
      have := h.jle
      simp; omega
    · intro r rest hr
      show s.k ≤ r.segs
      have hr' : s.rc ++ [respOf c (a, d)] = r :: rest := hr
      cases hc : s.rc with
      | nil => rw [h.kz hc]; omega
      | cons r' t =>
        rw [hc, List.cons_append, List.cons.injEq] at hr'
        rw [← hr'.1]
        exact h.kle r' t hc
    · intro hr
      have hr' : s.rc ++ [respOf c (a, d)] = [] := hr
      simp at hr'
    · intro i
      show (E i).length = (sel i (taken c (I ++ [(a, d)]) s.completed.length s.k)).length + s.respq i + _
      rw [taken_append c I (a, d) _ _ h.jle (fun e => h.kz (hrc.mpr e))]
      exact h.count i
  | clk mp rp =>
    refine ⟨fun i => E i ++ (if s.ready then (s.cmd i).toList else []), ?_⟩
    have hnil : I ++ issued [WEv.clk mp rp] = I := by simp [issued]
    rw [hnil]
    constructor
    · intro i
      rw [h.stream i]
      show _ = E i ++ (if s.ready then (s.cmd i).toList else []) ++
        (if s.ready || (s.cmd i).isNone then (if mp then none else (s.q i).head?) else s.cmd i).toList ++
        (if s.ready || (s.cmd i).isNone then (if mp then s.q i else (s.q i).tail) else s.q i)
      cases hr : s.ready <;> cases hc : s.cmd i <;> cases mp <;> cases hq : s.q i <;> simp
    · intro x
      have hlt : segOf c x < c.sc := Nat.mod_lt _ hsc
      show ramWrite c s.ready s.cmd c.sc s.mem x = _
      rw [ramWrite_at c hsc s.ready s.cmd x c.sc s.mem (Nat.le_refl _), if_pos hlt]
      unfold execSeg
      rw [List.foldl_append]
      exact execSeg_congr c hsc _ x _ _ _ (h.mem x)
    · exact h.comp
    · exact h.pend
    · exact h.jle
    · exact h.kle
    · exact h.kz
    · intro i
      have := h.count i
      show (E i ++ (if s.ready then (s.cmd i).toList else [])).length =
        (sel i (taken c I s.completed.length s.k)).length + (if s.done i then s.respq i + 1 else s.respq i) +
          (if (s.ready && (s.cmd i).isSome) = true then 1 else 0)
      rw [List.length_append, this]
      cases hr : s.ready <;> cases hc : s.cmd i <;> cases hd : s.done i <;> simp <;> omega
  | resp =>
    refine ⟨E, ?_⟩
    have hnil : I ++ issued [WEv.resp] = I := by simp [issued]
    rw [hnil]
    unfold WSys.step
    cases hrc : s.rc with
    | nil => simpa using h
    | cons r rest =>
      have hpend := h.pend
      rw [hrc] at hpend
      have hkle := h.kle r rest hrc
      -- the command being completed
      obtain ⟨w, t, hdrop, hr, hrest⟩ : ∃ w t, I.drop s.completed.length = w :: t ∧ r = respOf c w ∧ rest = t.map (respOf c) := by
        cases hd : I.drop s.completed.length with
        | nil => rw [hd] at hpend; simp at hpend
        | cons w t =>
          rw [hd, List.map_cons, List.cons.injEq] at hpend
          exact ⟨w, t, rfl, hpend.1, hpend.2⟩
      have hwI : w ∈ I := List.mem_of_mem_drop (by rw [hdrop]; simp)
      obtain ⟨-, hlen, hok, -⟩ := writeOps_spec c hsc hsb w.1 w.2 (hI w hwI).2 (hI w hwI).1
      have hsegs : r.segs = (writeOps c w.1 w.2).1.length := by rw [hr, hlen]; rfl
      by_cases hk : s.k < r.segs
      · simp only [hk, if_true]
        by_cases hp : 0 < s.respq ((r.first + s.k) % c.sc)
        · simp only [hp, if_true]
          have hkl : s.k < (writeOps c w.1 w.2).1.length := by omega
          have hfst : ((writeOps c w.1 w.2).1[s.k]).1 = (r.first + s.k) % c.sc := by
            have e1 : ((writeOps c w.1 w.2).1.map (·.1))[s.k]'(by simpa using hkl) =
                ((writeOps c w.1 w.2).1[s.k]).1 := List.getElem_map ..
            rw [← e1]
            simp only [hok.segs]
            rw [List.getElem_map, List.getElem_range']
            rw [hr]
            show _ = (w.1 / c.sbl % c.sc + s.k) % c.sc
            rw [Nat.mod_add_mod, Nat.zero_add, Nat.one_mul]
          constructor
          · exact h.stream
          · exact h.mem
          · exact h.comp
          · exact hpend
          · exact h.jle
          · intro r' rest' hr'
            show s.k + 1 ≤ r'.segs
            have : r :: rest = r' :: rest' := hr'
            rw [List.cons.injEq] at this
            rw [← this.1]; omega
          · intro hr'
            have : r :: rest = [] := hr'
            exact absurd this (by simp)
          · intro i
            have hcnt := h.count i
            show (E i).length = (sel i (taken c I s.completed.length (s.k + 1))).length +
              upd s.respq ((r.first + s.k) % c.sc) (s.respq ((r.first + s.k) % c.sc) - 1) i + _
            have ht : taken c I s.completed.length (s.k + 1) =
                taken c I s.completed.length s.k ++ [(writeOps c w.1 w.2).1[s.k]] := by
              unfold taken
              rw [hdrop]
              simp only
              rw [List.append_assoc, List.take_append_getElem hkl]
            rw [ht, sel_append, List.length_append, sel, hfst]
            unfold upd
            by_cases hi : i = (r.first + s.k) % c.sc
            · subst hi
              rw [if_pos rfl, if_pos rfl]
              simp only [sel, List.length_cons, List.length_nil]
              show _ = _ + _ + _ + (if s.done _ = true then 1 else 0)
              omega
            · rw [if_neg (fun e => hi e.symm), if_neg hi]
              simp only [sel, List.length_nil]
              show _ = _ + _ + _ + (if s.done _ = true then 1 else 0)
              omega
        · simp only [hp, if_false]; exact h
      · simp only [hk, if_false]
        have hkeq : s.k = r.segs := by omega
        have hjl : s.completed.length < I.length := by
          have := congrArg List.length hdrop
          rw [List.length_drop, List.length_cons] at this
          omega
        have hget : I[s.completed.length] = w := by
          have e := List.drop_eq_getElem_cons hjl
          rw [hdrop, List.cons.injEq] at e
          exact e.1.symm
        have htk : I.take (s.completed.length + 1) = I.take s.completed.length ++ [w] := by
          rw [← hget, List.take_append_getElem hjl]
        have hdr : I.drop (s.completed.length + 1) = t := by
          have := congrArg List.tail hdrop
          rwa [List.tail_drop, List.tail_cons] at this
        constructor
        · exact h.stream
        · exact h.mem
        · show s.completed ++ [(r.addr, r.len)] = (I.take (s.completed ++ [(r.addr, r.len)]).length).map _
          rw [List.length_append, List.length_singleton, htk, List.map_append, ← h.comp, hr]
          rfl
        · show rest = (I.drop (s.completed ++ [(r.addr, r.len)]).length).map (respOf c)
          rw [List.length_append, List.length_singleton, hdr, hrest]
        · show (s.completed ++ [(r.addr, r.len)]).length ≤ I.length
          rw [List.length_append, List.length_singleton]; exact hjl
        · intro r' rest' _
          exact Nat.zero_le _
        · intro _; rfl
        · intro i
          have hcnt := h.count i
          show (E i).length = (sel i (taken c I (s.completed ++ [(r.addr, r.len)]).length 0)).length + s.respq i + (if s.done i = true then 1 else 0)
          have ht : taken c I (s.completed ++ [(r.addr, r.len)]).length 0 = taken c I s.completed.length s.k := by
            rw [List.length_append, List.length_singleton]
            unfold taken
            rw [htk, hdr, hdrop, hkeq, hsegs]
            simp only [List.take_length]
            cases t <;> simp [allOps]
          rw [ht]; exact hcnt

theorem issued_append : ∀ (a b : List WEv), issued (a ++ b) = issued a ++ issued b
  | [], _ => rfl
  | e :: a, b => by cases e <;> simp [issued, issued_append a b]

theorem WInv.run {c : Cfg} (hsc : 0 < c.sc) (hsb : 0 < c.sbl) {m0 : Mem} : ∀ (es : List WEv) (I : List (Nat × List Nat))
    (s : WSys) (E : Nat → List Op), WInv c m0 I s E → (∀ w ∈ I ++ issued es, Valid c w) →
    ∃ E', WInv c m0 (I ++ issued es) (s.run c es) E'
  | [], I, s, E, h, _ => ⟨E, by rw [issued, List.append_nil]; exact h⟩
  | e :: es, I, s, E, h, hv => by
    have e1 : issued (e :: es) = issued [e] ++ issued es := issued_append [e] es
    obtain ⟨E1, h1⟩ := h.step hsc hsb (fun w hw => hv w (by simp [hw])) e
    obtain ⟨E2, h2⟩ := WInv.run hsc hsb es (I ++ issued [e]) _ E1 h1 (by
      intro w hw
      apply hv w
      rw [e1, ← List.append_assoc]; exact hw)
    refine ⟨E2, ?_⟩
    rw [e1, ← List.append_assoc]
    exact h2

/-- Memory contents at a byte that no unfinished command addresses. -/
theorem WInv.content {c : Cfg} (hsc : 0 < c.sc) (hsb : 0 < c.sbl) {m0 : Mem} {I : List (Nat × List Nat)} {s : WSys}
    {E : Nat → List Op} (h : WInv c m0 I s E) (hv : ∀ w ∈ I, Valid c w) (x : Nat)
    (hx : ∀ w ∈ I.drop s.completed.length, ¬ covers w x) :
    s.mem x = (I.take s.completed.length).foldl (fun m w => flatWrite c.space m w.1 w.2) m0 x := by
  have hv1 : ∀ w ∈ I.take s.completed.length, Valid c w := fun w hw => hv w (List.mem_of_mem_take hw)
  rw [h.mem x, ← allOps_flat c hsc hsb _ m0 hv1, execAll_sel c hsc x _ m0 (allOps_seg c hsc hsb _ hv1)]
  generalize hi : segOf c x = i
  -- the executed operations extend those of the completed commands
  have hst := h.stream i
  have hsplit : allOps c I = allOps c (I.take s.completed.length) ++ allOps c (I.drop s.completed.length) := by
    unfold allOps
    rw [← List.flatMap_append, List.take_append_drop]
  rw [hsplit, sel_append, List.append_assoc] at hst
  have hlen : (sel i (allOps c (I.take s.completed.length))).length ≤ (E i).length := by
    rw [h.count i]
    unfold taken
    rw [sel_append, List.length_append]
    omega
  obtain ⟨F, hF⟩ : ∃ F, E i = sel i (allOps c (I.take s.completed.length)) ++ F := by
    have h1 : sel i (allOps c (I.take s.completed.length)) <+: E i ++ ((s.cmd i).toList ++ s.q i) := by
      rw [← hst]; exact List.prefix_append _ _
    obtain ⟨F, hF⟩ := List.prefix_of_prefix_length_le h1 (List.prefix_append _ _) hlen
    exact ⟨F, hF.symm⟩
  rw [hF, List.append_assoc] at hst
  have hFm := List.append_cancel_left hst
  rw [hF]
  unfold execSeg
  rw [List.foldl_append]
  apply execSeg_skip
  intro o ho m
  have hmem : o ∈ sel i (allOps c (I.drop s.completed.length)) := by
    rw [hFm]; simp [ho]
  have hmem2 := sel_mem i _ _ hmem
  unfold allOps at hmem2
  rw [List.mem_flatMap] at hmem2
  obtain ⟨w, hw, hwo⟩ := hmem2
  have hval := hv w (List.mem_of_mem_drop hw)
  have := (writeOps_spec c hsc hsb w.1 w.2 hval.2 hval.1).2.2.1.local' _ hwo m x (by
    have := hx w hw
    unfold covers at this
    omega)
  exact this

end Corundum.PsdpRam
