import Verif.Proof.PsdpRead

/-! Segmented RAM: once neither side pauses, every issued command completes. -/

namespace Corundum.PsdpRam

open Corundum.Spec

theorem sel_length_le {α : Type} (i : Nat) : ∀ l : List (Nat × α), (sel i l).length ≤ l.length
  | [] => Nat.le_refl _
  | p :: t => by
    have := sel_length_le i t
    rw [sel]
    split <;> simp <;> omega

/-- Responses still to be taken. -/
def owed : List RespCmd → Nat
  | [] => 0
  | r :: t => r.segs + 1 + owed t

/-! ### Writes -/

theorem WSys.run_append (c : Cfg) (s : WSys) (a b : List WEv) : s.run c (a ++ b) = (s.run c a).run c b :=
  List.foldl_append

theorem wclk_drain (c : Cfg) : ∀ (n : Nat) (s : WSys), s.ready = true →
    (s.run c (List.replicate n (.clk false false))).ready = true ∧
    ∀ i, (s.run c (List.replicate n (.clk false false))).q i = (s.q i).drop n
  | 0, s, h => ⟨h, fun _ => rfl⟩
  | n + 1, s, h => by
    have := wclk_drain c n (s.step c (.clk false false)) rfl
    rw [List.replicate_succ]
    refine ⟨this.1, fun i => ?_⟩
    have h2 := this.2 i
    have h3 : (s.step c (.clk false false)).q i = (s.q i).tail := by
      show (if s.ready || (s.cmd i).isNone then (if false = true then s.q i else (s.q i).tail) else s.q i) = _
      rw [h]; rfl
    rw [h3] at h2
    show (((s.step c (.clk false false)).run c (List.replicate n (.clk false false))).q i) = _
    rw [h2, List.drop_tail]

/-- Nothing in flight between the master and the RAM. -/
def WQuiet (s : WSys) : Prop := ∀ i, s.q i = [] ∧ s.cmd i = none ∧ s.done i = false

theorem w_quiet (c : Cfg) (s : WSys) (B : Nat) (hB : ∀ i, (s.q i).length ≤ B) :
    WQuiet (s.run c (List.replicate (B + 3) (.clk false false))) := by
  have e : List.replicate (B + 3) (WEv.clk false false) = [.clk false false] ++ (List.replicate B (.clk false false) ++
      [.clk false false, .clk false false]) := by
    rw [show [WEv.clk false false, .clk false false] = List.replicate 2 (.clk false false) from rfl,
      show [WEv.clk false false] = List.replicate 1 (.clk false false) from rfl, List.replicate_append_replicate,
      List.replicate_append_replicate]
    congr 1; omega
  rw [e, WSys.run_append, WSys.run_append]
  generalize hs1 : s.run c [.clk false false] = s1
  have hr1 : s1.ready = true := by rw [← hs1]; rfl
  have hq1 : ∀ i, (s1.q i).length ≤ B := by
    intro i
    rw [← hs1]
    show (if s.ready || (s.cmd i).isNone then (if false = true then s.q i else (s.q i).tail) else s.q i).length ≤ B
    have := hB i
    split <;> simp <;> omega
  obtain ⟨hr2, hq2⟩ := wclk_drain c B s1 hr1
  generalize s1.run c (List.replicate B (.clk false false)) = s2 at *
  have hq2' : ∀ i, s2.q i = [] := by
    intro i
    rw [hq2 i, List.drop_eq_nil_iff]
    exact hq1 i
  intro i
  have hq := hq2' i
  refine ⟨?_, ?_, ?_⟩
  · simp [WSys.run, WSys.step, hr2, hq]
  · simp [WSys.run, WSys.step, hr2, hq]
  · simp [WSys.run, WSys.step, hr2, hq]

theorem wclk_keep (c : Cfg) : ∀ (n : Nat) (s : WSys),
    (s.run c (List.replicate n (.clk false false))).rc = s.rc
  | 0, _ => rfl
  | n + 1, s => by
    rw [List.replicate_succ]
    exact wclk_keep c n (s.step c (.clk false false))

theorem w_resp {c : Cfg} (hsc : 0 < c.sc) (hsb : 0 < c.sbl) {m0 : Mem} {I : List (Nat × List Nat)}
    (hI : ∀ w ∈ I, Valid c w) : ∀ (n : Nat) (s : WSys) (E : Nat → List Op), WInv c m0 I s E → WQuiet s →
    owed s.rc - s.k ≤ n → (s.run c (List.replicate n .resp)).rc = []
  | n, s, E, h, hq, hn => by
    cases hrc : s.rc with
    | nil =>
      have : ∀ n, s.run c (List.replicate n .resp) = s := by
        intro n
        induction n with
        | zero => rfl
        | succ n ih =>
          rw [List.replicate_succ]
          show (s.step c .resp).run c (List.replicate n .resp) = s
          have : s.step c .resp = s := by unfold WSys.step; rw [hrc]
          rw [this]; exact ih
      rw [this, hrc]
    | cons r rest =>
      have hkle := h.kle r rest hrc
      have hpend := h.pend
      rw [hrc] at hn hpend
      simp only [owed] at hn
      obtain ⟨w, t, hdrop, hr, hrest⟩ : ∃ w t, I.drop s.completed.length = w :: t ∧ r = respOf c w ∧ rest = t.map (respOf c) := by
        cases hd : I.drop s.completed.length with
        | nil => rw [hd] at hpend; simp at hpend
        | cons w t =>
          rw [hd, List.map_cons, List.cons.injEq] at hpend
          exact ⟨w, t, rfl, hpend.1, hpend.2⟩
      cases n with
      | zero => omega
      | succ n =>
        rw [List.replicate_succ]
        show ((s.step c .resp).run c (List.replicate n .resp)).rc = []
        have hstep : (s.step c .resp).q = s.q ∧ (s.step c .resp).cmd = s.cmd ∧ (s.step c .resp).done = s.done := by
          unfold WSys.step
          rw [hrc]
          simp only
          split
          · split <;> exact ⟨rfl, rfl, rfl⟩
          · exact ⟨rfl, rfl, rfl⟩
        obtain ⟨E', h'⟩ := h.step hsc hsb hI .resp
        rw [show issued [WEv.resp] = [] from rfl, List.append_nil] at h'
        apply w_resp hsc hsb hI n _ E' h' (by
          intro i
          rw [hstep.1, hstep.2.1, hstep.2.2]
          exact hq i)
        unfold WSys.step
        rw [hrc]
        simp only
        by_cases hk : s.k < r.segs
        · rw [if_pos hk]
          have hw := hI w (List.mem_of_mem_drop (by rw [hdrop]; simp))
          obtain ⟨_, hlen, hok, _⟩ := writeOps_spec c hsc hsb w.1 w.2 hw.2 hw.1
          have hsegs : r.segs = (writeOps c w.1 w.2).1.length := by rw [hr, hlen]; rfl
          have hkl : s.k < (writeOps c w.1 w.2).1.length := by omega
          have hseg : ((writeOps c w.1 w.2).1[s.k]).1 = (r.first + s.k) % c.sc := by
            have e := congrArg (fun l => l[s.k]?) hok.segs
            simp only [List.getElem?_map, List.getElem?_eq_getElem hkl, Option.map_some] at e
            rw [List.getElem?_eq_getElem (by simpa using hkl), List.getElem_range', Option.map_some, Option.some.injEq] at e
            rw [hr]
            show _ = (w.1 / c.sbl % c.sc + s.k) % c.sc
            rw [Nat.mod_add_mod, e]
            simp
          generalize hsg : (r.first + s.k) % c.sc = sg at *
          have hpos : 0 < s.respq sg := by
            have hc := h.count sg
            have hst := h.stream sg
            rw [(hq sg).1, (hq sg).2.1] at hst
            rw [(hq sg).2.2] at hc
            simp only [Option.toList_none, List.append_nil] at hst
            have hsplit : allOps c I = taken c I s.completed.length s.k ++
                ((writeOps c w.1 w.2).1[s.k] :: ((writeOps c w.1 w.2).1.drop (s.k + 1) ++ allOps c t)) := by
              unfold taken
              rw [hdrop]
              simp only
              rw [List.append_assoc, ← List.cons_append, ← List.drop_eq_getElem_cons hkl, ← List.append_assoc ((writeOps c w.1 w.2).1.take s.k), List.take_append_drop]
              conv => lhs; rw [← List.take_append_drop s.completed.length I, hdrop]
              unfold allOps
              rw [List.flatMap_append, List.flatMap_cons]
            have hl := congrArg List.length hst
            rw [hsplit, sel_append, List.length_append] at hl
            have hcons : (sel sg ((writeOps c w.1 w.2).1[s.k] :: ((writeOps c w.1 w.2).1.drop (s.k + 1) ++ allOps c t))).length
                = (sel sg ((writeOps c w.1 w.2).1.drop (s.k + 1) ++ allOps c t)).length + 1 := by
              generalize hp : (writeOps c w.1 w.2).1[s.k] = p at *
              obtain ⟨p1, p2⟩ := p
              rw [sel, if_pos hseg]; rfl
            simp only [Bool.false_eq_true, if_false] at hc
            omega
          rw [if_pos hpos]
          show owed (r :: rest) - (s.k + 1) ≤ n
          simp only [owed]; omega
        · rw [if_neg hk]
          show owed rest - 0 ≤ n
          omega

theorem write_live {c : Cfg} (hsc : 0 < c.sc) (hsb : 0 < c.sbl) (m0 : Mem) (es : List WEv)
    (hI : ∀ w ∈ issued es, Valid c w) : ∃ n k, ((WSys.init m0).run c
      (es ++ List.replicate n (.clk false false) ++ List.replicate k .resp)).completed =
      (issued es).map fun w => (w.1, w.2.length) := by
  obtain ⟨E, h⟩ := WInv.run hsc hsb es [] _ _ (WInv.init c m0) (by simpa using hI)
  rw [List.nil_append] at h
  have hclk : ∀ n, issued (List.replicate n (WEv.clk false false)) = [] := by
    intro n; induction n with
    | zero => rfl
    | succ n ih => rw [List.replicate_succ]; exact ih
  have hrsp : ∀ n, issued (List.replicate n WEv.resp) = [] := by
    intro n; induction n with
    | zero => rfl
    | succ n ih => rw [List.replicate_succ]; exact ih
  have hB : ∀ i, (((WSys.init m0).run c es).q i).length ≤ (allOps c (issued es)).length := by
    intro i
    have := congrArg List.length (h.stream i)
    have h2 := sel_length_le i (allOps c (issued es))
    rw [List.length_append] at this
    omega
  have hquiet := w_quiet c _ _ hB
  generalize hN : (allOps c (issued es)).length + 3 = N at *
  obtain ⟨E', h'⟩ := WInv.run hsc hsb (List.replicate N (.clk false false)) _ _ _ h (by rw [hclk, List.append_nil]; exact hI)
  rw [hclk, List.append_nil] at h'
  refine ⟨N, owed ((WSys.init m0).run c es).rc, ?_⟩
  have hdone := w_resp hsc hsb hI (owed ((WSys.init m0).run c es).rc) _ E' h' hquiet (by
    rw [wclk_keep]; omega)
  obtain ⟨E2, h2⟩ := WInv.run hsc hsb (List.replicate (owed ((WSys.init m0).run c es).rc) .resp) _ _ _ h' (by
    rw [hrsp, List.append_nil]; exact hI)
  rw [hrsp, List.append_nil] at h2
  rw [WSys.run_append, WSys.run_append]
  have hp := h2.pend
  rw [hdone] at hp
  have hd : (issued es).drop _ = [] := List.map_eq_nil_iff.mp hp.symm
  rw [List.drop_eq_nil_iff] at hd
  rw [h2.comp, List.take_of_length_le hd]

/-! ### Reads -/

theorem RSys.run_append (c : Cfg) (m : Mem) (s : RSys) (a b : List REv) :
    s.run c m (a ++ b) = (s.run c m a).run c m b := List.foldl_append

/-- Work left in the lanes of a segment. -/
def load (s : RSys) (i : Nat) : Nat :=
  4 * (s.q i).length + (if (s.cmd i).isSome then 3 else 0) + (if (s.pipe i).isSome then 2 else 0) +
    (if (s.resp i).isSome then 1 else 0)

/-- The master accepts responses and the RAM refuses commands only while both its slots are full. -/
def Flow (s : RSys) : Prop := s.mready = true ∧ ∀ i, s.ready i = ((s.resp i).isNone || (s.pipe i).isNone)

theorem flow_clk (c : Cfg) (m : Mem) (s : RSys) : Flow (s.step c m (.clk false false)) := by
  refine ⟨rfl, fun i => ?_⟩
  show (!false && ((s.resp' i).isNone || (s.pipe' c m i).isNone)) = ((s.resp' i).isNone || (s.pipe' c m i).isNone)
  simp

theorem load_clk (c : Cfg) (m : Mem) (s : RSys) (hf : Flow s) (i : Nat) :
    load (s.step c m (.clk false false)) i ≤ load s i - 1 := by
  have h1 := hf.1
  have h2 := hf.2 i
  unfold load
  simp only [RSys.step, RSys.resp', RSys.pipe', h2, h1]
  cases hre : s.resp i <;> cases hp : s.pipe i <;> cases hc : s.cmd i <;> cases hq : s.q i <;> simp <;> omega

theorem load_drain (c : Cfg) (m : Mem) : ∀ (n : Nat) (s : RSys), Flow s → ∀ i,
    load (s.run c m (List.replicate n (.clk false false))) i ≤ load s i - n
  | 0, _, _, _ => Nat.le_refl _
  | n + 1, s, h, i => by
    rw [List.replicate_succ]
    have h1 := load_drain c m n (s.step c m (.clk false false)) (flow_clk c m s) i
    have h2 := load_clk c m s h i
    show load ((s.step c m (.clk false false)).run c m (List.replicate n (.clk false false))) i ≤ _
    omega

theorem rclk_keep (c : Cfg) (m : Mem) : ∀ (n : Nat) (s : RSys),
    (s.run c m (List.replicate n (.clk false false))).rc = s.rc
  | 0, _ => rfl
  | n + 1, s => by
    rw [List.replicate_succ]
    exact rclk_keep c m n (s.step c m (.clk false false))

theorem r_resp {c : Cfg} (hsc : 0 < c.sc) (hsb : 0 < c.sbl) {m : Mem} (hm : ∀ x, m x < 256) {I : List (Nat × Nat)}
    (hI : ∀ w ∈ I, w.1 + w.2 ≤ c.space) : ∀ (n : Nat) (s : RSys) (T : Nat → List Nat), RInv c m I s T →
    (∀ i, load s i = 0) → owed s.rc - s.k ≤ n → (s.run c m (List.replicate n .resp)).rc = []
  | n, s, T, h, hq, hn => by
    cases hrc : s.rc with
    | nil =>
      have : ∀ n, s.run c m (List.replicate n .resp) = s := by
        intro n
        induction n with
        | zero => rfl
        | succ n ih =>
          rw [List.replicate_succ]
          show (s.step c m .resp).run c m (List.replicate n .resp) = s
          have : s.step c m .resp = s := by unfold RSys.step; rw [hrc]
          rw [this]; exact ih
      rw [this, hrc]
    | cons r rest =>
      have hkle := h.kle r rest hrc
      have hpend := h.pend
      rw [hrc] at hn hpend
      simp only [owed] at hn
      obtain ⟨w, t, hdrop, hr, hrest⟩ : ∃ w t, I.drop s.completed.length = w :: t ∧ r = rrespOf c w ∧ rest = t.map (rrespOf c) := by
        cases hd : I.drop s.completed.length with
        | nil => rw [hd] at hpend; simp at hpend
        | cons w t =>
          rw [hd, List.map_cons, List.cons.injEq] at hpend
          exact ⟨w, t, rfl, hpend.1, hpend.2⟩
      cases n with
      | zero => omega
      | succ n =>
        rw [List.replicate_succ]
        show ((s.step c m .resp).run c m (List.replicate n .resp)).rc = []
        have hstep : (s.step c m .resp).q = s.q ∧ (s.step c m .resp).cmd = s.cmd ∧ (s.step c m .resp).pipe = s.pipe ∧
            (s.step c m .resp).resp = s.resp := by
          unfold RSys.step
          rw [hrc]
          simp only
          split
          · split <;> exact ⟨rfl, rfl, rfl, rfl⟩
          · exact ⟨rfl, rfl, rfl, rfl⟩
        obtain ⟨T', h'⟩ := h.step hsc hsb hm hI .resp
        rw [show rissued [REv.resp] = [] from rfl, List.append_nil] at h'
        apply r_resp hsc hsb hm hI n _ T' h' (by
          intro i
          have := hq i
          unfold load at this ⊢
          rw [hstep.1, hstep.2.1, hstep.2.2.1, hstep.2.2.2]
          exact this)
        unfold RSys.step
        rw [hrc]
        simp only
        by_cases hk : s.k < r.segs
        · rw [if_pos hk]
          have hlen : (readAddrs c w.1 w.2).length = segments c w.1 w.2 := by rw [readAddrs_eq]; simp
          have hsegs : r.segs = (readAddrs c w.1 w.2).length := by rw [hr, hlen]; rfl
          have hkl : s.k < (readAddrs c w.1 w.2).length := by omega
          have hseg : ((readAddrs c w.1 w.2)[s.k]).1 = (r.first + s.k) % c.sc := by
            simp only [readAddrs_eq, List.getElem_map, List.getElem_range]
            rw [hr]
            show _ = (w.1 / c.sbl % c.sc + s.k) % c.sc
            rw [Nat.mod_add_mod]; rfl
          generalize hsg : (r.first + s.k) % c.sc = sg at *
          have hpos : s.respq sg ≠ [] := by
            intro hnil
            have hc := h.count sg
            have hst := h.stream sg
            have hl0 := hq sg
            unfold load at hl0
            have e1 : s.q sg = [] := by
              cases hx : s.q sg with
              | nil => rfl
              | cons a b => rw [hx, List.length_cons] at hl0; omega
            have e2 : s.cmd sg = none := by
              cases hx : s.cmd sg with
              | none => rfl
              | some a => rw [hx] at hl0; simp at hl0
            have e3 : s.pipe sg = none := by
              cases hx : s.pipe sg with
              | none => rfl
              | some a => rw [hx] at hl0; simp at hl0
            have e4 : s.resp sg = none := by
              cases hx : s.resp sg with
              | none => rfl
              | some a => rw [hx] at hl0; simp at hl0
            rw [e1, e2, e3, e4, hnil] at hst
            simp only [Option.toList_none, List.append_nil, List.map_nil] at hst
            have hsplit : allAddrs c I = rtaken c I s.completed.length s.k ++
                ((readAddrs c w.1 w.2)[s.k] :: ((readAddrs c w.1 w.2).drop (s.k + 1) ++ allAddrs c t)) := by
              unfold rtaken
              rw [hdrop]
              simp only
              rw [List.append_assoc, ← List.cons_append, ← List.drop_eq_getElem_cons hkl, ← List.append_assoc ((readAddrs c w.1 w.2).take s.k), List.take_append_drop]
              conv => lhs; rw [← List.take_append_drop s.completed.length I, hdrop]
              unfold allAddrs
              rw [List.flatMap_append, List.flatMap_cons]
            have hl := congrArg List.length hst
            rw [List.length_map, hsplit, sel_append, List.length_append] at hl
            have hcons : (sel sg ((readAddrs c w.1 w.2)[s.k] :: ((readAddrs c w.1 w.2).drop (s.k + 1) ++ allAddrs c t))).length
                = (sel sg ((readAddrs c w.1 w.2).drop (s.k + 1) ++ allAddrs c t)).length + 1 := by
              generalize hp : (readAddrs c w.1 w.2)[s.k] = p at *
              obtain ⟨p1, p2⟩ := p
              rw [sel, if_pos hseg]; rfl
            omega
          cases hv : s.respq sg with
          | nil => exact absurd hv hpos
          | cons v vs =>
            show owed (r :: rest) - (s.k + 1) ≤ n
            simp only [owed]; omega
        · rw [if_neg hk]
          show owed rest - 0 ≤ n
          omega

theorem read_live {c : Cfg} (hsc : 0 < c.sc) (hsb : 0 < c.sbl) (m : Mem) (hm : ∀ x, m x < 256) (es : List REv)
    (hI : ∀ w ∈ rissued es, w.1 + w.2 ≤ c.space) : ∃ n k, (RSys.init.run c m
      (es ++ List.replicate n (.clk false false) ++ List.replicate k .resp)).completed =
      (rissued es).map fun w => (w.1, flatRead c.space m w.1 w.2) := by
  have hclk : ∀ n, rissued (List.replicate n (REv.clk false false)) = [] := by
    intro n; induction n with
    | zero => rfl
    | succ n ih => rw [List.replicate_succ]; exact ih
  have hrsp : ∀ n, rissued (List.replicate n REv.resp) = [] := by
    intro n; induction n with
    | zero => rfl
    | succ n ih => rw [List.replicate_succ]; exact ih
  obtain ⟨T, h⟩ := RInv.run hsc hsb hm es [] _ _ (RInv.init c m) (by simpa using hI)
  rw [List.nil_append] at h
  generalize hs0 : RSys.init.run c m es = s0 at *
  obtain ⟨T1, h1⟩ := h.step hsc hsb hm hI (.clk false false)
  rw [show rissued [REv.clk false false] = [] from rfl, List.append_nil] at h1
  have hfl := flow_clk c m s0
  have hrc1 : (s0.step c m (.clk false false)).rc = s0.rc := rfl
  have hB : ∀ i, load (s0.step c m (.clk false false)) i ≤ 4 * (allAddrs c (rissued es)).length := by
    intro i
    have hs := congrArg List.length (h1.stream i)
    have h2 := sel_length_le i (allAddrs c (rissued es))
    simp only [List.length_append, List.length_map] at hs
    unfold load
    have f : ∀ o : Option Nat, o.toList.length = if o.isSome then 1 else 0 := by intro o; cases o <;> rfl
    rw [f, f, f] at hs
    split <;> split <;> split <;> simp_all <;> omega
  generalize hN : 4 * (allAddrs c (rissued es)).length = N at *
  have hz : ∀ i, load ((s0.step c m (.clk false false)).run c m (List.replicate N (.clk false false))) i = 0 := by
    intro i
    have := load_drain c m N _ hfl i
    have := hB i
    omega
  obtain ⟨T', h'⟩ := RInv.run hsc hsb hm (List.replicate N (.clk false false)) _ _ _ h1 (by rw [hclk, List.append_nil]; exact hI)
  rw [hclk, List.append_nil] at h'
  refine ⟨N + 1, owed s0.rc, ?_⟩
  have hdone := r_resp hsc hsb hm hI (owed s0.rc) _ T' h' hz (by rw [rclk_keep, hrc1]; omega)
  obtain ⟨T2, h2⟩ := RInv.run hsc hsb hm (List.replicate (owed s0.rc) .resp) _ _ _ h' (by
    rw [hrsp, List.append_nil]; exact hI)
  rw [hrsp, List.append_nil] at h2
  rw [RSys.run_append, RSys.run_append, hs0, List.replicate_succ]
  show (((s0.step c m (.clk false false)).run c m (List.replicate N (.clk false false))).run c m _).completed = _
  have hp := h2.pend
  rw [hdone] at hp
  have hd : (rissued es).drop _ = [] := List.map_eq_nil_iff.mp hp.symm
  rw [List.drop_eq_nil_iff] at hd
  rw [h2.comp, List.take_of_length_le hd]

end Corundum.PsdpRam
