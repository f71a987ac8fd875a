import Verif.Model.TlpDemux
/-!
C150: TLPs arrive whole at the port selected, and only there.
-/
namespace Corundum.TlpDemux

/-- segments taken from the input, and segments taken by each port -/
structure Mon where
  ins : List Seg
  outs : Nat → List Seg

def Mon.init : Mon := ⟨[], fun _ => []⟩

/-- segments held for a port -/
def held (s : St) (p : Nat) : List Seg := (s.out.filter fun e => e.2 = p).map Prod.fst

def run (ports : Nat) : St × Mon → List In → St × Mon
  | x, [] => x
  | x, i :: is =>
    run ports (x.1.step ports i,
      { ins := if x.1.ready ports i then x.2.ins ++ i.segs else x.2.ins
        outs := fun p => if i.ready.getD p false then x.2.outs p ++ held x.1 p else x.2.outs p }) is

/-- a TLP: the first segment is marked as start, the last as end, no other -/
def IsTlp : List Seg → Prop
  | [] => False
  | [g] => g.sop = true ∧ g.eop = true
  | g :: gs => g.sop = true ∧ g.eop = false ∧ (∀ x ∈ gs, x.sop = false) ∧ (∀ x ∈ gs.dropLast, x.eop = false) ∧
      ∀ x, gs.getLast? = some x → x.eop = true

/-- the first segments of a TLP -/
def IsStart : List Seg → Prop
  | [] => True
  | g :: gs => g.sop = true ∧ g.eop = false ∧ ∀ x ∈ gs, x.sop = false ∧ x.eop = false

/-- a TLP is for port `p`: its first segment is not to be dropped, selects `p` and no higher port -/
def For (ports p : Nat) (t : List Seg) : Prop :=
  ∃ g, t.head? = some g ∧ g.drop = false ∧ p < ports ∧ g.sel.getD p false = true ∧ ∀ q, p < q → q < ports → g.sel.getD q false = false

theorem pick_spec (g : Seg) : ∀ (ports : Nat) (x : Nat × Bool),
    (List.range ports).foldl (fun (x : Nat × Bool) p => if g.sel.getD p false then (p, false) else x) (0, true) = x →
    (x.2 = true → ∀ q, q < ports → g.sel.getD q false = false) ∧
      (x.2 = false → x.1 < ports ∧ g.sel.getD x.1 false = true ∧ ∀ q, x.1 < q → q < ports → g.sel.getD q false = false)
  | 0, x, h => by
    subst h
    exact ⟨fun _ q hq => absurd hq (Nat.not_lt_zero _), fun h => by cases h⟩
  | n + 1, x, h => by
    rw [List.range_succ, List.foldl_append, List.foldl_cons, List.foldl_nil] at h
    obtain ⟨y, hy⟩ : ∃ y, (List.range n).foldl (fun (x : Nat × Bool) p => if g.sel.getD p false then (p, false) else x)
      (0, true) = y := ⟨_, rfl⟩
    rw [hy] at h
    obtain ⟨k1, k2⟩ := pick_spec g n y hy
    cases hs : g.sel.getD n false
    · rw [hs] at h
      simp only [Bool.false_eq_true, if_false] at h
      subst h
      refine ⟨fun hx q hq => ?_, fun hx => ?_⟩
      · by_cases e : q = n
        · rw [e]; exact hs
        · exact k1 hx q (by omega)
      · obtain ⟨a, b, c⟩ := k2 hx
        refine ⟨by omega, b, fun q h1 h2 => ?_⟩
        by_cases e : q = n
        · rw [e]; exact hs
        · exact c q h1 (by omega)
    · rw [hs] at h
      simp only [if_true] at h
      subst h
      exact ⟨(fun hx => by cases hx), fun _ => ⟨Nat.lt_succ_self n, hs, fun q h1 h2 => by simp only at h1; omega⟩⟩

/-- the port of a TLP, if any -/
theorem pick_for (ports p : Nat) (g : Seg) (gs : List Seg) :
    For ports p (g :: gs) ↔ (pick ports g).2 = false ∧ (pick ports g).1 = p := by
  obtain ⟨x, hx⟩ : ∃ x, (List.range ports).foldl (fun (x : Nat × Bool) p => if g.sel.getD p false then (p, false) else x)
      (0, true) = x := ⟨_, rfl⟩
  obtain ⟨k1, k2⟩ := pick_spec g ports x hx
  have e1 : (pick ports g).1 = x.1 := by unfold pick; rw [hx]
  have e2 : (pick ports g).2 = if g.drop then true else x.2 := by unfold pick; rw [hx]
  rw [e1, e2]
  constructor
  · rintro ⟨g', hg, hd, hp, hs, hm⟩
    have : g' = g := by simpa using hg.symm
    subst this
    rw [hd]
    simp only [Bool.false_eq_true, if_false]
    have hx2 : x.2 = false := by
      cases h : x.2
      · rfl
      · rw [k1 h p hp] at hs; cases hs
    obtain ⟨a, b, c⟩ := k2 hx2
    refine ⟨hx2, ?_⟩
    rcases Nat.lt_trichotomy x.1 p with h | h | h
    · rw [c p h hp] at hs; cases hs
    · exact h
    · rw [hm x.1 h a] at b; cases b
  · rintro ⟨h1, h2⟩
    have hd : g.drop = false := by
      cases h : g.drop
      · rfl
      · rw [h] at h1; simp at h1
    rw [hd] at h1
    simp only [Bool.false_eq_true, if_false] at h1
    obtain ⟨a, b, c⟩ := k2 h1
    subst h2
    exact ⟨g, rfl, hd, a, b, c⟩

/-- what the segments of a list give for a port -/
def sent (ports : Nat) (c : Ctl) (gs : List Seg) (p : Nat) : List Seg :=
  ((segments ports c gs).2.filter fun e => e.2 = p).map Prod.fst

theorem segments_append (ports : Nat) : ∀ (gs hs : List Seg) (c : Ctl),
    segments ports c (gs ++ hs) =
      ((segments ports (segments ports c gs).1 hs).1, (segments ports c gs).2 ++ (segments ports (segments ports c gs).1 hs).2)
  | [], _, _ => by simp [segments]
  | g :: gs, hs, c => by
    rw [List.cons_append, segments, segments_append ports gs hs]
    simp only [segments, List.append_assoc]

theorem sent_append (ports : Nat) (gs hs : List Seg) (c : Ctl) (p : Nat) :
    sent ports c (gs ++ hs) p = sent ports c gs p ++ sent ports (segments ports c gs).1 hs p := by
  simp [sent, segments_append]

/-- segments after the first -/
theorem rest_spec (ports p : Nat) : ∀ (gs : List Seg) (c : Ctl), c.frame = true → (∀ x ∈ gs, x.sop = false) →
    (∀ x ∈ gs.dropLast, x.eop = false) → sent ports c gs p = if c.drop = false ∧ c.select = p then gs else []
  | [], c, _, _, _ => by simp [sent, segments]
  | [g], c, hf, hs, _ => by
    have h1 := hs g (List.mem_cons_self ..)
    by_cases hp : c.select = p <;> cases hd : c.drop <;> simp [sent, segments, segment, h1, hf, hd, hp]
  | g :: g' :: gs, c, hf, hs, he => by
    have h1 := hs g (List.mem_cons_self ..)
    have h2 := he g (by simp)
    have hc : (segment ports c g).1 = c := by simp [segment, h1, h2]
    have ih := rest_spec ports p (g' :: gs) c hf (fun x hx => hs x (List.mem_cons_of_mem _ hx)) (fun x hx => he x (by
      rw [List.dropLast_cons_of_ne_nil (by simp)]
      exact List.mem_cons_of_mem _ hx))
    have ih' : ((segments ports c (g' :: gs)).2.filter fun e => e.2 = p).map Prod.fst =
      if c.drop = false ∧ c.select = p then g' :: gs else [] := ih
    show ((segments ports c (g :: g' :: gs)).2.filter fun e => e.2 = p).map Prod.fst = _
    rw [segments, hc, List.filter_append, List.map_append, ih']
    by_cases hp : c.select = p <;> cases hd : c.drop <;> simp [segment, h1, hf, hd, hp]

theorem rest_frame (ports : Nat) : ∀ (gs : List Seg) (c : Ctl) (x : Seg), gs.getLast? = some x → x.eop = true →
    (segments ports c gs).1.frame = false
  | [g], c, x, h, hx => by
    have : g = x := by simpa using h
    subst this
    simp [segments, segment, hx]
  | g :: g' :: gs, c, x, h, hx => by
    rw [segments]
    exact rest_frame ports (g' :: gs) _ x (by simpa using h) hx

open Classical in
theorem tlp_spec (ports p : Nat) (t : List Seg) (ht : IsTlp t) (c : Ctl) :
    sent ports c t p = (if For ports p t then t else []) ∧ (segments ports c t).1.frame = false := by
  match t, ht with
  | [g], ⟨h1, h2⟩ =>
    have hfor := pick_for ports p g []
    refine ⟨?_, by simp [segments, segment, h1, h2]⟩
    by_cases hF : For ports p [g]
    · obtain ⟨a, b⟩ := hfor.1 hF
      rw [if_pos hF]
      simp [sent, segments, segment, h1, a, b]
    · rw [if_neg hF]
      by_cases a : (pick ports g).2 = false
      · have b : (pick ports g).1 ≠ p := fun b => hF (hfor.2 ⟨a, b⟩)
        simp [sent, segments, segment, h1, a, b]
      · have a' : (pick ports g).2 = true := by simpa using a
        simp [sent, segments, segment, h1, a']
  | g :: g' :: gs, ⟨h1, h2, h3, h4, h5⟩ =>
    have hfor := pick_for ports p g (g' :: gs)
    have hc : (segment ports c g).1 = ⟨(pick ports g).1, (pick ports g).2, true⟩ := by simp [segment, h1, h2]
    have hr := rest_spec ports p (g' :: gs) ⟨(pick ports g).1, (pick ports g).2, true⟩ rfl h3 h4
    obtain ⟨x, hx⟩ : ∃ x, (g' :: gs).getLast? = some x := ⟨_, List.getLast?_eq_some_getLast (by simp)⟩
    refine ⟨?_, ?_⟩
    · have hs : sent ports c (g :: g' :: gs) p =
          (((segment ports c g).2.filter fun e => e.2 = p).map Prod.fst) ++
            sent ports ⟨(pick ports g).1, (pick ports g).2, true⟩ (g' :: gs) p := by
        show ((segments ports c (g :: g' :: gs)).2.filter fun e => e.2 = p).map Prod.fst = _
        rw [segments, hc, List.filter_append, List.map_append]
        rfl
      rw [hs, hr]
      by_cases hF : For ports p (g :: g' :: gs)
      · obtain ⟨a, b⟩ := hfor.1 hF
        rw [if_pos hF]
        simp [segment, h1, a, b]
      · rw [if_neg hF]
        by_cases a : (pick ports g).2 = false
        · have b : (pick ports g).1 ≠ p := fun b => hF (hfor.2 ⟨a, b⟩)
          simp [segment, h1, a, b]
        · have a' : (pick ports g).2 = true := by simpa using a
          simp [segment, h1, a']
    · rw [segments, hc]
      exact rest_frame ports _ _ x hx (h5 x hx)

open Classical in
theorem start_spec (ports p : Nat) (t : List Seg) (ht : IsStart t) (c : Ctl) :
    sent ports c t p = (if For ports p t then t else []) := by
  match t, ht with
  | [], _ => simp [sent, segments]
  | g :: gs, ⟨h1, h2, h3⟩ =>
    have hfor := pick_for ports p g gs
    have hc : (segment ports c g).1 = ⟨(pick ports g).1, (pick ports g).2, true⟩ := by simp [segment, h1, h2]
    have hr := rest_spec ports p gs ⟨(pick ports g).1, (pick ports g).2, true⟩ rfl (fun x hx => (h3 x hx).1)
      (fun x hx => (h3 x (List.dropLast_subset _ hx)).2)
    have hs : sent ports c (g :: gs) p =
        (((segment ports c g).2.filter fun e => e.2 = p).map Prod.fst) ++
          sent ports ⟨(pick ports g).1, (pick ports g).2, true⟩ gs p := by
      show ((segments ports c (g :: gs)).2.filter fun e => e.2 = p).map Prod.fst = _
      rw [segments, hc, List.filter_append, List.map_append]
      rfl
    rw [hs, hr]
    by_cases hF : For ports p (g :: gs)
    · obtain ⟨a, b⟩ := hfor.1 hF
      rw [if_pos hF]
      simp [segment, h1, a, b]
    · rw [if_neg hF]
      by_cases a : (pick ports g).2 = false
      · have b : (pick ports g).1 ≠ p := fun b => hF (hfor.2 ⟨a, b⟩)
        simp [segment, h1, a, b]
      · have a' : (pick ports g).2 = true := by simpa using a
        simp [segment, h1, a']

open Classical in
theorem tlps_spec (ports p : Nat) : ∀ (ts : List (List Seg)) (part : List Seg) (c : Ctl), (∀ t ∈ ts, IsTlp t) → IsStart part →
    sent ports c (ts.flatten ++ part) p =
      (ts.filter fun t => decide (For ports p t)).flatten ++ (if For ports p part then part else [])
  | [], part, c, _, hp => by simpa using start_spec ports p part hp c
  | t :: ts, part, c, h, hp => by
    rw [List.flatten_cons, List.append_assoc, sent_append, (tlp_spec ports p t (h t (List.mem_cons_self ..)) c).1,
      tlps_spec ports p ts part _ (fun x hx => h x (List.mem_cons_of_mem _ hx)) hp]
    by_cases hF : For ports p t <;> simp [hF]

/-- ports of segments held are below the number of ports -/
theorem segments_ports (ports : Nat) (hp : 0 < ports) : ∀ (gs : List Seg) (c : Ctl), c.select < ports →
    (segments ports c gs).1.select < ports ∧ ∀ e ∈ (segments ports c gs).2, e.2 < ports
  | [], c, h => ⟨h, (fun _ he => by cases he)⟩
  | g :: gs, c, h => by
    have hpk : (pick ports g).1 < ports := by
      obtain ⟨x, hx⟩ : ∃ x, (List.range ports).foldl (fun (x : Nat × Bool) p => if g.sel.getD p false then (p, false) else x)
        (0, true) = x := ⟨_, rfl⟩
      have e1 : (pick ports g).1 = x.1 := by unfold pick; rw [hx]
      rw [e1, ← hx]
      have : ∀ (l : List Nat) (y : Nat × Bool), (∀ q ∈ l, q < ports) → y.1 < ports →
          (l.foldl (fun (x : Nat × Bool) p => if g.sel.getD p false then (p, false) else x) y).1 < ports := by
        intro l
        induction l with
        | nil => intro y _ hy; exact hy
        | cons q l ih =>
          intro y hq hy
          rw [List.foldl_cons]
          refine ih _ (fun z hz => hq z (List.mem_cons_of_mem _ hz)) ?_
          split
          · exact hq q (List.mem_cons_self ..)
          · exact hy
      exact this _ _ (fun q hq => List.mem_range.1 hq) hp
    have h1 : (segment ports c g).1.select < ports ∧ ∀ e ∈ (segment ports c g).2, e.2 < ports := by
      cases hs : g.sop <;> cases he : g.eop <;> simp only [segment, hs, he, if_true, if_false, Bool.false_eq_true] <;>
        refine ⟨by first | exact h | exact hpk, fun e hm => ?_⟩ <;>
        (split at hm
         · rw [List.mem_singleton.1 hm]; first | exact h | exact hpk
         · cases hm)
    obtain ⟨k1, k2⟩ := segments_ports ports hp gs _ h1.1
    rw [segments]
    refine ⟨k1, fun e he => ?_⟩
    rcases List.mem_append.1 he with he | he
    · exact h1.2 e he
    · exact k2 e he

structure Inv (ports : Nat) (s : St) (m : Mon) : Prop where
  ctl : s.ctl = (segments ports ⟨0, false, false⟩ m.ins).1
  outs : ∀ p, sent ports ⟨0, false, false⟩ m.ins p = m.outs p ++ held s p
  sel : s.ctl.select < ports
  ports : ∀ e ∈ s.out, e.2 < ports

theorem Inv_step {ports : Nat} (hp : 0 < ports) {s : St} {m : Mon} (h : Inv ports s m) (i : In) :
    Inv ports (s.step ports i)
      { ins := if s.ready ports i then m.ins ++ i.segs else m.ins
        outs := fun p => if i.ready.getD p false then m.outs p ++ held s p else m.outs p } := by
  obtain ⟨h1, h2, h3, h4⟩ := h
  cases hr : s.ready ports i
  · have e : s.step ports i = { s with out := s.out.filter fun e => !i.ready.getD e.2 false } := by simp [St.step, hr]
    rw [e]
    refine ⟨by simpa using h1, fun p => ?_, h3, fun e he => h4 e (List.mem_filter.1 he).1⟩
    simp only [Bool.false_eq_true, if_false]
    rw [h2 p]
    unfold held
    dsimp only
    rw [List.filter_filter]
    cases hrp : i.ready.getD p false
    · simp only [Bool.false_eq_true, if_false]
      congr 2
      apply List.filter_congr
      intro e _
      by_cases hep : e.2 = p
      · rw [hep, hrp]; simp
      · simp [hep]
    · simp only [if_true]
      have : (s.out.filter fun e => decide (e.2 = p) && !i.ready.getD e.2 false) = [] := by
        rw [List.filter_eq_nil_iff]
        intro e _ hc
        simp only [Bool.and_eq_true, decide_eq_true_eq, Bool.not_eq_true'] at hc
        rw [hc.1, hrp] at hc
        exact absurd hc.2 (by simp)
      rw [this]
      simp
  · have e : s.step ports i = ⟨(segments ports s.ctl i.segs).1, (segments ports s.ctl i.segs).2⟩ := by simp [St.step, hr]
    rw [e]
    obtain ⟨k1, k2⟩ := segments_ports ports hp i.segs s.ctl h3
    refine ⟨?_, fun p => ?_, k1, k2⟩
    · simp only [if_true]
      rw [segments_append, ← h1]
    · simp only [if_true]
      rw [sent_append, h2 p, ← h1]
      have hh : held ⟨(segments ports s.ctl i.segs).1, (segments ports s.ctl i.segs).2⟩ p = sent ports s.ctl i.segs p := rfl
      rw [hh]
      congr 1
      cases hrp : i.ready.getD p false
      · simp only [Bool.false_eq_true, if_false]
        have : held s p = [] := by
          unfold St.ready at hr
          rw [Bool.and_eq_true, Bool.or_eq_true] at hr
          rcases hr.1 with hr | hr
          · unfold held
            rw [List.isEmpty_iff.1 hr]
            rfl
          · unfold held
            rw [List.map_eq_nil_iff, List.filter_eq_nil_iff]
            intro e he hep
            have hep' : e.2 = p := by simpa using hep
            have := (List.all_eq_true.1 hr) p (List.mem_range.2 (by rw [← hep']; exact h4 e he))
            rw [hrp] at this
            cases this
        rw [this, List.append_nil]
      · simp only [if_true]

theorem Inv_run {ports : Nat} (hp : 0 < ports) : ∀ (is : List In) (x : St × Mon), Inv ports x.1 x.2 →
    Inv ports (run ports x is).1 (run ports x is).2
  | [], _, h => h
  | i :: is, _, h => Inv_run hp is _ (Inv_step hp h i)

theorem Inv_init {ports : Nat} (hp : 0 < ports) : Inv ports .init .init := ⟨rfl, fun _ => rfl, hp, (fun _ h => by cases h)⟩

open Classical in
/-- C150. For any number of ports and segments per cycle, and any stalls of the ports: if the segments taken from the input are the
TLPs `ts` and the beginning of another, then what each port has taken, with what is held for it, are exactly the TLPs for that port, whole, unchanged
and in order. A TLP is for the highest port its first segment selects; if it selects none or is to be dropped it goes to no port. -/
theorem C150_routes (ports : Nat) (hp : 0 < ports) (is : List In) (ts : List (List Seg)) (part : List Seg)
    (hts : ∀ t ∈ ts, IsTlp t) (hpart : IsStart part)
    (hin : (run ports (.init, .init) is).2.ins = ts.flatten ++ part) (p : Nat) :
    (run ports (.init, .init) is).2.outs p ++ held (run ports (.init, .init) is).1 p =
      (ts.filter fun t => decide (For ports p t)).flatten ++ (if For ports p part then part else []) := by
  have h := (Inv_run hp is (.init, .init) (Inv_init hp)).outs p
  rw [← h, hin]
  exact tlps_spec ports p ts part _ hts hpart

/-- segments outside of TLPs are sent nowhere -/
theorem stray_spec (ports p : Nat) : ∀ (gs : List Seg) (c : Ctl), c.frame = false → (∀ g ∈ gs, g.sop = false) → sent ports c gs p = []
  | [], _, _, _ => rfl
  | g :: gs, c, hf, hs => by
    have h1 := hs g (List.mem_cons_self ..)
    have hc : (segment ports c g).1.frame = false ∧ (segment ports c g).2 = [] := by
      cases he : g.eop <;> simp [segment, h1, he, hf]
    have ih : ((segments ports (segment ports c g).1 gs).2.filter fun e => e.2 = p).map Prod.fst = [] :=
      stray_spec ports p gs _ hc.1 (fun x hx => hs x (List.mem_cons_of_mem _ hx))
    show ((segments ports c (g :: gs)).2.filter fun e => e.2 = p).map Prod.fst = []
    rw [segments, hc.2, List.nil_append]
    exact ih

open Classical in
/-- C150. Segments after the end of a TLP that do not begin another, or before the first TLP, go to no port. -/
theorem C150_stray (ports : Nat) (hp : 0 < ports) (is : List In) (ts : List (List Seg)) (stray : List Seg)
    (hts : ∀ t ∈ ts, IsTlp t) (hstray : ∀ g ∈ stray, g.sop = false)
    (hin : (run ports (.init, .init) is).2.ins = ts.flatten ++ stray) (p : Nat) :
    (run ports (.init, .init) is).2.outs p ++ held (run ports (.init, .init) is).1 p =
      (ts.filter fun t => decide (For ports p t)).flatten := by
  have h := (Inv_run hp is (.init, .init) (Inv_init hp)).outs p
  have hfr : ∀ (ts : List (List Seg)) (c : Ctl), (∀ t ∈ ts, IsTlp t) → c.frame = false → (segments ports c ts.flatten).1.frame = false := by
    intro ts
    induction ts with
    | nil => exact fun c _ hc => hc
    | cons t ts ih =>
      intro c ht _
      rw [List.flatten_cons, segments_append]
      exact ih _ (fun x hx => ht x (List.mem_cons_of_mem _ hx)) (tlp_spec ports p t (ht t (List.mem_cons_self ..)) c).2
  have ha := tlps_spec ports p ts [] ⟨0, false, false⟩ hts trivial
  rw [← h, hin, sent_append, stray_spec ports p stray _ (hfr ts _ hts rfl) hstray, List.append_nil]
  simpa [For] using ha

/-- a case: a segment before the first TLP and one after it -/
example : let x := run 2 (.init, .init) [⟨true, [⟨1, false, false, [true, false], false⟩], [true, true]⟩,
      ⟨true, [⟨2, true, true, [true, false], false⟩, ⟨3, false, true, [true, true], false⟩], [true, true]⟩, ⟨true, [], [true, true]⟩]
    (x.2.outs 0).map (·.data) = [2] ∧ (x.2.outs 1).map (·.data) = [] ∧ x.2.ins.map (·.data) = [1, 2, 3] := by
  decide +kernel

/-- C150. No TLP is for two ports. -/
theorem C150_unique (ports p q : Nat) (t : List Seg) (h : For ports p t) (h' : For ports q t) : p = q := by
  obtain ⟨g, a1, _, a3, a4, a5⟩ := h
  obtain ⟨g', b1, _, b3, b4, b5⟩ := h'
  rw [a1] at b1
  have : g = g' := Option.some.inj b1
  subst this
  rcases Nat.lt_trichotomy p q with h | h | h
  · rw [a5 q h b3] at b4; cases b4
  · exact h
  · rw [b5 p h a3] at a4; cases a4

/-- C150. The input is not held up for ever: once every port has been ready in some cycle, not necessarily the same, either input was
taken meanwhile or nothing is held any more, so that the input is ready as soon as it is enabled. -/
theorem C150_progress (ports : Nat) : ∀ (js : List In) (x : St × Mon), (∀ e ∈ x.1.out, e.2 < ports) →
    (∀ p, p < ports → ∃ j ∈ js, j.ready.getD p false = true) →
    (∃ ys y zs, js = ys ++ y :: zs ∧ (run ports x ys).1.ready ports y = true) ∨
      ∀ i : In, i.enable = true → (run ports x js).1.ready ports i = true := by
  have key : ∀ (js : List In) (x : St × Mon), (∀ ys y zs, js = ys ++ y :: zs → (run ports x ys).1.ready ports y = false) →
      ∀ e ∈ (run ports x js).1.out, e ∈ x.1.out ∧ ∀ j ∈ js, j.ready.getD e.2 false = false := by
    intro js
    induction js with
    | nil => exact fun x _ e he => ⟨he, fun _ h => by cases h⟩
    | cons j js ih =>
      intro x h e he
      have h0 : x.1.ready ports j = false := h [] j js rfl
      have hs : x.1.step ports j = { x.1 with out := x.1.out.filter fun e => !j.ready.getD e.2 false } := by
        simp [St.step, h0]
      obtain ⟨k1, k2⟩ := ih _ (fun ys y zs e => h (j :: ys) y zs (by rw [e]; rfl)) e he
      dsimp only at k1
      rw [hs] at k1
      obtain ⟨l1, l2⟩ := List.mem_filter.1 k1
      refine ⟨l1, fun z hz => ?_⟩
      rcases List.mem_cons.1 hz with rfl | hz
      · simpa using l2
      · exact k2 z hz
  intro js x hx hr
  by_cases hex : ∃ ys y zs, js = ys ++ y :: zs ∧ (run ports x ys).1.ready ports y = true
  · exact .inl hex
  · right
    have hno : ∀ ys y zs, js = ys ++ y :: zs → (run ports x ys).1.ready ports y = false := fun ys y zs e => by
      cases hq : (run ports x ys).1.ready ports y
      · rfl
      · exact absurd ⟨ys, y, zs, e, hq⟩ hex
    have hout : (run ports x js).1.out = [] := by
      apply List.eq_nil_iff_forall_not_mem.2
      intro e he
      obtain ⟨k1, k2⟩ := key js x hno e he
      obtain ⟨j, hj, hjr⟩ := hr e.2 (hx e k1)
      rw [k2 j hj] at hjr
      cases hjr
    intro i hi
    unfold St.ready
    rw [hout, hi]
    rfl

/-- a case: two TLPs in one cycle for two ports of which one stalls, the second TLP going on in the next cycle, then one to be dropped -/
example : let x := run 2 (.init, .init) [⟨true, [⟨1, true, true, [true, false], false⟩, ⟨2, true, false, [true, true], false⟩], [true, false]⟩,
      ⟨true, [⟨3, false, true, [], false⟩, ⟨4, true, true, [true, true], true⟩], [true, false]⟩,
      ⟨true, [⟨3, false, true, [], false⟩, ⟨4, true, true, [true, true], true⟩], [true, true]⟩, ⟨true, [], [true, true]⟩]
    (x.2.outs 0).map (·.data) = [1] ∧ (x.2.outs 1).map (·.data) = [2, 3] ∧ x.2.ins.map (·.data) = [1, 2, 3, 4] := by
  decide +kernel

end Corundum.TlpDemux
