import Verif.Proof.Lifecycle
/-! `Interface.open` and `Interface.close`. -/
namespace Corundum.Lifecycle
open Corundum.Resource (Res)

theorem upd_self {α : Type} (f : Nat → α) (i : Nat) : upd f i (f i) = f := by
  funext j; unfold upd; split
  · rename_i h; rw [h]
  · rfl

theorem upd2_self {α : Type} (f : Dir → Nat → α) (d : Dir) (i : Nat) : upd2 f d i (f d i) = f := by
  funext e j; unfold upd2; split
  · rename_i h; rw [h.1, h.2]
  · rfl

theorem alloc_cons {r : Res} {n : Nat} {l : List Nat} (h : r.free = n :: l) : r.alloc = .ok (n, { r with free := l }) := by
  unfold Res.alloc; rw [h]

theorem alloc_nil {r : Res} (h : r.free = []) : ∃ e, r.alloc = .error e := by
  unfold Res.alloc; rw [h]; exact ⟨_, rfl⟩

theorem cqOpen_eval (p : Corundum.CplQueue.Params) (s : Sys) (c e size base n m : Nat) (l : List Nat) (h1 : (s.cqs c).hw = none) (h2 : s.cqRes.free = n :: l) (h3 : (s.eqs e).hw = some m) :
    cqOpen p s c e size base = ({ s with
      cqRes := { s.cqRes with free := l }
      eqs := upd s.eqs e { s.eqs e with table := upd (s.eqs e).table n (some c) }
      cqs := upd s.cqs c { s.cqs c with hw := some n, base := base, log := Nat.log2 size, eq := some e, enabled := true }
      hc := upd s.hc n (progC p (s.hc n) (progC8 base (Nat.log2 size) m)) }, false) := by
  unfold cqOpen
  rw [h1, alloc_cons h2]
  dsimp only
  rw [h3]

theorem ringOpen_eval (s : Sys) (d : Dir) (r c size blk base n m : Nat) (l : List Nat) (h1 : (s.rings d r).hw = none) (h2 : (s.qRes d).free = n :: l) (h3 : (s.cqs c).hw = some m) :
    ringOpen s d r c size blk base = ({ s with
      qRes := updD s.qRes d { s.qRes d with free := l }
      cqs := upd s.cqs c { s.cqs c with ring := some (d, r) }
      rings := upd2 s.rings d r ⟨some n, base, Nat.log2 size, Nat.log2 blk, some c, (s.rings d r).enabled, refill d (Nat.log2 size), 0⟩
      hq := upd2 s.hq d n (progQ (s.hq d n) (progQ7 base (Nat.log2 size) (Nat.log2 blk) m ++ if refill d (Nat.log2 size) = 0 then [] else [(CTRL, SET_PROD_PTR ||| (refill d (Nat.log2 size) &&& 0xffff))])) }, false) := by
  unfold ringOpen
  rw [h1, alloc_cons h2]
  dsimp only
  rw [h3]

theorem cqArm_eval (p : Corundum.CplQueue.Params) (s : Sys) (c n : Nat) (h : (s.cqs c).hw = some n) :
    step p s (.cqArm c) = ({ s with hc := upd s.hc n (wrC p (s.hc n) (CTRL, SET_ARM ||| 1)) }, false) := by
  show (match (s.cqs c).hw with | none => (s, false) | some n => _) = _
  rw [h]

theorem ringEnable_eval (s : Sys) (d : Dir) (r n : Nat) (h : (s.rings d r).hw = some n) :
    ringEnable s d r = ({ s with rings := upd2 s.rings d r { s.rings d r with enabled := true }, hq := upd2 s.hq d n (wrQ (s.hq d n) (CTRL, SET_ENABLE ||| 1)) }, false) := by
  unfold ringEnable
  rw [h]

/-- the state of an interface between calls -/
structure IfInv (i : Iface) : Prop where
  inv : Inv i.sys
  fresh : ∀ o, i.next ≤ o → i.sys.cqs o = .new ∧ ∀ d, i.sys.rings d o = .new
  eqs : ∀ e ∈ i.eq, (i.sys.eqs e).hw ≠ none
  ne : i.eq ≠ []

/-- what one turn of a loop does -/
structure Opened (i j : Iface) (d : Dir) (n : Nat) : Prop where
  inv : IfInv j
  cq : j.sys.cqRes.free = i.sys.cqRes.free.tail ∧ j.sys.cqRes.count = i.sys.cqRes.count
  q : j.sys.qRes = updD i.sys.qRes d { i.sys.qRes d with free := (i.sys.qRes d).free.tail }
  ring : (j.sys.rings d i.next).hw = some n ∧ (j.sys.rings d i.next).enabled = true ∧ (j.sys.rings d i.next).cq = some i.next
  other : ∀ b x, ¬ (b = d ∧ x = i.next) → j.sys.rings b x = i.sys.rings b x
  lists : ∀ b, j.queues b = if b = d then i.queues d ++ [i.next] else i.queues b
  port : j.portUp = i.portUp ∧ j.txCtrl = i.txCtrl ∧ j.rxCtrl = i.rxCtrl
  next : j.next = i.next + 1
  cqs : ∀ x, x ≠ i.next → j.sys.cqs x = i.sys.cqs x
  cqn : (j.sys.cqs i.next).ring = some (d, i.next)

theorem openOne_ok (p : Corundum.CplQueue.Params) (dma : Nat → Nat × Nat) (hd : ∀ k, (dma k).1 < 2 ^ 64 ∧ (dma k).2 < 2 ^ 64) (i : Iface) (d : Dir) (k : Nat) (h : IfInv i) (hc : i.sys.cqRes.free ≠ []) (hq : (i.sys.qRes d).free ≠ []) :
    (openOne p dma i d k).2 = false ∧ ∃ n, Opened i (openOne p dma i d k).1 d n := by
  obtain ⟨c, lc, ec⟩ := List.exists_cons_of_ne_nil hc
  obtain ⟨q, lq, eq⟩ := List.exists_cons_of_ne_nil hq
  have hlen : i.eq.length ≠ 0 := fun e => h.ne (List.length_eq_zero_iff.1 e)
  have hmem : i.eq.getD (k % i.eq.length) 0 ∈ i.eq := by
    have hk : k % i.eq.length < i.eq.length := Nat.mod_lt _ (by omega)
    rw [List.getD_eq_getElem?_getD, List.getElem?_eq_getElem hk]
    exact List.getElem_mem hk
  obtain ⟨m, em⟩ := Option.ne_none_iff_exists'.1 (h.eqs _ hmem)
  obtain ⟨f1, f2⟩ := h.fresh i.next (Nat.le_refl _)
  have e0 : ({ i.sys with cqs := upd i.sys.cqs i.next .new, rings := upd2 i.sys.rings d i.next .new } : Sys) = i.sys := by
    have g1 : upd i.sys.cqs i.next .new = i.sys.cqs := by rw [← f1]; exact upd_self ..
    have g2 : upd2 i.sys.rings d i.next .new = i.sys.rings := by rw [← f2 d]; exact upd2_self ..
    rw [g1, g2]
  unfold openOne
  rw [if_neg hlen]
  dsimp only
  rw [e0]
  obtain ⟨e, ee⟩ : ∃ e, e = i.eq.getD (k % i.eq.length) 0 := ⟨_, rfl⟩
  rw [← ee] at em hmem ⊢
  have hcl : (i.sys.cqs i.next).hw = none := by rw [f1]; rfl
  have o1 : Op.Ok i.sys (.cqOpen i.next e 1024 (dma i.next).1) := ⟨by rw [em]; exact fun h => (by cases h), (hd _).1, by decide⟩
  have i1 := inv_step p i.sys _ h.inv o1
  have s1 : step p i.sys (.cqOpen i.next e 1024 (dma i.next).1) = cqOpen p i.sys i.next e 1024 (dma i.next).1 := rfl
  rw [s1] at i1
  have v1 := cqOpen_eval p i.sys i.next e 1024 (dma i.next).1 c m lc hcl ec em
  rw [v1] at i1 ⊢
  rw [if_neg (by exact fun h => (by cases h))]
  dsimp only at i1 ⊢
  -- arm
  have i2 := inv_step p _ (.cqArm i.next) i1 trivial
  rw [cqArm_eval p _ i.next c (by dsimp only; rw [upd_same])] at i2 ⊢
  dsimp only at i2 ⊢
  -- ring
  have hrl : (i.sys.rings d i.next).hw = none := by rw [f2 d]; rfl
  have o3 := fun (s : Sys) (hs : s.cqs = upd i.sys.cqs i.next { i.sys.cqs i.next with hw := some c, base := (dma i.next).1, log := Nat.log2 1024, eq := some e, enabled := true }) =>
    show Op.Ok s (.ringOpen d i.next i.next 1024 4 (dma i.next).2) from ⟨by rw [hs, upd_same]; exact fun h => (by cases h), by rw [hs, upd_same, f1]; rfl, (hd _).2, by decide, by decide⟩
  have i3 := inv_step p _ _ i2 (o3 _ rfl)
  have s3 : ∀ s, step p s (.ringOpen d i.next i.next 1024 4 (dma i.next).2) = ringOpen s d i.next i.next 1024 4 (dma i.next).2 := fun _ => rfl
  rw [s3] at i3
  rw [ringOpen_eval _ d i.next i.next 1024 4 (dma i.next).2 q c lq (by exact hrl) (by exact eq) (by dsimp only; rw [upd_same])] at i3 ⊢
  rw [if_neg (by exact fun h => (by cases h))]
  dsimp only at i3 ⊢
  -- enable
  have i4 := inv_step p _ (.ringEnable d i.next) i3 trivial
  have s4 : ∀ s, step p s (.ringEnable d i.next) = ringEnable s d i.next := fun _ => rfl
  rw [s4] at i4
  rw [ringEnable_eval _ d i.next q (by dsimp only; rw [upd2_same])] at i4 ⊢
  dsimp only at i4 ⊢
  refine ⟨rfl, q, ⟨i4, ?_, ?_, h.ne⟩, ⟨by rw [ec]; rfl, rfl⟩, by rw [eq]; rfl, ⟨by dsimp only; rw [upd2_same]; dsimp only; rw [upd2_same], by dsimp only; rw [upd2_same], by dsimp only; rw [upd2_same]; dsimp only; rw [upd2_same]⟩, fun b x hx => ?_, fun b => ?_, ⟨rfl, rfl, rfl⟩, rfl, fun x hx => ?_, ?_⟩
  · intro o ho
    have ho' : i.next + 1 ≤ o := ho
    have ne : o ≠ i.next := by omega
    obtain ⟨g1, g2⟩ := h.fresh o (by omega)
    refine ⟨?_, fun b => ?_⟩
    · show upd (upd _ _ _) _ _ o = _
      rw [upd_ne _ _ ne, upd_ne _ _ ne]; exact g1
    · show upd2 (upd2 _ _ _ _) _ _ _ b o = _
      rw [upd2_ne _ _ (fun h => ne h.2), upd2_ne _ _ (fun h => ne h.2)]; exact g2 b
  · intro x hx
    show (upd i.sys.eqs e _ x).hw ≠ none
    by_cases ex : x = e
    · rw [ex, upd_same, em]; exact fun h => (by cases h)
    · rw [upd_ne _ _ ex]; exact h.eqs x hx
  · dsimp only
    rw [upd2_ne _ _ hx, upd2_ne _ _ hx]
  · cases b <;> cases d <;> rfl
  · show upd (upd _ _ _) _ _ x = _
    rw [upd_ne _ _ hx, upd_ne _ _ hx]
  · dsimp only
    rw [upd_same]

/-- without a free queue a turn fails -/
theorem openOne_fail (p : Corundum.CplQueue.Params) (dma : Nat → Nat × Nat) (hd : ∀ k, (dma k).1 < 2 ^ 64 ∧ (dma k).2 < 2 ^ 64) (i : Iface) (d : Dir) (k : Nat) (h : IfInv i) (hc : i.sys.cqRes.free = [] ∨ (i.sys.qRes d).free = []) :
    (openOne p dma i d k).2 = true ∧ (openOne p dma i d k).1.portUp = i.portUp := by
  have hlen : i.eq.length ≠ 0 := fun e => h.ne (List.length_eq_zero_iff.1 e)
  have hmem : i.eq.getD (k % i.eq.length) 0 ∈ i.eq := by
    have hk : k % i.eq.length < i.eq.length := Nat.mod_lt _ (by omega)
    rw [List.getD_eq_getElem?_getD, List.getElem?_eq_getElem hk]
    exact List.getElem_mem hk
  obtain ⟨m, em⟩ := Option.ne_none_iff_exists'.1 (h.eqs _ hmem)
  obtain ⟨f1, f2⟩ := h.fresh i.next (Nat.le_refl _)
  have e0 : ({ i.sys with cqs := upd i.sys.cqs i.next .new, rings := upd2 i.sys.rings d i.next .new } : Sys) = i.sys := by
    have g1 : upd i.sys.cqs i.next .new = i.sys.cqs := by rw [← f1]; exact upd_self ..
    have g2 : upd2 i.sys.rings d i.next .new = i.sys.rings := by rw [← f2 d]; exact upd2_self ..
    rw [g1, g2]
  unfold openOne
  rw [if_neg hlen]
  dsimp only
  rw [e0]
  obtain ⟨e, ee⟩ : ∃ e, e = i.eq.getD (k % i.eq.length) 0 := ⟨_, rfl⟩
  rw [← ee] at em hmem ⊢
  have hcl : (i.sys.cqs i.next).hw = none := by rw [f1]; rfl
  cases hfree : i.sys.cqRes.free with
  | nil =>
    obtain ⟨x, hx⟩ := alloc_nil hfree
    have v : cqOpen p i.sys i.next e 1024 (dma i.next).1 = (i.sys, true) := by
      unfold cqOpen; rw [hcl, hx]
    rw [v, if_pos rfl]
    exact ⟨rfl, rfl⟩
  | cons c lc =>
    have hq : (i.sys.qRes d).free = [] := by
      rcases hc with hc | hc
      · rw [hc] at hfree; cases hfree
      · exact hc
    rw [cqOpen_eval p i.sys i.next e 1024 (dma i.next).1 c m lc hcl hfree em, if_neg (by exact fun h => (by cases h))]
    rw [cqArm_eval p _ i.next c (by dsimp only; rw [upd_same])]
    dsimp only
    have hrl : (i.sys.rings d i.next).hw = none := by rw [f2 d]; rfl
    obtain ⟨x, hx⟩ := alloc_nil hq
    have v : ∀ s : Sys, s.rings = i.sys.rings → s.qRes = i.sys.qRes → ringOpen s d i.next i.next 1024 4 (dma i.next).2 = (s, true) := fun s h1 h2 => by
      unfold ringOpen; rw [h1, h2, hrl, hx]
    rw [v _ (by rfl) (by rfl), if_pos rfl]
    exact ⟨rfl, rfl⟩

/-- what a loop does -/
structure Looped (i j : Iface) (d : Dir) (n : Nat) : Prop where
  inv : IfInv j
  cq : j.sys.cqRes.free.length + n = i.sys.cqRes.free.length ∧ j.sys.cqRes.count = i.sys.cqRes.count
  q : (j.sys.qRes d).free.length + n = (i.sys.qRes d).free.length ∧ (j.sys.qRes d).count = (i.sys.qRes d).count
  qo : ∀ b, b ≠ d → j.sys.qRes b = i.sys.qRes b
  open' : ∀ x, (j.sys.rings d x).hw ≠ none → (i.sys.rings d x).hw ≠ none ∧ j.sys.rings d x = i.sys.rings d x ∨ x ∈ j.queues d ∧ (j.sys.rings d x).enabled = true
  other : ∀ b x, b ≠ d → j.sys.rings b x = i.sys.rings b x
  lists : ∀ b, b ≠ d → j.queues b = i.queues b
  sub : ∀ x ∈ i.queues d, x ∈ j.queues d
  only : ∀ x ∈ j.queues d, x ∈ i.queues d ∨ (j.sys.rings d x).hw ≠ none
  port : j.portUp = i.portUp ∧ j.txCtrl = i.txCtrl ∧ j.rxCtrl = i.rxCtrl
  cqr : (∀ x, (i.sys.cqs x).hw ≠ none → (i.sys.cqs x).ring ≠ none) → ∀ x, (j.sys.cqs x).hw ≠ none → (j.sys.cqs x).ring ≠ none
  next : i.next ≤ j.next
  mono : ∀ x, (i.sys.rings d x).hw ≠ none → j.sys.rings d x = i.sys.rings d x
  nd : (∀ x ∈ i.queues d, x < i.next) → (i.queues d).Nodup → (∀ x ∈ j.queues d, x < j.next) ∧ (j.queues d).Nodup

theorem openLoop_ok (p : Corundum.CplQueue.Params) (dma : Nat → Nat × Nat) (hd : ∀ k, (dma k).1 < 2 ^ 64 ∧ (dma k).2 < 2 ^ 64) (d : Dir) (n : Nat) : ∀ (k : Nat) (i : Iface), IfInv i → n ≤ i.sys.cqRes.free.length →
    n ≤ (i.sys.qRes d).free.length → (openLoop p dma d n k i).2 = false ∧ Looped i (openLoop p dma d n k i).1 d n := by
  induction n with
  | zero =>
    intro k i h _ _
    exact ⟨rfl, ⟨h, ⟨rfl, rfl⟩, ⟨rfl, rfl⟩, fun _ _ => rfl, fun x hx => Or.inl ⟨hx, rfl⟩, fun _ _ _ => rfl, fun _ _ => rfl, fun _ h => h, fun _ h => Or.inl h, ⟨rfl, rfl, rfl⟩, fun h => h, Nat.le_refl _, fun _ _ => rfl, fun h g => ⟨h, g⟩⟩⟩
  | succ n ih =>
    intro k i h h1 h2
    obtain ⟨g1, m, g2⟩ := openOne_ok p dma hd i d k h (fun e => by rw [e] at h1; simp at h1) (fun e => by rw [e] at h2; simp at h2)
    dsimp only [openLoop]
    rw [if_neg (by rw [g1]; exact fun h => (by cases h))]
    obtain ⟨j, ej⟩ : ∃ j, j = (openOne p dma i d k).1 := ⟨_, rfl⟩
    rw [← ej] at g2 ⊢
    have t1 : j.sys.cqRes.free.length + 1 = i.sys.cqRes.free.length := by rw [g2.cq.1, List.length_tail]; omega
    have t2 : (j.sys.qRes d).free.length + 1 = (i.sys.qRes d).free.length := by
      rw [g2.q, updD_same]
      show (i.sys.qRes d).free.tail.length + 1 = _
      rw [List.length_tail]; omega
    obtain ⟨k1, k2⟩ := ih (k + 1) j g2.inv (by omega) (by omega)
    have fr : (i.sys.rings d i.next).hw = none := by rw [(h.fresh i.next (Nat.le_refl _)).2 d]; rfl
    have hin : i.next ∈ j.queues d := by rw [g2.lists d, if_pos rfl]; exact List.mem_append_right _ (List.mem_cons_self ..)
    have hop : (j.sys.rings d i.next).hw ≠ none := by rw [g2.ring.1]; exact fun h => (by cases h)
    refine ⟨k1, ⟨k2.inv, ⟨by have := k2.cq.1; omega, k2.cq.2.trans g2.cq.2⟩, ⟨by have := k2.q.1; omega, k2.q.2.trans (by rw [g2.q, updD_same])⟩, fun b hb => ?_, fun x hx => ?_, fun b x hb => ?_, fun b hb => ?_, fun x hx => ?_, fun x hx => ?_, ?_, ?_, ?_, ?_, ?_⟩⟩
    · rw [k2.qo b hb, g2.q, updD_ne _ _ hb]
    · rcases k2.open' x hx with ⟨a1, a2⟩ | ha
      · by_cases ex : x = i.next
        · refine Or.inr ⟨k2.sub x (by rw [ex]; exact hin), ?_⟩
          rw [a2, ex]; exact g2.ring.2.1
        · have e := g2.other d x (fun h => ex h.2)
          rw [e] at a1 a2
          exact Or.inl ⟨a1, a2⟩
      · exact Or.inr ha
    · rw [k2.other b x hb, g2.other b x (fun h => hb h.1)]
    · rw [k2.lists b hb, g2.lists b, if_neg hb]
    · exact k2.sub x (by rw [g2.lists d, if_pos rfl]; exact List.mem_append_left _ hx)
    · rcases k2.only x hx with hx | hx
      · rw [g2.lists d, if_pos rfl, List.mem_append, List.mem_singleton] at hx
        rcases hx with hx | hx
        · exact Or.inl hx
        · right
          rw [hx, k2.mono i.next hop]
          exact hop
      · exact Or.inr hx
    · exact ⟨k2.port.1.trans g2.port.1, k2.port.2.1.trans g2.port.2.1, k2.port.2.2.trans g2.port.2.2⟩
    · intro ha
      refine k2.cqr fun x hx => ?_
      by_cases ex : x = i.next
      · rw [ex, g2.cqn]; exact fun h => (by cases h)
      · rw [g2.cqs x ex] at hx ⊢; exact ha x hx
    · have := k2.next; have := g2.next; omega
    · intro x hx
      have ex : x ≠ i.next := fun e => by rw [e] at hx; exact hx fr
      have e := g2.other d x (fun h => ex h.2)
      rw [k2.mono x (by rw [e]; exact hx), e]
    · intro ha hb
      have hn := g2.next
      refine k2.nd (fun x hx => ?_) ?_
      · rw [g2.lists d, if_pos rfl, List.mem_append, List.mem_singleton] at hx
        rcases hx with hx | hx
        · have := ha x hx; omega
        · omega
      · rw [g2.lists d, if_pos rfl]
        refine List.nodup_append.2 ⟨hb, List.nodup_cons.2 ⟨(by simp), List.nodup_nil⟩, fun x hx y hy => ?_⟩
        rw [List.mem_singleton] at hy
        have := ha x hx
        omega

theorem openLoop_fail (p : Corundum.CplQueue.Params) (dma : Nat → Nat × Nat) (hd : ∀ k, (dma k).1 < 2 ^ 64 ∧ (dma k).2 < 2 ^ 64) (d : Dir) (n : Nat) : ∀ (k : Nat) (i : Iface), IfInv i → (i.sys.cqRes.free.length < n ∨
    (i.sys.qRes d).free.length < n) → (openLoop p dma d n k i).2 = true ∧ (openLoop p dma d n k i).1.portUp = i.portUp := by
  induction n with
  | zero => intro k i _ h; omega
  | succ n ih =>
    intro k i h hlt
    dsimp only [openLoop]
    by_cases hf : i.sys.cqRes.free = [] ∨ (i.sys.qRes d).free = []
    · obtain ⟨g1, g2⟩ := openOne_fail p dma hd i d k h hf
      rw [if_pos g1]
      exact ⟨g1, g2⟩
    · have h1 : i.sys.cqRes.free ≠ [] := fun e => hf (Or.inl e)
      have h2 : (i.sys.qRes d).free ≠ [] := fun e => hf (Or.inr e)
      obtain ⟨g1, m, g2⟩ := openOne_ok p dma hd i d k h h1 h2
      rw [if_neg (by rw [g1]; exact fun h => (by cases h))]
      obtain ⟨j, ej⟩ : ∃ j, j = (openOne p dma i d k).1 := ⟨_, rfl⟩
      rw [← ej] at g2 ⊢
      have p1 := List.length_pos_iff.2 h1
      have p2 := List.length_pos_iff.2 h2
      have t1 : j.sys.cqRes.free.length + 1 = i.sys.cqRes.free.length := by rw [g2.cq.1, List.length_tail]; omega
      have t2 : (j.sys.qRes d).free.length + 1 = (i.sys.qRes d).free.length := by
        rw [g2.q, updD_same]
        show (i.sys.qRes d).free.tail.length + 1 = _
        rw [List.length_tail]; omega
      obtain ⟨k1, k2⟩ := ih (k + 1) j g2.inv (by omega)
      exact ⟨k1, k2.trans g2.port.1⟩

/-! ### `Interface.open` -/

theorem route_of_inv {s : Sys} (i : Inv s) {d : Dir} {r n : Nat} (h : (s.rings d r).hw = some n) : Route s d r n := by
  obtain ⟨c, m, g1, g2, g3, g4⟩ := i.q.hw d r n h
  obtain ⟨e, k, f1, f2, f3, f4⟩ := i.c.hw c m g2
  obtain ⟨irq, _, h4⟩ := i.e.hw e k f2
  unfold Route
  rw [g4.cplq, f4.evn]
  exact ⟨f4.en, h4.en, e, c, f2, f3, g2, g3⟩

/-- the interface is up -/
structure Up (i : Iface) : Prop where
  inv : IfInv i
  en : ∀ d n, n < (i.sys.qRes d).count → ∃ r ∈ i.queues d, (i.sys.rings d r).hw = some n ∧ (i.sys.rings d r).enabled = true
  full : ∀ d, (i.sys.qRes d).free = []
  open' : ∀ d x, (i.sys.rings d x).hw ≠ none ↔ x ∈ i.queues d
  nd : ∀ d, (i.queues d).Nodup

theorem ifOpen_ok (p : Corundum.CplQueue.Params) (dma : Nat → Nat × Nat) (hd : ∀ k, (dma k).1 < 2 ^ 64 ∧ (dma k).2 < 2 ^ 64) (i : Iface) (h : IfInv i) (hr : ∀ d r, (i.sys.rings d r).hw = none) (hl : ∀ d, i.queues d = [])
    (hc : (i.sys.qRes .rx).count + (i.sys.qRes .tx).count ≤ i.sys.cqRes.free.length) :
    (ifOpen p dma i).2 = false ∧ Up (ifOpen p dma i).1 ∧ (ifOpen p dma i).1.portUp = true ∧ (ifOpen p dma i).1.txCtrl = true ∧ (ifOpen p dma i).1.rxCtrl = true ∧
      (ifOpen p dma i).1.sys.cqRes.count = i.sys.cqRes.count ∧ (∀ d, ((ifOpen p dma i).1.sys.qRes d).count = (i.sys.qRes d).count) ∧
      ((∀ x, (i.sys.cqs x).hw ≠ none → (i.sys.cqs x).ring ≠ none) → ∀ x, ((ifOpen p dma i).1.sys.cqs x).hw ≠ none → ((ifOpen p dma i).1.sys.cqs x).ring ≠ none) := by
  have hfull : ∀ d, (i.sys.qRes d).free.length = (i.sys.qRes d).count := fun d => by
    have e := own_none (h.inv.q.own d) (fun r => hr d r)
    rw [e]
    show (List.range _).length = _
    rw [List.length_range]
    rfl
  obtain ⟨a1, a2⟩ := openLoop_ok p dma hd .rx (i.sys.qRes .rx).count 0 i h (by omega) (by rw [hfull]; exact Nat.le_refl _)
  unfold ifOpen
  dsimp only
  rw [if_neg (by rw [a1]; exact fun h => (by cases h))]
  obtain ⟨j, ej⟩ : ∃ j, j = (openLoop p dma .rx (i.sys.qRes .rx).count 0 i).1 := ⟨_, rfl⟩
  rw [← ej] at a2 ⊢
  have q1 := a2.qo .tx (by exact fun h => (by cases h))
  obtain ⟨b1, b2⟩ := openLoop_ok p dma hd .tx (j.sys.qRes .tx).count 0 j a2.inv (by rw [q1]; have := a2.cq.1; omega) (by rw [q1, hfull]; exact Nat.le_refl _)
  rw [if_neg (by rw [b1]; exact fun h => (by cases h))]
  obtain ⟨k, ek⟩ : ∃ k, k = (openLoop p dma .tx (j.sys.qRes .tx).count 0 j).1 := ⟨_, rfl⟩
  rw [← ek] at b2 ⊢
  have q2 := b2.qo .rx (by exact fun h => (by cases h))
  have hfree : ∀ d, (k.sys.qRes d).free = [] := by
    intro d
    apply List.length_eq_zero_iff.1
    cases d with
    | tx => have := b2.q.1; rw [q1, hfull] at this; omega
    | rx => rw [q2]; have := a2.q.1; rw [hfull] at this; omega
  have l1 := b2.lists .rx (by exact fun h => (by cases h))
  have l2 := a2.lists .tx (by exact fun h => (by cases h))
  have o1 := fun x => b2.other .rx x (by exact fun h => (by cases h))
  have o2 := fun x => a2.other .tx x (by exact fun h => (by cases h))
  have hopen : ∀ d x, (k.sys.rings d x).hw ≠ none → x ∈ k.queues d ∧ (k.sys.rings d x).enabled = true := by
    intro d x hx
    cases d with
    | tx =>
      rcases b2.open' x hx with ⟨c1, _⟩ | c
      · rw [o2 x] at c1; exact absurd (hr .tx x) c1
      · exact c
    | rx =>
      rw [o1 x] at hx ⊢
      rw [l1]
      rcases a2.open' x hx with ⟨c1, _⟩ | c
      · exact absurd (hr .rx x) c1
      · exact c
  have hmem : ∀ d x, x ∈ k.queues d → (k.sys.rings d x).hw ≠ none := by
    intro d x hx
    cases d with
    | tx =>
      rcases b2.only x hx with c | c
      · rw [l2, hl] at c; cases c
      · exact c
    | rx =>
      rw [l1] at hx
      rw [o1 x]
      rcases a2.only x hx with c | c
      · rw [hl] at c; cases c
      · exact c
  have hnd : ∀ d, (k.queues d).Nodup := by
    intro d
    cases d with
    | tx => exact (b2.nd (by rw [l2, hl]; exact fun _ h => (by cases h)) (by rw [l2, hl]; exact List.nodup_nil)).2
    | rx => rw [l1]; exact (a2.nd (by rw [hl]; exact fun _ h => (by cases h)) (by rw [hl]; exact List.nodup_nil)).2
  refine ⟨rfl, ⟨⟨b2.inv.inv, b2.inv.fresh, b2.inv.eqs, b2.inv.ne⟩, fun d n hn => ?_, hfree, fun d x => ⟨fun hx => (hopen d x hx).1, hmem d x⟩, hnd⟩, rfl, rfl, rfl, b2.cq.2.trans a2.cq.2, fun d => ?_, fun hq => b2.cqr (a2.cqr hq)⟩
  · have hn' : n < (k.sys.qRes d).count := hn
    have hex : ∃ r, (k.sys.rings d r).hw = some n := by
      refine Classical.byContradiction fun hne => ?_
      have := ((b2.inv.inv.q.own d).mem n).2 ⟨hn', fun r hr => hne ⟨r, hr⟩⟩
      rw [hfree d] at this
      cases this
    obtain ⟨r, hr⟩ := hex
    have := hopen d r (by rw [hr]; exact fun h => (by cases h))
    exact ⟨r, this.1, hr, this.2⟩
  · show (k.sys.qRes d).count = _
    cases d with
    | tx => rw [b2.q.2, q1]
    | rx => rw [q2, a2.q.2]

/-- too few completion queues, or no free queue -/
theorem ifOpen_fail (p : Corundum.CplQueue.Params) (dma : Nat → Nat × Nat) (hd : ∀ k, (dma k).1 < 2 ^ 64 ∧ (dma k).2 < 2 ^ 64) (i : Iface) (h : IfInv i)
    (hc : i.sys.cqRes.free.length < (i.sys.qRes .rx).count + (i.sys.qRes .tx).count ∨ (i.sys.qRes .rx).free.length < (i.sys.qRes .rx).count ∨ (i.sys.qRes .tx).free.length < (i.sys.qRes .tx).count) :
    (ifOpen p dma i).2 = true ∧ (ifOpen p dma i).1.portUp = i.portUp := by
  unfold ifOpen
  dsimp only
  by_cases hf : i.sys.cqRes.free.length < (i.sys.qRes .rx).count ∨ (i.sys.qRes .rx).free.length < (i.sys.qRes .rx).count
  · obtain ⟨g1, g2⟩ := openLoop_fail p dma hd .rx (i.sys.qRes .rx).count 0 i h hf
    rw [if_pos g1]
    exact ⟨g1, g2⟩
  · obtain ⟨a1, a2⟩ := openLoop_ok p dma hd .rx (i.sys.qRes .rx).count 0 i h (by omega) (by omega)
    rw [if_neg (by rw [a1]; exact fun h => (by cases h))]
    obtain ⟨j, ej⟩ : ∃ j, j = (openLoop p dma .rx (i.sys.qRes .rx).count 0 i).1 := ⟨_, rfl⟩
    rw [← ej] at a2 ⊢
    have q1 := a2.qo .tx (by exact fun h => (by cases h))
    have := a2.cq.1
    obtain ⟨g1, g2⟩ := openLoop_fail p dma hd .tx (j.sys.qRes .tx).count 0 j a2.inv (by rw [q1]; omega)
    rw [if_pos g1]
    exact ⟨g1, g2.trans a2.port.1⟩

/-! ### `Interface.init` -/

theorem eqOpen_eval (p : Corundum.CplQueue.Params) (s : Sys) (e irq size base n : Nat) (l : List Nat) (h1 : (s.eqs e).hw = none) (h2 : s.eqRes.free = n :: l) :
    eqOpen p s e irq size base = ({ s with
      eqRes := { s.eqRes with free := l }
      eqs := upd s.eqs e ⟨some n, base, Nat.log2 size, some irq, fun _ => none, true⟩
      he := upd s.he n (progC p (s.he n) (progC8 base (Nat.log2 size) irq)) }, false) := by
  unfold eqOpen
  rw [h1, alloc_cons h2]

theorem eqArm_eval (p : Corundum.CplQueue.Params) (s : Sys) (e n : Nat) (h : (s.eqs e).hw = some n) :
    step p s (.eqArm e) = ({ s with he := upd s.he n (wrC p (s.he n) (CTRL, SET_ARM ||| 1)) }, false) := by
  show (match (s.eqs e).hw with | none => (s, false) | some n => _) = _
  rw [h]

theorem initEqs_ok (p : Corundum.CplQueue.Params) (irq : Nat) (hi : irq < 2 ^ 16) (dma : Nat → Nat) (hd : ∀ k, dma k < 2 ^ 64) (n : Nat) : ∀ (k : Nat) (i : Iface), Inv i.sys → (∀ o, i.next ≤ o → i.sys.cqs o = .new ∧ ∀ d, i.sys.rings d o = .new) →
    (∀ e ∈ i.eq, (i.sys.eqs e).hw ≠ none) → (i.eq ≠ [] ∨ n ≠ 0) → (∀ e, k ≤ e → (i.sys.eqs e).hw = none) → i.sys.eqRes.free.length = n →
    (initEqs p irq dma n k i).2 = false ∧ IfInv (initEqs p irq dma n k i).1 ∧ (initEqs p irq dma n k i).1.sys.cqRes = i.sys.cqRes ∧ (initEqs p irq dma n k i).1.sys.qRes = i.sys.qRes ∧
      (initEqs p irq dma n k i).1.sys.rings = i.sys.rings ∧ (initEqs p irq dma n k i).1.sys.cqs = i.sys.cqs ∧ (initEqs p irq dma n k i).1.txq = i.txq ∧ (initEqs p irq dma n k i).1.rxq = i.rxq := by
  induction n with
  | zero =>
    intro k i h1 h2 h3 h4 _ _
    refine ⟨rfl, ⟨h1, h2, h3, ?_⟩, rfl, rfl, rfl, rfl, rfl, rfl⟩
    rcases h4 with h4 | h4
    · exact h4
    · exact absurd rfl h4
  | succ n ih =>
    intro k i h1 h2 h3 h4 h5 h6
    obtain ⟨q, l, hql⟩ := List.exists_cons_of_ne_nil (show i.sys.eqRes.free ≠ [] from fun e => by rw [e] at h6; cases h6)
    have hk := h5 k (Nat.le_refl _)
    dsimp only [initEqs]
    have i1 := inv_step p i.sys (.eqOpen k irq 1024 (dma k)) h1 ⟨hi, hd k, by decide⟩
    have s1 : ∀ s, step p s (.eqOpen k irq 1024 (dma k)) = eqOpen p s k irq 1024 (dma k) := fun _ => rfl
    rw [s1] at i1
    rw [eqOpen_eval p i.sys k irq 1024 (dma k) q l hk hql] at i1 ⊢
    rw [if_neg (by exact fun h => (by cases h))]
    dsimp only at i1 ⊢
    have i2 := inv_step p _ (.eqArm k) i1 trivial
    rw [eqArm_eval p _ k q (by dsimp only; rw [upd_same])] at i2 ⊢
    dsimp only at i2 ⊢
    refine ih (k + 1) _ i2 h2 (fun e he => ?_) (Or.inl (by simp)) (fun e he => ?_) ?_
    · rw [List.mem_append, List.mem_singleton] at he
      show (upd i.sys.eqs k _ e).hw ≠ none
      by_cases ee : e = k
      · rw [ee, upd_same]; exact fun h => (by cases h)
      · rw [upd_ne _ _ ee]
        rcases he with he | he
        · exact h3 e he
        · exact absurd he ee
    · show (upd i.sys.eqs k _ e).hw = none
      rw [upd_ne _ _ (by omega)]
      exact h5 e (by omega)
    · rw [hql] at h6
      have h7 : l.length + 1 = n + 1 := h6
      show l.length = n
      omega

/-! ### operation -/

theorem data_step (p : Corundum.CplQueue.Params) (s : Sys) (o : Op) (h : o.Data) : (step p s o).1.eqs = s.eqs ∧ (step p s o).1.cqs = s.cqs ∧ (step p s o).1.eqRes = s.eqRes ∧ (step p s o).1.cqRes = s.cqRes ∧
    (step p s o).1.qRes = s.qRes ∧ ∀ d r, ((step p s o).1.rings d r).hw = (s.rings d r).hw ∧ (s.rings d r = .new → o.Ok s → (step p s o).1.rings d r = .new) := by
  have key : ∀ (d : Dir) (r : Nat) (x : Ring), x.hw = (s.rings d r).hw → (s.rings d r).hw ≠ none → ∀ b y, (upd2 s.rings d r x b y).hw = (s.rings b y).hw ∧ (s.rings b y = .new → upd2 s.rings d r x b y = .new) := by
    intro d r x hx hne b y
    by_cases e : b = d ∧ y = r
    · rw [e.1, e.2, upd2_same]
      refine ⟨hx, fun hn => ?_⟩
      rw [hn] at hne
      exact absurd rfl hne
    · rw [upd2_ne _ _ e]; exact ⟨rfl, fun h => h⟩
  cases o with
  | eqOpen | eqClose | cqOpen | cqClose | ringOpen | ringClose => exact h.elim
  | ringEnable d r =>
    dsimp only [step, ringEnable]
    split
    · exact ⟨rfl, rfl, rfl, rfl, rfl, fun _ _ => ⟨rfl, fun h _ => h⟩⟩
    · rename_i n hn
      refine ⟨rfl, rfl, rfl, rfl, rfl, fun b y => ?_⟩
      have := key d r { s.rings d r with enabled := true } rfl (by rw [hn]; exact fun h => (by cases h)) b y
      exact ⟨this.1, fun h _ => this.2 h⟩
  | ringDisable d r =>
    dsimp only [step, ringDisable]
    split
    · exact ⟨rfl, rfl, rfl, rfl, rfl, fun _ _ => ⟨rfl, fun h _ => h⟩⟩
    · rename_i n hn
      refine ⟨rfl, rfl, rfl, rfl, rfl, fun b y => ?_⟩
      have := key d r { s.rings d r with enabled := false } rfl (by rw [hn]; exact fun h => (by cases h)) b y
      exact ⟨this.1, fun h _ => this.2 h⟩
  | ringPost d r k =>
    dsimp only [step, ringPost]
    split
    · rename_i hn
      refine ⟨rfl, rfl, rfl, rfl, rfl, fun b y => ⟨?_, fun _ h => absurd hn h⟩⟩
      show (upd2 s.rings d r _ b y).hw = _
      by_cases e : b = d ∧ y = r
      · rw [e.1, e.2, upd2_same]
      · rw [upd2_ne _ _ e]
    · rename_i n hn
      refine ⟨rfl, rfl, rfl, rfl, rfl, fun b y => ?_⟩
      have := key d r { s.rings d r with prod := (s.rings d r).prod + k } rfl (by rw [hn]; exact fun h => (by cases h)) b y
      exact ⟨this.1, fun h _ => this.2 h⟩
  | eqArm e =>
    dsimp only [step]
    split <;> exact ⟨rfl, rfl, rfl, rfl, rfl, fun _ _ => ⟨rfl, fun h _ => h⟩⟩
  | cqArm c =>
    dsimp only [step]
    split <;> exact ⟨rfl, rfl, rfl, rfl, rfl, fun _ _ => ⟨rfl, fun h _ => h⟩⟩
  | hwRing | hwCpl | hwEvent => exact ⟨rfl, rfl, rfl, rfl, rfl, fun _ _ => ⟨rfl, fun h _ => h⟩⟩

theorem data_run (p : Corundum.CplQueue.Params) (ops : List Op) : ∀ s, Valid p s ops → (∀ o ∈ ops, o.Data) → (run p s ops).eqs = s.eqs ∧ (run p s ops).cqs = s.cqs ∧ (run p s ops).eqRes = s.eqRes ∧ (run p s ops).cqRes = s.cqRes ∧
    (run p s ops).qRes = s.qRes ∧ ∀ d r, ((run p s ops).rings d r).hw = (s.rings d r).hw ∧ (s.rings d r = .new → (run p s ops).rings d r = .new) := by
  induction ops with
  | nil => exact fun s _ _ => ⟨rfl, rfl, rfl, rfl, rfl, fun _ _ => ⟨rfl, fun h => h⟩⟩
  | cons o os ih =>
    intro s v h
    obtain ⟨a1, a2, a3, a4, a5, a6⟩ := data_step p s o (h o (List.mem_cons_self ..))
    obtain ⟨b1, b2, b3, b4, b5, b6⟩ := ih (step p s o).1 v.2 (fun x hx => h x (List.mem_cons_of_mem _ hx))
    exact ⟨b1.trans a1, b2.trans a2, b3.trans a3, b4.trans a4, b5.trans a5, fun d r => ⟨(b6 d r).1.trans (a6 d r).1, fun hn => (b6 d r).2 ((a6 d r).2 hn v.1)⟩⟩

/-! ### closing queue by queue -/

structure Closed (s t : Sys) (l : List (Dir × Nat)) : Prop where
  inv : Inv t
  shut : ∀ x ∈ l, (t.rings x.1 x.2).hw = none
  other : ∀ d r, (d, r) ∉ l → t.rings d r = s.rings d r
  cnt : t.cqRes.count = s.cqRes.count ∧ ∀ d, (t.qRes d).count = (s.qRes d).count
  eqs : ∀ e, (t.eqs e).hw = (s.eqs e).hw
  new : ∀ c, s.cqs c = .new → t.cqs c = .new
  cqr : (∀ x, (s.cqs x).hw ≠ none → (s.cqs x).ring ≠ none) → ∀ x, (t.cqs x).hw ≠ none → (t.cqs x).ring ≠ none

theorem byHand_ok (p : Corundum.CplQueue.Params) (l : List (Dir × Nat)) : ∀ s, Inv s → l.Nodup → (∀ x ∈ l, (s.rings x.1 x.2).hw ≠ none) → (byHand p s l).2 = false ∧ Closed s (byHand p s l).1 l := by
  induction l with
  | nil => exact fun s i _ _ => ⟨rfl, i, (fun _ h => by cases h), fun _ _ _ => rfl, ⟨rfl, fun _ => rfl⟩, fun _ => rfl, fun _ h => h, fun h => h⟩
  | cons x l ih =>
    obtain ⟨d, r⟩ := x
    intro s i hnd ho
    obtain ⟨n, hn⟩ := Option.ne_none_iff_exists'.1 (ho (d, r) (List.mem_cons_self ..))
    dsimp only at hn
    obtain ⟨c, m, g1, g2, g3, g4⟩ := i.q.hw d r n hn
    obtain ⟨e, me, f1, f2, f3, f4⟩ := i.c.hw c m g2
    obtain ⟨s1, es1⟩ : ∃ s1 : Sys, s1 = { s with
        qRes := updD s.qRes d ((s.qRes d).release n)
        cqs := upd s.cqs c { s.cqs c with ring := none }
        rings := upd2 s.rings d r { s.rings d r with hw := none, cq := none, enabled := false }
        hq := upd2 s.hq d n (wrQ (s.hq d n) (CTRL, SET_ENABLE ||| 0)) } := ⟨_, rfl⟩
    have v1 : ringClose s d r = (s1, false) := by
      unfold ringClose
      rw [hn, es1]
      dsimp only
      rw [g1]
    have i1 : Inv s1 := by
      have := inv_step p s (.ringClose d r) i trivial
      have e : step p s (.ringClose d r) = ringClose s d r := rfl
      rw [e, v1] at this
      exact this
    have c1 : s1.cqs c = { s.cqs c with ring := none } := by rw [es1]; exact upd_same ..
    obtain ⟨s2, es2⟩ : ∃ s2 : Sys, s2 = { s1 with
        cqRes := s1.cqRes.release m
        eqs := upd s1.eqs e { s1.eqs e with table := upd (s1.eqs e).table m none }
        cqs := upd s1.cqs c { s1.cqs c with hw := none, eq := none, enabled := false }
        hc := upd s1.hc m (wrC p (s1.hc m) (CTRL, SET_ENABLE ||| 0)) } := ⟨_, rfl⟩
    have v2 : cqClose p s1 c = (s2, false) := by
      have a1 : (s1.cqs c).hw = some m := by rw [c1]; exact g2
      have a2 : (s1.cqs c).eq = some e := by rw [c1]; exact f1
      have a3 : (s1.eqs e).table m = some c := by rw [es1]; exact f3
      unfold cqClose
      rw [a1]
      dsimp only
      rw [a2]
      dsimp only
      rw [a3, es2]
    have i2 : Inv s2 := by
      have := inv_step p s1 (.cqClose c) i1 (show (s1.cqs c).ring = none by rw [c1])
      have e : step p s1 (.cqClose c) = cqClose p s1 c := rfl
      rw [e, v2] at this
      exact this
    have hv : byHand p s ((d, r) :: l) = byHand p s2 l := by
      show (match (s.rings d r).cq with | none => (s, true) | some c => _) = _
      rw [g1]
      dsimp only
      rw [v1]
      dsimp only
      rw [v2]
      rfl
    have r2 : s2.rings = upd2 s.rings d r { s.rings d r with hw := none, cq := none, enabled := false } := by rw [es2, es1]
    have rne : ∀ b y, (b, y) ≠ (d, r) → s2.rings b y = s.rings b y := fun b y h => by
      rw [r2, upd2_ne _ _ (fun e => h (by rw [e.1, e.2]))]
    have rsame : (s2.rings d r).hw = none := by rw [r2, upd2_same]
    rw [List.nodup_cons] at hnd
    obtain ⟨k1, k2⟩ := ih s2 i2 hnd.2 (fun x hx => by
      rw [rne x.1 x.2 (fun e => hnd.1 (e ▸ hx))]
      exact ho x (List.mem_cons_of_mem _ hx))
    rw [hv]
    have hq : ∀ y, y ≠ c → s2.cqs y = s.cqs y := fun y hy => by
      rw [es2]
      show upd s1.cqs c _ y = _
      rw [upd_ne _ _ hy, es1]
      exact upd_ne _ _ hy
    have hqc : (s2.cqs c).hw = none := by
      rw [es2]
      show (upd s1.cqs c _ c).hw = none
      rw [upd_same]
    refine ⟨k1, k2.inv, fun x hx => ?_, fun b y hb => ?_, ⟨k2.cnt.1.trans (by rw [es2, es1]; rfl), fun b => (k2.cnt.2 b).trans ?_⟩, fun y => (k2.eqs y).trans ?_, fun y hy => k2.new y ?_, fun h => k2.cqr fun y hy => ?_⟩
    · rcases List.mem_cons.1 hx with hx | hx
      · rw [hx]
        rw [k2.other d r hnd.1]; exact rsame
      · exact k2.shut x hx
    · rw [List.mem_cons] at hb
      rw [k2.other b y (fun h => hb (Or.inr h))]
      exact rne b y (fun h => hb (Or.inl h))
    · rw [es2, es1]
      show (updD s.qRes d _ b).count = _
      by_cases eb : b = d
      · rw [eb, updD_same]; rfl
      · rw [updD_ne _ _ eb]
    · rw [es2]
      show (upd s1.eqs e _ y).hw = _
      by_cases ey : y = e
      · rw [ey, upd_same, es1]
      · rw [upd_ne _ _ ey, es1]
    · have ey : y ≠ c := fun h => by
        rw [← h, hy] at g2; cases g2
      rw [hq y ey]; exact hy
    · have ey : y ≠ c := fun e => hy (e ▸ hqc)
      rw [hq y ey] at hy ⊢
      exact h y hy

end Corundum.Lifecycle
