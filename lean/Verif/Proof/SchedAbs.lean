import Verif.Spec.Sched
/-! Abstract bookkeeping for the doorbell proof: outstanding operations as a list, oldest completion first. -/
namespace Corundum.Sched

structure Ent where
  q : Nat
  tag : Nat
  sure : Bool      -- will complete as "active"
  db : Bool        -- carries a doorbell
  env : Bool       -- still with the client

structure AInv (S : List Ent) (tail : Nat → Nat) (pend active : Nat → Bool) : Prop where
  nd : (S.map Ent.tag).Nodup
  sa : S.Pairwise (fun x y => x.q = y.q → x.tag = tail x.q → y.sure = true)
  nt : ∀ e ∈ S, (∀ y ∈ S, y.q = e.q → y.tag ≠ tail e.q) → e.sure = true
  lst : S.Pairwise (fun x y => x.env = true → y.env = true → x.q = y.q → x.tag ≠ tail x.q)
  ord : S.Pairwise (fun x y => x.env = true → y.env = true)
  p1 : ∀ q, pend q = true → ∀ e ∈ S, e.q = q → e.tag = tail q → e.db = true
  p2 : ∀ q, pend q = true → (∀ e ∈ S, e.q = q → e.tag ≠ tail q) → active q = true

/-- `f` keeps identity and can only raise the flags -/
structure Raise (f : Ent → Ent) : Prop where
  q : ∀ e, (f e).q = e.q
  tag : ∀ e, (f e).tag = e.tag
  env : ∀ e, (f e).env = e.env
  sure : ∀ e, e.sure = true → (f e).sure = true
  db : ∀ e, e.db = true → (f e).db = true

theorem AInv.raise {S tail pend active} (h : AInv S tail pend active) {f : Ent → Ent} (hf : Raise f) : AInv (S.map f) tail pend active := by
  have hno : ∀ q, (∀ e ∈ S.map f, e.q = q → e.tag ≠ tail q) → (∀ e ∈ S, e.q = q → e.tag ≠ tail q) := by
    intro q hq e he h1
    have := hq (f e) (List.mem_map.mpr ⟨e, he, rfl⟩) (by rw [hf.q]; exact h1)
    rwa [hf.tag] at this
  refine ⟨?_, ?_, ?_, ?_, ?_, ?_, ?_⟩
  · rw [List.map_map]
    have : (Ent.tag ∘ f) = Ent.tag := funext hf.tag
    rw [this]; exact h.nd
  · rw [List.pairwise_map]
    refine h.sa.imp ?_
    intro x y hxy h1 h2
    rw [hf.q, hf.q] at h1
    rw [hf.tag, hf.q] at h2
    exact hf.sure _ (hxy h1 h2)
  · intro e he hn
    obtain ⟨x, hx, rfl⟩ := List.mem_map.mp he
    rw [hf.q] at hn
    exact hf.sure _ (h.nt x hx (hno x.q hn))
  · rw [List.pairwise_map]
    refine h.lst.imp ?_
    intro x y hxy
    rw [hf.env, hf.env, hf.q, hf.q, hf.tag]; exact hxy
  · rw [List.pairwise_map]
    refine h.ord.imp ?_
    intro x y hxy
    rw [hf.env, hf.env]; exact hxy
  · intro q hp e he h1 h2
    obtain ⟨x, hx, rfl⟩ := List.mem_map.mp he
    rw [hf.q] at h1; rw [hf.tag] at h2
    exact hf.db _ (h.p1 q hp x hx h1 h2)
  · intro q hp hn
    exact h.p2 q hp (hno q hn)

def markQ (q : Nat) (e : Ent) : Ent := if e.q = q then { e with sure := true } else e

theorem raise_mark (q : Nat) : Raise (markQ q) := by
  refine ⟨?_, ?_, ?_, ?_, ?_⟩ <;> intro e <;> unfold markQ <;> split <;> first | rfl | (intro h; first | rfl | exact h)

/-- the client completes `x` -/
theorem AInv.status {F A B : List Ent} {x : Ent} {tail pend active} (h : AInv (F ++ (A ++ x :: B)) tail pend active)
    (hF : ∀ e ∈ F, e.env = false) (hx : x.env = true) (st : Bool) (hst : x.sure = true → st = true) :
    AInv (F ++ ({ x with sure := st, env := false } :: (A.map (markQ x.q) ++ B))) tail pend active := by
  have hperm : ∀ e, e ∈ F ++ ({ x with sure := st, env := false } :: (A.map (markQ x.q) ++ B)) →
      ∃ y ∈ F ++ (A ++ x :: B), y.q = e.q ∧ y.tag = e.tag ∧ y.db = e.db := by
    intro e he
    simp only [List.mem_append, List.mem_cons, List.mem_map] at he
    rcases he with e1 | e1 | ⟨y, hy, e1⟩ | e1
    · exact ⟨e, by simp [e1], rfl, rfl, rfl⟩
    · exact ⟨x, by simp, by rw [e1], by rw [e1], by rw [e1]⟩
    · refine ⟨y, by simp [hy], ?_⟩
      rw [← e1]; unfold markQ; split <;> exact ⟨rfl, rfl, rfl⟩
    · exact ⟨e, by simp [e1], rfl, rfl, rfl⟩
  have hback : ∀ y ∈ F ++ (A ++ x :: B), ∃ e ∈ F ++ ({ x with sure := st, env := false } :: (A.map (markQ x.q) ++ B)), e.q = y.q ∧ e.tag = y.tag := by
    intro y hy
    simp only [List.mem_append, List.mem_cons] at hy
    rcases hy with e1 | e1 | e1 | e1
    · exact ⟨y, by simp [e1], rfl, rfl⟩
    · exact ⟨markQ x.q y, by simp only [List.mem_append, List.mem_cons, List.mem_map]; exact .inr (.inr (.inl ⟨y, e1, rfl⟩)),
        (raise_mark x.q).q y, (raise_mark x.q).tag y⟩
    · exact ⟨{ x with sure := st, env := false }, by simp, by rw [e1], by rw [e1]⟩
    · exact ⟨y, by simp [e1], rfl, rfl⟩
  have hno : ∀ q, (∀ e ∈ F ++ ({ x with sure := st, env := false } :: (A.map (markQ x.q) ++ B)), e.q = q → e.tag ≠ tail q) →
      (∀ e ∈ F ++ (A ++ x :: B), e.q = q → e.tag ≠ tail q) := by
    intro q hq e he h1 h2
    obtain ⟨y, hy, e1, e2⟩ := hback e he
    exact hq y hy (e1.trans h1) (e2.trans h2)
  have hsa := h.sa
  have hlst := h.lst
  have hord := h.ord
  rw [List.pairwise_append, List.pairwise_append, List.pairwise_cons] at hsa hlst hord
  obtain ⟨sF, ⟨sA, ⟨sxB, sB⟩, sAxB⟩, sFr⟩ := hsa
  obtain ⟨lF, ⟨lA, ⟨lxB, lB⟩, lAxB⟩, lFr⟩ := hlst
  obtain ⟨oF, ⟨oA, ⟨oxB, oB⟩, oAxB⟩, oFr⟩ := hord
  have hm := raise_mark x.q
  refine ⟨?_, ?_, ?_, ?_, ?_, ?_, ?_⟩
  · have h1 := h.nd
    simp only [List.map_append, List.map_cons] at h1 ⊢
    have e1 : (A.map (markQ x.q)).map Ent.tag = A.map Ent.tag := by
      rw [List.map_map]; exact List.map_congr_left (fun e _ => hm.tag e)
    rw [e1]
    refine (List.Perm.nodup_iff ?_).mp h1
    refine List.Perm.append_left _ ?_
    exact List.perm_middle
  · rw [List.pairwise_append, List.pairwise_cons, List.pairwise_append, List.pairwise_map]
    refine ⟨sF, ⟨?_, ?_, sB, ?_⟩, ?_⟩
    · intro y hy h1 h2
      rcases List.mem_append.mp hy with e | e
      · obtain ⟨z, hz, rfl⟩ := List.mem_map.mp e
        rw [hm.q] at h1
        unfold markQ; rw [if_pos h1.symm]
      · have hy2 := oxB y e hx
        exact absurd h2 (lxB y e hx hy2 h1)
    · refine sA.imp ?_
      intro a b hab h1 h2
      rw [hm.q, hm.q] at h1; rw [hm.tag, hm.q] at h2
      exact hm.sure _ (hab h1 h2)
    · intro a ha b hb h1 h2
      obtain ⟨z, hz, rfl⟩ := List.mem_map.mp ha
      rw [hm.q] at h1; rw [hm.tag, hm.q] at h2
      exact sAxB z hz b (by simp [hb]) h1 h2
    · intro a ha b hb h1 h2
      simp only [List.mem_cons, List.mem_append, List.mem_map] at hb
      rcases hb with e | ⟨z, hz, e⟩ | e
      · rw [e] at h1 ⊢
        exact hst (sFr a ha x (by simp) h1 h2)
      · rw [← e] at h1 ⊢
        rw [hm.q] at h1
        exact hm.sure _ (sFr a ha z (by simp [hz]) h1 h2)
      · exact sFr a ha b (by simp [e]) h1 h2
  · intro e he hn
    have hn2 := hno e.q hn
    simp only [List.mem_append, List.mem_cons, List.mem_map] at he
    rcases he with e1 | e1 | ⟨y, hy, e1⟩ | e1
    · exact h.nt e (by simp [e1]) hn2
    · rw [e1] at hn2 ⊢
      exact hst (h.nt x (by simp) hn2)
    · rw [← e1] at hn2 ⊢
      rw [hm.q] at hn2
      exact hm.sure _ (h.nt y (by simp [hy]) hn2)
    · exact h.nt e (by simp [e1]) hn2
  · rw [List.pairwise_append, List.pairwise_cons, List.pairwise_append, List.pairwise_map]
    refine ⟨lF, ⟨by intro y _ h1; simp at h1, ?_, lB, ?_⟩, ?_⟩
    · refine lA.imp ?_
      intro a b hab
      rw [hm.env, hm.env, hm.q, hm.q, hm.tag]; exact hab
    · intro a ha b hb
      obtain ⟨z, hz, rfl⟩ := List.mem_map.mp ha
      rw [hm.env, hm.q, hm.tag]
      exact lAxB z hz b (by simp [hb])
    · intro a ha b hb h1
      rw [hF a ha] at h1; cases h1
  · rw [List.pairwise_append, List.pairwise_cons, List.pairwise_append, List.pairwise_map]
    refine ⟨oF, ⟨by intro y _ h1; simp at h1, ?_, oB, ?_⟩, ?_⟩
    · refine oA.imp ?_
      intro a b hab
      rw [hm.env, hm.env]; exact hab
    · intro a ha b hb
      obtain ⟨z, hz, rfl⟩ := List.mem_map.mp ha
      rw [hm.env]
      exact oAxB z hz b (by simp [hb])
    · intro a ha b hb h1
      rw [hF a ha] at h1; cases h1
  · intro q hp e he h1 h2
    obtain ⟨y, hy, e1, e2, e3⟩ := hperm e he
    rw [← e3]
    exact h.p1 q hp y hy (e1.trans h1) (e2.trans h2)
  · intro q hp hn
    exact h.p2 q hp (hno q hn)

/-- the oldest completion is processed -/
theorem AInv.done {S : List Ent} {e : Ent} {tail pend active} (h : AInv (e :: S) tail pend active) (v : Bool) (h1 : e.sure = true → v = true)
    (h2 : e.db = true → v = true) : AInv S tail pend (upd active e.q v) := by
  have hsa := List.pairwise_cons.mp h.sa
  refine ⟨?_, hsa.2, ?_, (List.pairwise_cons.mp h.lst).2, (List.pairwise_cons.mp h.ord).2, ?_, ?_⟩
  · have := h.nd; rw [List.map_cons, List.nodup_cons] at this; exact this.2
  · intro y hy hn
    by_cases hc : e.q = y.q ∧ e.tag = tail y.q
    · exact hsa.1 y hy hc.1 (by rw [hc.1]; exact hc.2)
    · refine h.nt y (by simp [hy]) ?_
      intro z hz hzq
      rcases List.mem_cons.mp hz with e1 | e1
      · rw [e1] at hzq ⊢; exact fun e2 => hc ⟨hzq, e2⟩
      · exact hn z e1 hzq
  · intro q hp y hy; exact h.p1 q hp y (by simp [hy])
  · intro q hp hn
    unfold upd
    split
    · rename_i hq
      by_cases hc : e.tag = tail q
      · exact h2 (h.p1 q hp e (by simp) hq.symm hc)
      · refine h1 (h.nt e (by simp) ?_)
        intro y hy hyq
        rw [← hq]
        rcases List.mem_cons.mp hy with e1 | e1
        · rw [e1]; exact hc
        · exact hn y e1 (by rw [hq]; exact hyq)
    · rename_i hq
      refine h.p2 q hp ?_
      intro y hy hyq
      rcases List.mem_cons.mp hy with e1 | e1
      · rw [e1] at hyq; exact absurd hyq.symm hq
      · exact hn y e1 hyq

/-- a request is issued -/
theorem AInv.issue {S : List Ent} {tail pend active} (h : AInv S tail pend active) (e : Ent) (he : e.env = true) (hk : e.tag ∉ S.map Ent.tag) :
    AInv (S ++ [e]) (upd tail e.q e.tag) (upd pend e.q false) active := by
  have hne : ∀ y ∈ S, y.tag ≠ e.tag := fun y hy e1 => hk (List.mem_map.mpr ⟨y, hy, e1⟩)
  have htail : ∀ y ∈ S, ∀ q, y.tag = upd tail e.q e.tag q → q ≠ e.q ∧ y.tag = tail q := by
    intro y hy q h1
    unfold upd at h1
    split at h1
    · exact absurd h1 (hne y hy)
    · rename_i hq; exact ⟨hq, h1⟩
  have hnot : ∀ y ∈ S, ∀ q, q ≠ e.q → y.tag ≠ upd tail e.q e.tag q → y.tag ≠ tail q := by
    intro y hy q hq h1
    unfold upd at h1
    rwa [if_neg hq] at h1
  refine ⟨?_, ?_, ?_, ?_, ?_, ?_, ?_⟩
  · rw [List.map_append, List.nodup_append]
    refine ⟨h.nd, by simp, ?_⟩
    intro a ha b hb e1
    simp at hb
    exact hk (by rw [← hb, ← e1]; exact ha)
  · rw [List.pairwise_append]
    refine ⟨?_, by simp, ?_⟩
    · refine h.sa.imp_of_mem ?_
      intro x y hx hy hxy h1 h2
      exact hxy h1 (htail x hx _ h2).2
    · intro x hx y hy h1 h2
      simp at hy
      rw [hy] at h1
      exact absurd h1 (htail x hx _ h2).1
  · intro y hy hn
    rcases List.mem_append.mp hy with e1 | e1
    · by_cases hq : y.q = e.q
      · have := hn e (by simp) hq.symm
        unfold upd at this; rw [if_pos hq] at this; exact absurd rfl this
      · refine h.nt y e1 ?_
        intro z hz hzq
        exact hnot z hz _ hq (hn z (by simp [hz]) hzq)
    · simp at e1
      rw [e1] at hn
      have := hn e (by simp) rfl
      unfold upd at this; rw [if_pos rfl] at this; exact absurd rfl this
  · rw [List.pairwise_append]
    refine ⟨?_, by simp, ?_⟩
    · refine h.lst.imp_of_mem ?_
      intro x y hx hy hxy h1 h2 h3 h4
      exact hxy h1 h2 h3 (htail x hx _ h4).2
    · intro x hx y hy h1 h2 h3 h4
      simp at hy
      rw [hy] at h3
      exact absurd h3 (htail x hx _ h4).1
  · rw [List.pairwise_append]
    refine ⟨h.ord, by simp, ?_⟩
    intro x hx y hy _
    simp at hy
    rw [hy]; exact he
  · intro q hp y hy h1 h2
    by_cases hq : q = e.q
    · simp [upd, hq] at hp
    · have hp' : pend q = true := by simpa [upd, hq] using hp
      have h2' : y.tag = tail q := by simpa [upd, hq] using h2
      rcases List.mem_append.mp hy with e1 | e1
      · exact h.p1 q hp' y e1 h1 h2'
      · simp at e1; rw [e1] at h1; exact absurd h1.symm hq
  · intro q hp hn
    by_cases hq : q = e.q
    · simp [upd, hq] at hp
    · have hp' : pend q = true := by simpa [upd, hq] using hp
      refine h.p2 q hp' ?_
      intro y hy hyq
      have := hn y (by simp [hy]) hyq
      simpa [upd, hq] using this

/-- a doorbell for `q`: the youngest operation, if outstanding, records it -/
theorem AInv.doorbell {S : List Ent} {tail pend active} (h : AInv S tail pend active) (q : Nat)
    (hdb : ∀ e ∈ S, e.q = q → e.tag = tail q → e.db = true) : AInv S tail (upd pend q true) (upd active q true) := by
  refine ⟨h.nd, h.sa, h.nt, h.lst, h.ord, ?_, ?_⟩
  · intro q' hp e he h1 h2
    by_cases hq : q' = q
    · rw [hq] at h1 h2; exact hdb e he h1 h2
    · exact h.p1 q' (by simpa [upd, hq] using hp) e he h1 h2
  · intro q' hp hn
    unfold upd
    split
    · rfl
    · rename_i hq
      exact h.p2 q' (by simpa [upd, hq] using hp) hn

/-- change of the active flag of a queue without pending doorbell -/
theorem AInv.active {S : List Ent} {tail pend active active'} (h : AInv S tail pend active)
    (ha : ∀ q, pend q = true → active q = true → active' q = true) : AInv S tail pend active' :=
  ⟨h.nd, h.sa, h.nt, h.lst, h.ord, h.p1, fun q hp hn => ha q hp (h.p2 q hp hn)⟩

theorem AInv.congr {S : List Ent} {tail tail' pend pend' active active'} (h : AInv S tail pend active) (h1 : tail' = tail) (h2 : pend' = pend)
    (h3 : active' = active) : AInv S tail' pend' active' := by rw [h1, h2, h3]; exact h

theorem settle_spec (t : Nat) : ∀ (pre : List Fl) (x : Fl) (post : List Fl), ((pre ++ x :: post).map Fl.tag).Nodup → x.tag = t →
    settle t (pre ++ x :: post) = pre.map (fun y => if y.q = x.q then { y with ov := true } else y) ++ post
  | [], x, post, _, h => by simp [settle, h]
  | y :: pre, x, post, hn, h => by
    simp only [List.cons_append, List.map_cons, List.nodup_cons] at hn
    have hyt : y.tag ≠ t := by
      intro e; apply hn.1; rw [e, ← h]; simp
    have hq : queueOf (pre ++ x :: post) t = some x.q := by
      unfold queueOf
      rw [List.find?_append]
      have : pre.find? (fun z => z.tag == t) = none := by
        rw [List.find?_eq_none]
        intro z hz hc
        have hz2 : z.tag = x.tag := by rw [h]; simpa using hc
        have h2 := hn.2
        rw [List.map_append, List.nodup_append] at h2
        exact h2.2.2 z.tag (List.mem_map.mpr ⟨z, hz, rfl⟩) x.tag (by simp) hz2
      rw [this]; simp [h]
    rw [List.cons_append, settle, if_neg hyt, hq, settle_spec t pre x post hn.2 h]
    simp only [List.map_cons, List.cons_append, Option.some.injEq]
    by_cases hc : x.q = y.q
    · rw [if_pos hc, if_pos hc.symm]
    · rw [if_neg hc, if_neg (fun e => hc e.symm)]

end Corundum.Sched
