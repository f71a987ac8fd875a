import Verif.Model.PcieCap

namespace Corundum.PcieCap

/-- id, length, offset -/
def key (c : Cap) : Nat × Nat × Nat := (c.id, c.len, c.off)

theorem link_key : ∀ l : List Cap, (link l).map key = l.map key
  | [] => rfl
  | [_] => rfl
  | a :: b :: r => by
    show key _ :: (link (b :: r)).map key = _
    rw [link_key (b :: r)]
    rfl

theorem relink_key (l : List Cap) : (relink l).map key = l.map key := by
  match l with
  | [] => rfl
  | [_] => rfl
  | a :: b :: r => exact link_key (a :: b :: r)

/-- Two capabilities share at most one register. -/
def Compat (a b : Nat × Nat × Nat) : Prop := a.2.2 + a.2.1 ≤ b.2.2 + 1 ∨ b.2.2 + b.2.1 ≤ a.2.2 + 1

/-- Well-formed up to order and pointers. -/
structure K (l : List (Nat × Nat × Nat)) : Prop where
  compat : l.Pairwise Compat
  ids : l.Pairwise (fun a b => a.1 ≠ b.1)
  ok : ∀ c ∈ l, 2 ≤ c.2.1 ∧ 1 ≤ c.2.2

theorem K.perm {l l' : List (Nat × Nat × Nat)} (h : K l) (p : l.Perm l') : K l' :=
  ⟨(p.pairwise_iff (fun {a b} hab => hab.symm)).mp h.compat, (p.pairwise_iff (fun {a b} hab => Ne.symm hab)).mp h.ids,
    fun c hc => h.ok c (p.mem_iff.mpr hc)⟩

theorem K.sub {l l' : List (Nat × Nat × Nat)} (h : K l) (p : l'.Sublist l) : K l' :=
  ⟨h.compat.sublist p, h.ids.sublist p, fun c hc => h.ok c (p.mem hc)⟩

theorem add_perm (l : List Cap) (c : Cap) : ((add l c).map key).Perm (l.map key ++ [key c]) := by
  unfold add
  rw [relink_key]
  have := (List.mergeSort_perm (l ++ [c]) fun a b => decide (a.off ≤ b.off)).map key
  simpa using this

theorem add_sorted (l : List Cap) (c : Cap) : ((add l c).map key).Pairwise (fun a b => a.2.2 ≤ b.2.2) := by
  unfold add
  rw [relink_key, List.pairwise_map]
  have := List.pairwise_mergeSort (le := fun (a b : Cap) => decide (a.off ≤ b.off)) (by intro a b c; simp; omega) (by intro a b; simp; omega) (l ++ [c])
  exact this.imp (by intro a b h; simpa [key] using h)

theorem relink_relink (l : List Cap) : relink (relink l) = relink l := by
  have key : ∀ l : List Cap, link (link l) = link l := by
    intro l
    induction l with
    | nil => rfl
    | cons a r ih =>
      cases r with
      | nil => rfl
      | cons b r =>
        have e : ∃ b' r', link (b :: r) = b' :: r' ∧ b'.off = b.off := by
          cases r with
          | nil => exact ⟨_, _, rfl, rfl⟩
          | cons c r => exact ⟨_, _, rfl, rfl⟩
        obtain ⟨b', r', e1, e2⟩ := e
        show link ({ a with next := some (b.off * 4) } :: link (b :: r)) = { a with next := some (b.off * 4) } :: link (b :: r)
        rw [e1] at ih ⊢
        show { a with next := some (b'.off * 4) } :: link (b' :: r') = _
        rw [ih, e2]
  match l with
  | [] => rfl
  | [_] => rfl
  | a :: b :: r =>
    show relink (link (a :: b :: r)) = link (a :: b :: r)
    have h := key (a :: b :: r)
    have e : ∃ x y z, link (a :: b :: r) = x :: y :: z := by
      cases r with
      | nil => exact ⟨_, _, _, rfl⟩
      | cons c r => exact ⟨_, _, _, rfl⟩
    obtain ⟨x, y, z, e⟩ := e
    rw [e] at h ⊢
    exact h

theorem add_linked (l : List Cap) (c : Cap) : relink (add l c) = add l c := relink_relink _

/-- A list as left by `register`. -/
structure J (l : List Cap) : Prop where
  k : K (l.map key)
  sorted : (l.map key).Pairwise (fun a b => a.2.2 ≤ b.2.2)
  linked : relink l = l

theorem add_J {l : List Cap} {c : Cap} (h : K (l.map key)) (h1 : 2 ≤ c.len) (h2 : 1 ≤ c.off) (h3 : ∀ x ∈ l, x.id ≠ c.id)
    (h4 : ∀ x ∈ l, Compat (key x) (key c)) : J (add l c) := by
  refine ⟨K.perm ?_ (add_perm l c).symm, add_sorted l c, add_linked l c⟩
  refine ⟨?_, ?_, ?_⟩
  · rw [List.pairwise_append]
    refine ⟨h.compat, by simp, ?_⟩
    intro a ha b hb
    obtain ⟨x, hx, rfl⟩ := List.mem_map.mp ha
    simp only [List.mem_singleton] at hb; subst hb
    exact h4 x hx
  · rw [List.pairwise_append]
    refine ⟨h.ids, by simp, ?_⟩
    intro a ha b hb
    obtain ⟨x, hx, rfl⟩ := List.mem_map.mp ha
    simp only [List.mem_singleton] at hb; subst hb
    exact h3 x hx
  · intro a ha
    rcases List.mem_append.mp ha with ha | ha
    · exact h.ok a ha
    · simp only [List.mem_singleton] at ha; subst ha; exact ⟨h1, h2⟩

/-- Sorted and pairwise sharing at most one register: in order. -/
theorem J.order {l : List Cap} (h : J l) : l.Pairwise (fun a b => a.off + a.len ≤ b.off + 1) := by
  have h1 := List.pairwise_map.mp h.k.compat
  have h2 := List.pairwise_map.mp h.sorted
  have h3 : ∀ c ∈ l, 2 ≤ c.len := fun c hc => (h.k.ok (key c) (List.mem_map_of_mem hc)).1
  have h12 := h1.and h2
  refine List.Pairwise.imp_of_mem ?_ h12
  intro a b ha hb hab
  obtain ⟨c1, c2⟩ := hab
  unfold Compat key at c1
  unfold key at c2
  simp only at c1 c2
  have := h3 a ha
  have := h3 b hb
  omega

/-- placement passes every capability it has seen -/
theorem place_spec (len : Nat) (hl : 2 ≤ len) : ∀ (l : List Cap) (o : Nat) (seen : List Cap), 1 ≤ o →
    (seen ++ l).Pairwise (fun a b => a.off + a.len ≤ b.off + 1) → (∀ c ∈ seen ++ l, 2 ≤ c.len) →
    (∀ c ∈ seen, o + len ≤ c.off + 1 ∨ c.off + c.len ≤ o) →
    1 ≤ place o len l ∧ ∀ c ∈ seen ++ l, place o len l + len ≤ c.off + 1 ∨ c.off + c.len ≤ place o len l
  | [], o, seen, h0, hp, h2, hs => by
    refine ⟨h0, ?_⟩
    intro c hc
    simp only [List.append_nil] at hc
    exact hs c hc
  | c :: l, o, seen, h0, hp, h2, hs => by
    have happ : seen ++ c :: l = (seen ++ [c]) ++ l := by simp
    rw [happ] at hp h2 ⊢
    have hc2 := h2 c (by simp)
    have hsc : ∀ x ∈ seen, x.off + x.len ≤ c.off + 1 := by
      intro x hx
      have h' := (List.pairwise_append.mp (List.pairwise_append.mp hp).1).2.2
      exact h' x hx c (by simp)
    show 1 ≤ place (if c.off < o + len - 1 ∧ o ≤ c.off + c.len - 1 then c.off + c.len else o) len l ∧
      ∀ x ∈ seen ++ [c] ++ l, place (if c.off < o + len - 1 ∧ o ≤ c.off + c.len - 1 then c.off + c.len else o) len l + len ≤ x.off + 1 ∨
        x.off + x.len ≤ place (if c.off < o + len - 1 ∧ o ≤ c.off + c.len - 1 then c.off + c.len else o) len l
    split
    · rename_i hcond
      refine place_spec len hl l (c.off + c.len) (seen ++ [c]) (by omega) hp h2 ?_
      intro x hx
      rcases List.mem_append.mp hx with hx | hx
      · have := hsc x hx; omega
      · simp only [List.mem_singleton] at hx; subst hx; omega
    · rename_i hcond
      refine place_spec len hl l o (seen ++ [c]) h0 hp h2 ?_
      intro x hx
      rcases List.mem_append.mp hx with hx | hx
      · exact hs x hx
      · simp only [List.mem_singleton] at hx; subst hx; omega

theorem addAuto_J {start : Nat} {l : List Cap} {c : Cap} (hs : 1 ≤ start) (h : J l) (h1 : 2 ≤ c.len) (h3 : ∀ x ∈ l, x.id ≠ c.id) :
    J (addAuto start l c) := by
  have h2 : ∀ c ∈ [] ++ l, 2 ≤ c.len := fun c hc => (h.k.ok (key c) (List.mem_map_of_mem (by simpa using hc))).1
  obtain ⟨p1, p2⟩ := place_spec c.len h1 l start [] hs (by simpa using h.order) h2 (by simp)
  refine add_J h.k h1 p1 h3 ?_
  intro x hx
  have := p2 x (by simpa using hx)
  unfold Compat key
  simp only
  omega

theorem addAuto_perm (start : Nat) (l : List Cap) (c : Cap) :
    ((addAuto start l c).map fun x => (x.id, x.len)).Perm (l.map (fun x => (x.id, x.len)) ++ [(c.id, c.len)]) := by
  have := (add_perm l { c with off := place start c.len l }).map (fun k => (k.1, k.2.1))
  simpa [addAuto, key, Function.comp_def] using this

theorem autos_J {start : Nat} (hs : 1 ≤ start) : ∀ (bs l : List Cap), J l → (∀ b ∈ bs, 2 ≤ b.len) → (∀ b ∈ bs, ∀ x ∈ l, x.id ≠ b.id) →
    bs.Pairwise (fun a b => a.id ≠ b.id) →
    J (bs.foldl (addAuto start) l) ∧
      ((bs.foldl (addAuto start) l).map fun x => (x.id, x.len)).Perm (l.map (fun x => (x.id, x.len)) ++ bs.map fun x => (x.id, x.len))
  | [], l, h, _, _, _ => ⟨h, by simp⟩
  | b :: bs, l, h, h1, h2, h3 => by
    have hj := addAuto_J hs h (h1 b (by simp)) (h2 b (by simp))
    have hp := addAuto_perm start l b
    obtain ⟨r1, r2⟩ := autos_J hs bs (addAuto start l b) hj (fun x hx => h1 x (by simp [hx])) (by
      intro x hx y hy
      have hy' : (y.id, y.len) ∈ (addAuto start l b).map (fun x => (x.id, x.len)) := List.mem_map_of_mem (f := fun x : Cap => (x.id, x.len)) hy
      rcases List.mem_append.mp (hp.mem_iff.mp hy') with hm | hm
      · obtain ⟨z, hz, e⟩ := List.mem_map.mp hm
        have := h2 x (by simp [hx]) z hz
        have e1 : z.id = y.id := congrArg Prod.fst e
        omega
      · simp only [List.mem_singleton] at hm
        have e1 : y.id = b.id := congrArg Prod.fst hm
        have := (List.pairwise_cons.mp h3).1 x hx
        omega) (List.pairwise_cons.mp h3).2
    refine ⟨r1, r2.trans ?_⟩
    have := hp.append_right (bs.map fun x => (x.id, x.len))
    simpa using this

theorem filter_split_perm (l : List Cap) (f : Cap → Bool) : (l.filter (fun x => !f x) ++ l.filter f).Perm l := by
  have := List.filter_append_perm f l
  exact List.perm_append_comm.trans this

theorem J.sub {l l' : List Cap} (h : J l) (p : l'.Sublist l) : K (l'.map key) := h.k.sub (p.map key)

theorem addFixed_J {start : Nat} {l : List Cap} {c : Cap} (hs : 1 ≤ start) (hk : K (l.map key)) (h1 : 2 ≤ c.len) (h2 : 1 ≤ c.off)
    (h3 : ∀ x ∈ l, x.id ≠ c.id) :
    J (addFixed start l c) ∧
    ((addFixed start l c).map fun x => (x.id, x.len)).Perm (l.map (fun x => (x.id, x.len)) ++ [(c.id, c.len)]) := by
  have hlen : ∀ x ∈ l, 2 ≤ x.len := fun x hx => (hk.ok (key x) (List.mem_map_of_mem hx)).1
  have hids := List.pairwise_map.mp hk.ids
  have hj : J (add (l.filter fun x => !hit x c.off c.len) c) := by
    refine add_J (hk.sub (List.filter_sublist.map key)) h1 h2 (fun x hx => h3 x (List.mem_filter.mp hx).1) ?_
    intro x hx
    obtain ⟨hxl, hh⟩ := List.mem_filter.mp hx
    have := hlen x hxl
    unfold hit at hh
    simp only [Bool.not_eq_true', decide_eq_false_iff_not] at hh
    unfold Compat key
    simp only
    omega
  have hp := (add_perm (l.filter fun x => !hit x c.off c.len) c).map (fun k => (k.1, k.2.1))
  have hp' : ((add (l.filter fun x => !hit x c.off c.len) c).map fun x => (x.id, x.len)).Perm
      ((l.filter fun x => !hit x c.off c.len).map (fun x => (x.id, x.len)) ++ [(c.id, c.len)]) := by
    simpa [key, Function.comp_def] using hp
  obtain ⟨r1, r2⟩ := autos_J hs (l.filter (hit · c.off c.len)) _ hj (fun b hb => hlen b (List.mem_filter.mp hb).1) (by
    intro b hb x hx
    have hb' := List.mem_filter.mp hb
    have hx' : (x.id, x.len) ∈ (add (l.filter fun x => !hit x c.off c.len) c).map (fun x => (x.id, x.len)) :=
      List.mem_map_of_mem (f := fun x : Cap => (x.id, x.len)) hx
    rcases List.mem_append.mp (hp'.mem_iff.mp hx') with hm | hm
    · obtain ⟨z, hz, e⟩ := List.mem_map.mp hm
      have hz' := List.mem_filter.mp hz
      have e1 : z.id = x.id := congrArg Prod.fst e
      intro heq
      have hne : z ≠ b := by
        intro h; subst h
        have h1 := hz'.2
        rw [hb'.2] at h1
        cases h1
      exact absurd (e1.trans heq) (by
        rcases List.pairwise_iff_getElem.mp hids with hids'
        obtain ⟨i, hi, ei⟩ := List.getElem_of_mem hz'.1
        obtain ⟨j, hj, ej⟩ := List.getElem_of_mem hb'.1
        rcases Nat.lt_trichotomy i j with hij | hij | hij
        · have := hids' i j hi hj hij; rw [ei, ej] at this; exact this
        · subst hij; exact absurd (ei.symm.trans ej) hne
        · have := hids' j i hj hi hij; rw [ei, ej] at this; exact Ne.symm this)
    · simp only [List.mem_singleton] at hm
      have e1 : x.id = c.id := congrArg Prod.fst hm
      have := h3 b hb'.1
      omega) (hids.sublist List.filter_sublist)
  refine ⟨r1, ?_⟩
  unfold addFixed
  refine r2.trans ?_
  refine (hp'.append_right _).trans ?_
  have h4 := (filter_split_perm l (hit · c.off c.len)).map (fun x => (x.id, x.len))
  rw [List.map_append] at h4
  rw [List.append_assoc]
  refine (List.Perm.append_left _ List.perm_append_comm).trans ?_
  rw [← List.append_assoc]
  exact h4.append_right _

end Corundum.PcieCap
