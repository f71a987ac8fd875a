import Verif.Proof.RamDemux
/-!
RAM demultiplexers: expected responses, progress of reads, writes.
-/
namespace Corundum.RamDemux
open Corundum.ArbMux (Skid skid_temp skid_flow)

variable {β γ : Type}

theorem times_append (p : Nat) (a b : List Nat) : times p (a ++ b) = times p a + times p b := List.countP_append

theorem expect_snoc (ans : Nat → Nat → γ) (l : List Nat) (p : Nat) : expect ans (l ++ [p]) = expect ans l ++ [ans p (times p l)] := by
  unfold expect
  rw [List.length_append, List.length_singleton, List.range_succ, List.map_append]
  congr 1
  · apply List.map_congr_left
    intro i hi
    rw [List.mem_range] at hi
    rw [List.take_append_of_le_length (by omega)]
    simp [List.getD_eq_getElem?_getD, List.getElem?_append_left hi]
  · simp [List.getD_eq_getElem?_getD]

theorem expect_prefix (ans : Nat → Nat → γ) (l r : List Nat) : expect ans l <+: expect ans (l ++ r) := by
  induction r generalizing l with
  | nil => simp
  | cons p r ih =>
    have h1 := ih (l ++ [p])
    rw [List.append_assoc] at h1
    rw [expect_snoc] at h1
    exact (List.prefix_append _ _).trans h1

theorem stable {s : Skid (Nat × Cmd β)} {x : Nat × Cmd β} {o : Option (Nat × Cmd β)} {r : Nat → Bool} (h : s.m = some x) (hr : r x.1 = false) : (s.step false o (taken s.m r)).m = some x := by
  have : taken s.m r = false := by rw [h]; simpa [taken] using hr
  unfold Skid.step
  rw [this, h]
  cases hrd : s.ready
  · simp [h]
  · simp

namespace Rd

variable {c : Cfg} {s0 : Rd β γ} {ins : Nat → RdIn β γ}

theorem used_eq (hc : c.Ok) (h0 : Fresh s0) (hf : ∀ n, Fits c (ins n).cmd) (n : Nat) :
    used c s0 ins (n + 1) = used c s0 ins n ++ ((st c s0 ins n).use c (ins n)).toList.map fun x => ((st c s0 ins n).order.head c.aw, x) := by
  obtain ⟨lo, lr, I⟩ := inv hc h0 hf n
  rw [← use_eq I.order I.lt]; rfl

theorem used_expect (hc : c.Ok) (h0 : Fresh s0) (hf : ∀ n, Fits c (ins n).cmd) (ans : Nat → Nat → γ)
    (ha : ∀ n p x, p < c.ports → (ins n).resp p = some x → x = ans p (times p ((used c s0 ins n).map Prod.fst))) (n : Nat) :
    (used c s0 ins n).map Prod.snd = expect ans ((used c s0 ins n).map Prod.fst) := by
  induction n with
  | zero => rfl
  | succ n ih =>
    obtain ⟨lo, lr, I⟩ := inv hc h0 hf n
    rw [used_eq hc h0 hf, List.map_append, List.map_append, ih]
    cases hu : (st c s0 ins n).use c (ins n) with
    | none => simp
    | some x =>
      simp only [Option.toList_some, List.map_cons, List.map_nil]
      rw [expect_snoc]
      obtain ⟨hh, hl⟩ := use_none (i := ins n) I.order (by rw [hu]; rfl)
      cases lo with
      | nil => exact absurd rfl hl
      | cons p lo =>
        rw [I.order.head]
        unfold use at hu
        rw [I.order.head, hh, I.order.empty] at hu
        simp at hu
        rw [ha n p x (I.lt p List.mem_cons_self) hu]

/-- the measure for progress: `u` responses taken, `g` given, `o` in the register, `h` the half full flag -/
def meas (N u g o h : Nat) : Nat := 6 * (N - u) + 3 * (min u N - min (g + o) N) + (min (g + o) N - min g N) + h

theorem progress (hc : c.Ok) (h0 : Fresh s0) (hf : ∀ n, Fits c (ins n).cmd) (n : Nat) (N : Nat) (hN : N ≤ (cmds c s0 ins n).length) (hr : (ins n).rready = true)
    (ha : ∀ x, (used c s0 ins n).length < N → (cmds c s0 ins n)[(used c s0 ins n).length]? = some x → ((ins n).resp (portOf c x.sel)).isSome = true) (hg : (given c s0 ins n).length < N) :
    N ≤ (given c s0 ins (n + 1)).length ∨
      meas N (used c s0 ins (n + 1)).length (given c s0 ins (n + 1)).length (st c s0 ins (n + 1)).oreg.toList.length (st c s0 ins (n + 1)).half.toNat <
      meas N (used c s0 ins n).length (given c s0 ins n).length (st c s0 ins n).oreg.toList.length (st c s0 ins n).half.toNat := by
  obtain ⟨lo, lr, I⟩ := inv hc h0 hf n
  have hu := used_eq hc h0 hf n
  have hgi : given c s0 ins (n + 1) = given c s0 ins n ++ (st c s0 ins n).oreg.toList := by
    show _ ++ (if (ins n).rready = true then _ else _) = _
    rw [hr, if_pos rfl]
  obtain ⟨s, es⟩ : ∃ s, s = st c s0 ins n := ⟨_, rfl⟩
  have hst : st c s0 ins (n + 1) = s.step c (ins n) := by rw [es]; rfl
  have h1 : (used c s0 ins (n + 1)).length = (used c s0 ins n).length + (s.use c (ins n)).toList.length := by rw [hu, es]; simp
  have h2 : (given c s0 ins (n + 1)).length = (given c s0 ins n).length + s.oreg.toList.length := by rw [hgi, es]; simp
  have h3 : (st c s0 ins (n + 1)).oreg.toList.length = if lr = [] then 0 else 1 := by
    rw [hst]
    show (if (!s.resp.empty && (s.oreg.isNone || (ins n).rready)) = true then some (s.resp.head c.ow) else if (ins n).rready then none else s.oreg).toList.length = _
    rw [hr, es, I.resp.empty]
    cases lr <;> simp
  have h4 : (used c s0 ins n).length = (given c s0 ins n).length + s.oreg.toList.length + lr.length := by
    have := congrArg List.length I.data
    rw [es]; simp at this ⊢; omega
  have h5 : (st c s0 ins (n + 1)).half = decide (2 ^ (c.ow - 1) ≤ lr.length) := by
    rw [hst, es]
    show decide (2 ^ (c.ow - 1) ≤ ((st c s0 ins n).resp.wr + 2 ^ (c.ow + 1) - (st c s0 ins n).resp.rd) % 2 ^ (c.ow + 1)) = _
    rw [I.resp.dist]
  have h6 : s.half = false → (used c s0 ins n).length < N → (s.use c (ins n)).toList.length = 1 := by
    intro hh hlt
    have hp := I.ports
    have hx : (used c s0 ins n).length < (cmds c s0 ins n).length := by omega
    have hr' := ha _ hlt (List.getElem?_eq_getElem hx)
    cases lo with
    | nil =>
      have := congrArg List.length hp
      simp at this; omega
    | cons p lo =>
      have : portOf c ((cmds c s0 ins n)[(used c s0 ins n).length]).sel = p := by
        have := congrArg (fun l => l[(used c s0 ins n).length]?) hp
        rw [List.getElem?_append_right (by simp)] at this
        simp [List.getElem?_eq_getElem hx] at this
        exact this.symm
      rw [this] at hr'
      unfold use
      rw [hh, es, I.order.empty, I.order.head]
      cases hv : (ins n).resp p with
      | none => rw [hv] at hr'; cases hr'
      | some y => simp
  have h7 : (s.use c (ins n)).toList.length ≤ 1 := by cases s.use c (ins n) <;> simp
  have h8 : s.oreg.toList.length ≤ 1 := by cases s.oreg <;> simp
  have h9 : (st c s0 ins (n + 1)).half.toNat ≤ 1 := by cases (st c s0 ins (n + 1)).half <;> simp
  have h10 : lr = [] → (st c s0 ins (n + 1)).half.toNat = 0 := by
    intro h
    have := Nat.two_pow_pos (c.ow - 1)
    rw [h5, h, decide_eq_false (by simp)]; rfl
  have h11 : lr ≠ [] → 0 < lr.length := fun h => List.length_pos_iff.2 h
  rw [← es]
  unfold meas
  rw [h1, h2, h3]
  generalize (st c s0 ins (n + 1)).half.toNat = hf' at *
  generalize (s.use c (ins n)).toList.length = du at *
  by_cases hl : lr = []
  · rw [if_pos hl]
    have := h10 hl
    rw [hl] at h4
    simp at h4
    cases hh : s.half with
    | true => simp; omega
    | false => have := h6 hh; simp; omega
  · rw [if_neg hl]
    have := h11 hl
    cases hh : s.half with
    | true => simp; omega
    | false => have := h6 hh; simp; omega

end Rd

/-! ### writes -/

namespace Wr

variable {c : Cfg} {s0 : Wr β} {ins : Nat → WrIn β}

/-- invariant: `a` the ports of the writes reported, `lo` the FIFO -/
structure Inv (c : Cfg) (s0 : Wr β) (ins : Nat → WrIn β) (n : Nat) (a lo : List Nat) : Prop where
  temp : (st c s0 ins n).out.ready = true → (st c s0 ins n).out.temp = none
  cmd : issued c s0 ins n ++ ((st c s0 ins n).out.m.toList ++ (st c s0 ins n).out.temp.toList) = (cmds c s0 ins n).map (target c)
  order : FRep c.aw (st c s0 ins n).order lo
  len : a.length = ctrlDone c s0 ins n
  ports : a ++ ((st c s0 ins n).cur.toList ++ lo) = (cmds c s0 ins n).map fun x => portOf c x.sel
  lt : ∀ p ∈ (st c s0 ins n).cur.toList ++ lo, p < c.ports
  done : ∀ p, (st c s0 ins n).done p = decide (0 < (st c s0 ins n).count p)
  le : ∀ p, times p a + (st c s0 ins n).count p ≤ ramDone ins p n

theorem cdone_eq {s : Wr β} (h : ∀ p ∈ s.cur.toList, p < c.ports) : s.cdone c = s.cur.any s.done := by
  unfold cdone ack
  rw [Bool.eq_iff_iff, List.any_eq_true]
  cases hc : s.cur with
  | none => simp
  | some q =>
    simp only [List.mem_range, Bool.and_eq_true, decide_eq_true_eq, Option.some.injEq, Option.any_some]
    rw [hc] at h
    constructor
    · rintro ⟨p, _, h1, h2⟩; rw [h2]; exact h1
    · intro h1; exact ⟨q, h q (by simp), h1, rfl⟩

theorem ramDone_succ (p n : Nat) : ramDone ins p (n + 1) = ramDone ins p n + ((ins n).done p).toNat := by
  unfold ramDone
  rw [List.range_succ, List.countP_append]
  cases h : (ins n).done p <;> simp [h]

theorem ctrlDone_succ (n : Nat) : ctrlDone c s0 ins (n + 1) = ctrlDone c s0 ins n + ((st c s0 ins n).cdone c).toNat := by
  unfold ctrlDone
  rw [List.range_succ, List.countP_append]
  cases h : (st c s0 ins n).cdone c <;> simp [h]

/-- the ports of the writes reported in this cycle -/
def rep (s : Wr β) : List Nat := if s.cur.any s.done then s.cur.toList else []

theorem rep_length (s : Wr β) : (rep s).length = (s.cur.any s.done).toNat := by
  unfold rep
  cases hc : s.cur with
  | none => simp
  | some q => cases hd : s.done q <;> simp [hd]

theorem rep_times (s : Wr β) (p : Nat) : times p (rep s) = (s.ack p).toNat := by
  unfold rep ack times
  cases hc : s.cur with
  | none => simp
  | some q =>
    by_cases h : q = p
    · subst h; cases hd : s.done q <;> simp [hd]
    · cases hd : s.done q <;> simp [hd, h]

theorem inv (hc : c.Ok) (h0 : Fresh s0) (hf : ∀ n, Fits c (ins n).cmd) (n : Nat) : ∃ a lo, Inv c s0 ins n a lo := by
  induction n with
  | zero =>
    obtain ⟨mem, h0⟩ := h0
    subst h0
    exact ⟨[], [], (fun _ => rfl), rfl, FRep.init _ _, rfl, rfl, (by intro p hp; cases hp), (fun _ => rfl), (fun _ => Nat.le_refl _)⟩
  | succ n ih =>
    obtain ⟨a, lo, I⟩ := ih
    obtain ⟨s, es⟩ : ∃ s, s = st c s0 ins n := ⟨_, rfl⟩
    obtain ⟨i, ei⟩ : ∃ i, i = ins n := ⟨_, rfl⟩
    have hst : st c s0 ins (n + 1) = s.step c i := by rw [es, ei]; rfl
    have ft : Fits c (s.take c i) := by unfold take; exact fits_take (by rw [ei]; exact hf n) _
    have hcm : cmds c s0 ins (n + 1) = cmds c s0 ins n ++ (s.take c i).toList := by
      unfold take; rw [ite_toList, es, ei]; rfl
    have his : issued c s0 ins (n + 1) = issued c s0 ins n ++ if taken s.out.m i.cready then s.out.m.toList else [] := by rw [es, ei, ← taken_eq]; rfl
    have I1 := I.temp; have I2 := I.cmd; have I3 := I.order; have I4 := I.ports; have I5 := I.lt; have I6 := I.done; have I7 := I.le
    rw [← es] at I1 I2 I3 I4 I5 I6 I7
    have hcd : s.cdone c = s.cur.any s.done := cdone_eq fun p hp => I5 p (List.mem_append_left _ hp)
    obtain ⟨lo', J1, J2⟩ := I3.move ((s.take c i).map fun x => c.select x.sel) ((s.cur.isNone || s.cdone c) && !s.order.empty)
      (by
        intro h
        have hr : s.ready c = true := by
          cases hr : s.ready c with
          | true => rfl
          | false => exact absurd (by unfold take; rw [hr]; rfl) h
        unfold ready at hr
        rw [I3.full, Bool.and_eq_true, Bool.not_eq_true', decide_eq_false_iff_not] at hr
        have := I3.le
        omega)
      (by intro h; rw [I3.empty, Bool.and_eq_true, Bool.not_eq_true', decide_eq_false_iff_not] at h; exact h.2)
    rw [select_eq hc ft] at J2
    have hcur : (s.step c i).cur = if (s.cur.isNone || s.cdone c) = true then (if s.order.empty = true then none else some (s.order.head c.aw)) else s.cur := rfl
    have key : rep s ++ ((s.step c i).cur.toList ++ lo') = s.cur.toList ++ (lo ++ ((s.take c i).map fun x => portOf c x.sel).toList) := by
      rw [hcur, J2, hcd]
      unfold rep
      cases hq : s.cur with
      | none => cases s.order.empty <;> simp
      | some q => cases hd : s.done q <;> cases s.order.empty <;> simp [hd]
    refine ⟨a ++ rep s, lo', ?_, ?_, ?_, ?_, ?_, ?_, ?_, ?_⟩
    · rw [hst]; exact skid_temp I1
    · rw [hst, his, hcm, List.map_append, ← I2, List.append_assoc]
      have := skid_flow (e := false) (s := s.out) (o := (s.take c i).bind c.route) (r := taken s.out.m i.cready) I1
        (by intro h; unfold take ready; rw [h]; rfl)
      show issued c s0 ins n ++ (_ ++ ((s.out.step false ((s.take c i).bind c.route) (taken s.out.m i.cready)).m.toList ++ (s.out.step false ((s.take c i).bind c.route) (taken s.out.m i.cready)).temp.toList)) = _
      rw [this, route_eq hc ft, map_toList]
      simp only [List.append_assoc]
    · rw [hst]; exact J1
    · rw [List.length_append, I.len, rep_length, ctrlDone_succ, ← es, hcd]
    · rw [hst, hcm, List.map_append, ← I4, List.append_assoc, key, map_toList, List.append_assoc, List.append_assoc]
    · rw [hst]
      intro p hp
      have : p ∈ s.cur.toList ++ (lo ++ ((s.take c i).map fun x => portOf c x.sel).toList) := by rw [← key]; exact List.mem_append_right _ hp
      rw [← List.append_assoc] at this
      rcases List.mem_append.1 this with h | h
      · exact I5 p h
      · exact port_lt hc ft p h
    · rw [hst]
      intro p
      show (if (decide (s.count p < 2 ^ c.aw) && i.done p && !s.ack p) = true then true else if (decide (0 < s.count p) && !i.done p && s.ack p) = true then decide (1 < s.count p) else s.done p) =
        decide (0 < if (decide (s.count p < 2 ^ c.aw) && i.done p && !s.ack p) = true then s.count p + 1 else if (decide (0 < s.count p) && !i.done p && s.ack p) = true then s.count p - 1 else s.count p)
      split
      · simp
      · split
        · exact decide_eq_decide.2 (by omega)
        · exact I6 p
    · rw [hst]
      intro p
      rw [times_append, rep_times, ramDone_succ, ← ei]
      have h1 := I7 p
      have h2 := I6 p
      show _ + _ + (if (decide (s.count p < 2 ^ c.aw) && i.done p && !s.ack p) = true then s.count p + 1 else if (decide (0 < s.count p) && !i.done p && s.ack p) = true then s.count p - 1 else s.count p) ≤ _
      have h3 : s.ack p = true → 0 < s.count p := by
        intro h; unfold ack at h
        rw [h2] at h; simp at h; exact h.1
      cases hd : i.done p <;> cases ha : s.ack p <;> simp
      · omega
      · have := h3 ha; rw [if_pos this]; omega
      · split <;> omega
      · omega

theorem count_le (h0 : Fresh s0) (n p : Nat) : (st c s0 ins n).count p ≤ 2 ^ c.aw := by
  induction n with
  | zero => obtain ⟨mem, h0⟩ := h0; rw [h0]; exact Nat.zero_le _
  | succ n ih =>
    show (if (decide ((st c s0 ins n).count p < 2 ^ c.aw) && (ins n).done p && !(st c s0 ins n).ack p) = true then (st c s0 ins n).count p + 1
      else if (decide (0 < (st c s0 ins n).count p) && !(ins n).done p && (st c s0 ins n).ack p) = true then (st c s0 ins n).count p - 1 else (st c s0 ins n).count p) ≤ _
    split
    · rename_i h; simp at h; omega
    · split <;> omega

/-- the RAMs signal done at most once for each command they took -/
theorem exact (hc : c.Ok) (h0 : Fresh s0) (hf : ∀ n, Fits c (ins n).cmd) (hr : ∀ n p, p < c.ports → ramDone ins p n ≤ times p ((issued c s0 ins n).map Prod.fst)) (n : Nat) :
    ∀ a lo, Inv c s0 ins n a lo → ∀ p, p < c.ports → times p a + (st c s0 ins n).count p = ramDone ins p n := by
  induction n with
  | zero =>
    intro a lo I p _
    obtain ⟨mem, h0⟩ := h0
    have : a = [] := List.length_eq_zero_iff.1 I.len
    rw [this, h0]; rfl
  | succ n ih =>
    intro a' lo' I' p hp
    obtain ⟨a, lo, I⟩ := inv hc h0 hf n
    have e := ih a lo I p hp
    obtain ⟨s, es⟩ : ∃ s, s = st c s0 ins n := ⟨_, rfl⟩
    have hst : st c s0 ins (n + 1) = s.step c (ins n) := by rw [es]; rfl
    have hcd : s.cdone c = s.cur.any s.done := cdone_eq fun p hp => I.lt p (by rw [← es]; exact List.mem_append_left _ hp)
    have hcm : cmds c s0 ins (n + 1) = cmds c s0 ins n ++ if (st c s0 ins n).ready c then (ins n).cmd.toList else [] := rfl
    -- the lists of writes reported agree
    have ha : a' = a ++ rep s := by
      have h1 := I'.ports
      rw [hcm, List.map_append, ← I.ports, List.append_assoc] at h1
      have hl : a'.length = a.length + (rep s).length := by
        rw [I'.len, I.len, rep_length, ctrlDone_succ, ← es, hcd]
      have h2 := congrArg (List.take a'.length) h1
      rw [List.take_left, hl, List.take_append, List.take_of_length_le (by omega), Nat.add_sub_cancel_left] at h2
      rw [h2]
      congr 1
      rw [← es]
      unfold rep
      cases hq : s.cur with
      | none => simp
      | some q => cases hd : s.done q <;> simp [hd]
    rw [ha, hst, times_append, rep_times, ramDone_succ]
    rw [← es] at e
    have h2 := I.done p
    rw [← es] at h2
    have hlim : s.count p = 2 ^ c.aw → (ins n).done p = true → s.ack p = true := by
      intro h3 h4
      have h5 := hr (n + 1) p hp
      rw [ramDone_succ, h4, ← e] at h5
      have h6 : times p ((issued c s0 ins (n + 1)).map Prod.fst) ≤ times p ((cmds c s0 ins n).map fun x => portOf c x.sel) := by
        have his : issued c s0 ins (n + 1) = issued c s0 ins n ++ if taken s.out.m (ins n).cready then s.out.m.toList else [] := by rw [es, ← taken_eq]; rfl
        have hm : (cmds c s0 ins n).map (fun x => portOf c x.sel) = ((cmds c s0 ins n).map (target c)).map Prod.fst := by rw [List.map_map]; rfl
        rw [hm, ← I.cmd, his, ← es]
        simp only [List.map_append, times_append]
        cases taken s.out.m (ins n).cready <;> simp [times]
      rw [← I.ports, ← es, times_append, times_append] at h6
      have h7 : times p lo ≤ 2 ^ c.aw := Nat.le_trans List.countP_le_length I.order.le
      have h8 : 0 < times p s.cur.toList := by simp at h5; omega
      have h9 : s.cur = some p := by
        cases hq : s.cur with
        | none => rw [hq] at h8; simp [times] at h8
        | some q =>
          rw [hq] at h8
          by_cases hqp : q = p
          · rw [hqp]
          · simp [times, hqp] at h8
      unfold ack
      have := Nat.two_pow_pos c.aw
      rw [h2, h9, h3, decide_eq_true this]; simp
    have h3 : s.ack p = true → 0 < s.count p := by
      intro h; unfold ack at h
      rw [h2] at h; simp at h; exact h.1
    have hle : s.count p ≤ 2 ^ c.aw := by rw [es]; exact count_le h0 n p
    show _ + _ + (if (decide (s.count p < 2 ^ c.aw) && (ins n).done p && !s.ack p) = true then s.count p + 1 else if (decide (0 < s.count p) && !(ins n).done p && s.ack p) = true then s.count p - 1 else s.count p) = _
    cases hd : (ins n).done p <;> cases hk : s.ack p <;> simp
    · omega
    · have := h3 hk; rw [if_pos this]; omega
    · split
      · omega
      · exfalso
        have := hlim (by omega) hd
        rw [hk] at this; cases this
    · omega

end Wr
end Corundum.RamDemux
