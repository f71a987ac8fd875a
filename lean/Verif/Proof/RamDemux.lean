import Verif.Spec.RamDemux
import Verif.Proof.AxisFifo
import Verif.Proof.ArbMux
/-!
RAM demultiplexers: FIFO representation, command path, invariants.
-/
namespace Corundum.RamDemux
open Corundum.ArbMux (Skid skid_temp skid_flow)
open Corundum.AxisFifo (two_mul ptr_full ptr_empty ptr_dist mod_mod_pow)

variable {α β γ : Type}

/-! ### FIFO -/

/-- the FIFO holds the list `l` -/
structure FRep (a : Nat) (f : Fifo α) (l : List α) : Prop where
  lt : f.rd < 2 ^ (a + 1)
  le : l.length ≤ 2 ^ a
  w : f.wr = (f.rd + l.length) % 2 ^ (a + 1)
  val : ∀ k (h : k < l.length), f.mem ((f.rd + k) % 2 ^ a) = l[k]

theorem FRep.full {a : Nat} {f : Fifo α} {l : List α} (h : FRep a f l) : f.full a = decide (l.length = 2 ^ a) := by
  unfold Fifo.full; rw [h.w]; exact ptr_full a _ _ h.lt h.le

theorem FRep.empty {a : Nat} {f : Fifo α} {l : List α} (h : FRep a f l) : f.empty = decide (l = []) := by
  unfold Fifo.empty; rw [h.w, ptr_empty a _ _ h.lt h.le]; simp

theorem FRep.dist {a : Nat} {f : Fifo α} {l : List α} (h : FRep a f l) : (f.wr + 2 ^ (a + 1) - f.rd) % 2 ^ (a + 1) = l.length := by
  rw [h.w]; exact ptr_dist a _ _ h.lt h.le

theorem FRep.put {a : Nat} {f : Fifo α} {l : List α} (h : FRep a f l) (x : α) (hf : l.length < 2 ^ a) : FRep a (f.push a (some x)) (l ++ [x]) := by
  refine ⟨h.lt, by simp; omega, ?_, ?_⟩
  · show (f.wr + 1) % 2 ^ (a + 1) = (f.rd + _) % 2 ^ (a + 1)
    rw [h.w, Nat.mod_add_mod]; simp [Nat.add_assoc]
  intro k hk
  have hw : f.wr % 2 ^ a = (f.rd + l.length) % 2 ^ a := by rw [h.w, mod_mod_pow]
  show (if (f.rd + k) % 2 ^ a = f.wr % 2 ^ a then x else f.mem ((f.rd + k) % 2 ^ a)) = _
  rw [hw]
  simp only [List.length_append, List.length_cons, List.length_nil] at hk
  by_cases hkl : k = l.length
  · subst hkl; simp
  · have hk' : k < l.length := by omega
    have : ¬ (f.rd + k) % 2 ^ a = (f.rd + l.length) % 2 ^ a := by
      intro e
      have h1 : (f.rd + k) % 2 ^ a = (f.rd + k + (l.length - k)) % 2 ^ a := by rw [show f.rd + k + (l.length - k) = f.rd + l.length by omega]; exact e
      have h2 : 2 ^ a ∣ l.length - k := by
        have := Nat.sub_mod_eq_zero_of_mod_eq h1.symm
        rw [Nat.add_sub_cancel_left] at this
        exact Nat.dvd_of_mod_eq_zero this
      have := Nat.le_of_dvd (by omega) h2
      omega
    rw [if_neg this, h.val k hk', List.getElem_append_left hk']

theorem FRep.head {a : Nat} {f : Fifo α} {x : α} {l : List α} (h : FRep a f (x :: l)) : f.head a = x := by
  have := h.val 0 (by simp); simpa [Fifo.head] using this

theorem FRep.get {a : Nat} {f : Fifo α} {x : α} {l : List α} (h : FRep a f (x :: l)) : FRep a (f.pop a true) l := by
  refine ⟨Nat.mod_lt _ (Nat.two_pow_pos _), ?_, ?_, ?_⟩
  · have := h.le; simp at this; omega
  · show f.wr = ((f.rd + 1) % 2 ^ (a + 1) + _) % 2 ^ (a + 1)
    rw [h.w, Nat.mod_add_mod]; simp only [List.length_cons]; congr 1; omega
  · intro k hk
    have := h.val (k + 1) (by simp; omega)
    simp only [List.getElem_cons_succ] at this
    rw [← this]
    show f.mem (((f.rd + 1) % 2 ^ (a + 1) + k) % 2 ^ a) = _
    congr 1
    rw [Nat.add_mod, mod_mod_pow, ← Nat.add_mod]; congr 1; omega

/-- a cycle of the FIFO -/
theorem FRep.move {a : Nat} {f : Fifo α} {l : List α} (h : FRep a f l) (o : Option α) (b : Bool) (ho : o ≠ none → l.length < 2 ^ a) (hb : b = true → l ≠ []) :
    ∃ l', FRep a ((f.push a o).pop a b) l' ∧ l ++ o.toList = (if b then [f.head a] else []) ++ l' := by
  have hp : FRep a (f.push a o) (l ++ o.toList) := by
    cases o with
    | none => simpa [Fifo.push] using h
    | some x => exact h.put x (ho (fun e => by cases e))
  cases b with
  | false => exact ⟨_, hp, rfl⟩
  | true =>
    cases l with
    | nil => exact absurd rfl (hb rfl)
    | cons x l =>
      refine ⟨l ++ o.toList, FRep.get (x := x) hp, ?_⟩
      rw [if_pos rfl, h.head]; rfl

theorem FRep.init (a : Nat) (mem : Nat → α) : FRep a ⟨0, 0, mem⟩ [] := ⟨Nat.two_pow_pos _, Nat.zero_le _, by simp, by intro k h; cases h⟩

/-! ### selects -/

theorem encode_port {c : Cfg} (h : c.Ok) {port low : Nat} (hp : port < c.ports) (hl : low < 2 ^ c.sw) : portOf c (encode c port low) = port := by
  unfold portOf encode
  have h1 := h.mw
  have : 2 ^ c.sw ≤ 2 ^ (c.mw - c.cl) := Nat.pow_le_pow_right (by omega) (by omega)
  split
  · omega
  · rw [Nat.mul_comm, Nat.mul_add_div (Nat.two_pow_pos _), Nat.div_eq_of_lt (by omega)]; omega

theorem encode_low {c : Cfg} (h : c.Ok) {port low : Nat} (hl : low < 2 ^ c.sw) : encode c port low % 2 ^ c.sw = low := by
  unfold encode
  have h1 := h.mw
  split
  · exact Nat.mod_eq_of_lt hl
  · have : 2 ^ c.sw ∣ port * 2 ^ (c.mw - c.cl) := Nat.dvd_trans (Nat.pow_dvd_pow 2 (by omega)) (Nat.dvd_mul_left _ _)
    rw [Nat.add_mod, Nat.mod_eq_zero_of_dvd this, Nat.zero_add, Nat.mod_mod, Nat.mod_eq_of_lt hl]

theorem select_encode {c : Cfg} (h : c.Ok) {port low : Nat} (hp : port < c.ports) (hl : low < 2 ^ c.sw) : c.select (encode c port low) = port := by
  unfold Cfg.select
  by_cases h1 : c.ports = 1
  · rw [if_neg (by omega)]; omega
  · have := encode_port h hp hl
    unfold portOf at this
    rw [if_neg h1] at this
    rw [if_pos (by have := h.pos; omega), Nat.shiftRight_eq_div_pow, this, Nat.mod_eq_of_lt]
    have := h.cl
    omega

theorem route_eq {c : Cfg} (h : c.Ok) {o : Option (Cmd β)} (hf : Fits c o) : o.bind c.route = o.map (target c) := by
  cases o with
  | none => rfl
  | some x =>
    obtain ⟨port, low, h1, h2, h3⟩ := hf x rfl
    show c.route x = some (target c x)
    unfold Cfg.route target
    rw [h3, select_encode h h1 h2, encode_port h h1 h2, if_pos h1]

theorem select_eq {c : Cfg} (h : c.Ok) {o : Option (Cmd β)} (hf : Fits c o) : (o.map fun x => c.select x.sel) = o.map fun x => portOf c x.sel := by
  cases o with
  | none => rfl
  | some x =>
    obtain ⟨port, low, h1, h2, h3⟩ := hf x rfl
    simp only [Option.map_some]
    rw [h3, select_encode h h1 h2, encode_port h h1 h2]

theorem port_lt {c : Cfg} (h : c.Ok) {o : Option (Cmd β)} (hf : Fits c o) : ∀ p ∈ (o.map fun x => portOf c x.sel).toList, p < c.ports := by
  cases o with
  | none => intro p hp; cases hp
  | some x =>
    obtain ⟨port, low, h1, h2, h3⟩ := hf x rfl
    intro p hp
    simp only [Option.map_some, Option.toList_some, List.mem_singleton] at hp
    rw [hp, h3, encode_port h h1 h2]; exact h1

theorem taken_eq (m : Option (Nat × Cmd β)) (r : Nat → Bool) : (match m with | some x => if r x.1 then [x] else [] | none => []) = if taken m r then m.toList else [] := by
  cases m with
  | none => simp
  | some x =>
    cases h : r x.1 <;> simp [taken, h]

theorem fits_take {c : Cfg} {o : Option (Cmd β)} (hf : Fits c o) (b : Bool) : Fits c (if b then o else none) := by
  cases b
  · intro x hx; cases hx
  · exact hf

theorem map_toList {δ ε : Type} (o : Option δ) (f : δ → ε) : (o.map f).toList = o.toList.map f := by cases o <;> rfl

theorem ite_toList {δ : Type} (b : Bool) (o : Option δ) : (if b then o else none).toList = if b then o.toList else [] := by cases b <;> rfl

theorem flat_one {δ : Type} (b : Bool) (h : Nat) (g : Nat → List δ) (n : Nat) : ((List.range n).flatMap fun p => if b && decide (h = p) then g p else []) = if b && decide (h < n) then g h else [] := by
  induction n with
  | zero => simp
  | succ n ih =>
    rw [List.range_succ, List.flatMap_append, ih]
    cases b
    · simp
    · by_cases e : h = n
      · subst e; simp
      · have : (h < n + 1) ↔ h < n := by omega
        simp [e, this]

/-! ### reads -/

namespace Rd

variable {c : Cfg} {s0 : Rd β γ} {ins : Nat → RdIn β γ}

/-- invariant: `lo` the ports whose responses are awaited, `lr` the output FIFO -/
structure Inv (c : Cfg) (s0 : Rd β γ) (ins : Nat → RdIn β γ) (n : Nat) (lo : List Nat) (lr : List γ) : Prop where
  temp : (st c s0 ins n).out.ready = true → (st c s0 ins n).out.temp = none
  cmd : issued c s0 ins n ++ ((st c s0 ins n).out.m.toList ++ (st c s0 ins n).out.temp.toList) = (cmds c s0 ins n).map (target c)
  order : FRep c.aw (st c s0 ins n).order lo
  resp : FRep c.ow (st c s0 ins n).resp lr
  ports : (used c s0 ins n).map Prod.fst ++ lo = (cmds c s0 ins n).map fun x => portOf c x.sel
  lt : ∀ p ∈ lo, p < c.ports
  data : (used c s0 ins n).map Prod.snd = given c s0 ins n ++ ((st c s0 ins n).oreg.toList ++ lr)
  half : (st c s0 ins n).half = false → lr.length ≤ 2 ^ (c.ow - 1)

theorem use_eq {s : Rd β γ} {i : RdIn β γ} {lo : List Nat} (h : FRep c.aw s.order lo) (hlt : ∀ p ∈ lo, p < c.ports) :
    ((List.range c.ports).flatMap fun p => if respReady c s p then (i.resp p).toList.map fun x => (p, x) else []) = (s.use c i).toList.map fun x => (s.order.head c.aw, x) := by
  unfold respReady use
  rw [flat_one]
  cases lo with
  | nil => rw [h.empty]; simp
  | cons p lo =>
    have := hlt p List.mem_cons_self
    rw [h.head, h.empty, decide_eq_true this, Bool.and_true]
    cases s.half <;> simp

theorem use_none {s : Rd β γ} {i : RdIn β γ} {lo : List Nat} (h : FRep c.aw s.order lo) (hu : (s.use c i).isSome = true) : s.half = false ∧ lo ≠ [] := by
  unfold use at hu
  rw [h.empty] at hu
  cases lo with
  | nil => simp at hu
  | cons p lo => cases hh : s.half with
    | true => rw [hh] at hu; simp at hu
    | false => exact ⟨rfl, List.cons_ne_nil _ _⟩

theorem inv (hc : c.Ok) (h0 : Fresh s0) (hf : ∀ n, Fits c (ins n).cmd) (n : Nat) : ∃ lo lr, Inv c s0 ins n lo lr := by
  induction n with
  | zero =>
    obtain ⟨mem, rmem, h0⟩ := h0
    subst h0
    exact ⟨[], [], (fun _ => rfl), rfl, FRep.init _ _, FRep.init _ _, rfl, (by intro p hp; cases hp), rfl, (fun _ => Nat.zero_le _)⟩
  | succ n ih =>
    obtain ⟨lo, lr, I⟩ := ih
    obtain ⟨s, es⟩ : ∃ s, s = st c s0 ins n := ⟨_, rfl⟩
    obtain ⟨i, ei⟩ : ∃ i, i = ins n := ⟨_, rfl⟩
    have hst : st c s0 ins (n + 1) = s.step c i := by rw [es, ei]; rfl
    have ft : Fits c (s.take c i) := by unfold take; exact fits_take (by rw [ei]; exact hf n) _
    have hcm : cmds c s0 ins (n + 1) = cmds c s0 ins n ++ (s.take c i).toList := by
      unfold take; rw [ite_toList, es, ei]; rfl
    have his : issued c s0 ins (n + 1) = issued c s0 ins n ++ if taken s.out.m i.cready then s.out.m.toList else [] := by rw [es, ei, ← taken_eq]; rfl
    have hus : used c s0 ins (n + 1) = used c s0 ins n ++ (s.use c i).toList.map fun x => (s.order.head c.aw, x) := by
      rw [← use_eq (by rw [es]; exact I.order) I.lt, es, ei]; rfl
    have hgi : given c s0 ins (n + 1) = given c s0 ins n ++ if i.rready then s.oreg.toList else [] := by rw [es, ei]; rfl
    have I1 := I.temp; have I2 := I.cmd; have I3 := I.order; have I4 := I.resp; have I6 := I.data; have I7 := I.half
    rw [← es] at I1 I2 I3 I4 I6 I7
    have hfull : (if s.resp.full c.ow then none else s.use c i) = s.use c i := by
      rw [I4.full]
      cases hu : s.use c i with
      | none => split <;> rfl
      | some x =>
        obtain ⟨hh, _⟩ := use_none (i := i) I3 (by rw [hu]; rfl)
        have h1 := I7 hh
        have h2 := hc.ow
        have h3 : 2 ^ c.ow = 2 * 2 ^ (c.ow - 1) := by
          have := two_mul (c.ow - 1)
          rw [show c.ow - 1 + 1 = c.ow by omega] at this; exact this
        have := Nat.two_pow_pos (c.ow - 1)
        rw [decide_eq_false (by omega)]; rfl
    obtain ⟨lo', J1, J2⟩ := I3.move ((s.take c i).map fun x => c.select x.sel) (s.use c i).isSome
      (by
        intro h
        have hr : s.ready c = true := by
          cases hr : s.ready c with
          | true => rfl
          | false => exact absurd (by unfold take; rw [hr]; rfl) h
        unfold ready at hr
        rw [I3.full, Bool.and_eq_true, Bool.not_eq_true', decide_eq_false_iff_not] at hr
        have := I3.le
        omega)
      (fun h => (use_none I3 h).2)
    obtain ⟨lr', K1, K2⟩ := I4.move (s.use c i) (!s.resp.empty && (s.oreg.isNone || i.rready))
      (by
        intro h
        obtain ⟨hh, _⟩ := use_none (i := i) I3 (by cases hu : s.use c i with | none => exact absurd hu h | some x => rfl)
        have h1 := I7 hh
        have h2 := hc.ow
        have h3 : 2 ^ c.ow = 2 * 2 ^ (c.ow - 1) := by
          have := two_mul (c.ow - 1)
          rw [show c.ow - 1 + 1 = c.ow by omega] at this; exact this
        have := Nat.two_pow_pos (c.ow - 1)
        omega)
      (by intro h; rw [I4.empty, Bool.and_eq_true, Bool.not_eq_true', decide_eq_false_iff_not] at h; exact h.1)
    rw [select_eq hc ft] at J2
    refine ⟨lo', lr', ?_, ?_, ?_, ?_, ?_, ?_, ?_, ?_⟩
    · rw [hst]; exact skid_temp I1
    · rw [hst, his, hcm, List.map_append, ← I2, List.append_assoc]
      have := skid_flow (e := false) (s := s.out) (o := (s.take c i).bind c.route) (r := taken s.out.m i.cready) I1
        (by intro h; unfold take ready; rw [h]; rfl)
      show issued c s0 ins n ++ (_ ++ ((s.out.step false ((s.take c i).bind c.route) (taken s.out.m i.cready)).m.toList ++ (s.out.step false ((s.take c i).bind c.route) (taken s.out.m i.cready)).temp.toList)) = _
      rw [this, route_eq hc ft, map_toList]
      simp only [List.append_assoc]
    · rw [hst]; exact J1
    · rw [hst]
      show FRep c.ow ((s.resp.push c.ow (if s.resp.full c.ow then none else s.use c i)).pop c.ow _) lr'
      rw [hfull]; exact K1
    · rw [hus, hcm, List.map_append, List.map_append, ← I.ports, List.append_assoc, List.append_assoc, ← map_toList (s.take c i), J2]
      cases s.use c i <;> simp
    · intro p hp
      have : p ∈ lo ++ ((s.take c i).map fun x => portOf c x.sel).toList := by rw [J2]; exact List.mem_append_right _ hp
      rcases List.mem_append.1 this with h | h
      · exact I.lt p h
      · exact port_lt hc ft p h
    · rw [hus, hgi, hst, List.map_append, I6]
      have : ((s.use c i).toList.map fun x => (s.order.head c.aw, x)).map Prod.snd = (s.use c i).toList := by cases s.use c i <;> rfl
      rw [this, List.append_assoc, List.append_assoc, List.append_assoc, K2]
      congr 1
      show s.oreg.toList ++ _ = (if i.rready = true then s.oreg.toList else []) ++ ((if (!s.resp.empty && (s.oreg.isNone || i.rready)) = true then some (s.resp.head c.ow) else if i.rready then none else s.oreg).toList ++ lr')
      cases s.resp.empty <;> cases s.oreg <;> cases i.rready <;> simp
    · rw [hst]
      intro h
      have h' : decide (2 ^ (c.ow - 1) ≤ (s.resp.wr + 2 ^ (c.ow + 1) - s.resp.rd) % 2 ^ (c.ow + 1)) = false := h
      rw [I4.dist, decide_eq_false_iff_not] at h'
      have hl := congrArg List.length K2
      simp only [List.length_append] at hl
      have : (s.use c i).toList.length ≤ 1 := by cases s.use c i <;> simp
      omega

end Rd
end Corundum.RamDemux
