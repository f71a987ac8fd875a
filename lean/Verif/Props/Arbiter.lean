import Verif.Model.Arbiter
import Verif.Props.PriorityEncoder
/-!
C32: the arbiter grants at most one requester, only to requesters, and round-robin arbitration starves nobody.
-/
namespace Corundum.Arbiter
open Corundum.PriorityEncoder

theorem valid_of (w x i : Nat) (h : i < w) (hx : x.testBit i = true) : valid w x = true := (C33_valid w x).mpr ⟨i, h, hx⟩

/-- the grant outputs are consistent: one-hot and equal to the encoded grant, or all zero -/
def Good (c : Cfg) (s : St) : Prop := (s.valid = true → s.enc < c.ports ∧ s.grant = 2 ^ s.enc) ∧ (s.valid = false → s.grant = 0 ∧ s.enc = 0)

/-- result of one arbitration -/
theorem step_cases (c : Cfg) (s : St) (i : In) (hr : i.rst = false) (hh : hold c s i = false) :
    (valid c.ports i.req = false → (step c s i).valid = false ∧ (step c s i).grant = 0 ∧ (step c s i).enc = 0) ∧
    (valid c.ports i.req = true → (step c s i).valid = true ∧ (step c s i).enc < c.ports ∧ (step c s i).grant = 2 ^ (step c s i).enc ∧
      i.req.testBit (step c s i).enc = true ∧
      (c.roundRobin = true → (step c s i).mask = maskFor c (step c s i).enc ∧
        (valid c.ports (i.req &&& s.mask) = true → s.mask.testBit (step c s i).enc = true ∧ ∀ j, j < c.ports → i.req.testBit j = true →
          s.mask.testBit j = true → (if c.lsb then (step c s i).enc ≤ j else j ≤ (step c s i).enc)) ∧
        (valid c.ports (i.req &&& s.mask) = false → ∀ j, j < c.ports → i.req.testBit j = true → (if c.lsb then (step c s i).enc ≤ j else j ≤ (step c s i).enc))) ∧
      (c.roundRobin = false → ∀ j, j < c.ports → i.req.testBit j = true → (if c.lsb then (step c s i).enc ≤ j else j ≤ (step c s i).enc))) := by
  constructor
  · intro hv; simp [step, hr, hh, hv]
  · intro hv
    obtain ⟨a, b, d, f⟩ := C33_encoded c.lsb c.ports i.req ((C33_valid _ _).mp hv)
    cases hrr : c.roundRobin
    · simp only [step, hr, hh, hv, hrr, Bool.false_eq_true, if_false, if_true]
      exact ⟨trivial, a, f, b, fun h => absurd h (by simp), fun _ => d⟩
    · cases hm : valid c.ports (i.req &&& s.mask)
      · simp only [step, hr, hh, hv, hrr, hm, Bool.false_eq_true, if_false, if_true]
        exact ⟨trivial, a, f, b, fun _ => ⟨trivial, fun h => absurd h (by simp), fun _ => d⟩, fun h => absurd h (by simp)⟩
      · obtain ⟨a', b', d', f'⟩ := C33_encoded c.lsb c.ports (i.req &&& s.mask) ((C33_valid _ _).mp hm)
        simp only [step, hr, hh, hv, hrr, hm, Bool.false_eq_true, if_false, if_true]
        rw [Nat.testBit_and, Bool.and_eq_true] at b'
        refine ⟨trivial, a', f', b'.1, fun _ => ⟨trivial, fun _ => ⟨b'.2, ?_⟩, fun h => absurd h (by simp)⟩, fun h => absurd h (by simp)⟩
        intro j hj h1 h2
        exact d' j hj (by rw [Nat.testBit_and, h1, h2]; rfl)

theorem step_good (c : Cfg) (s : St) (i : In) (h : Good c s) : Good c (step c s i) := by
  cases hr : i.rst
  · cases hh : hold c s i
    · obtain ⟨a, b⟩ := step_cases c s i hr hh
      cases hv : valid c.ports i.req
      · obtain ⟨x, y, z⟩ := a hv
        exact ⟨fun h => by rw [x] at h; exact absurd h (by simp), fun _ => ⟨y, z⟩⟩
      · obtain ⟨x, y, z, _⟩ := b hv
        exact ⟨fun _ => ⟨y, z⟩, fun h => by rw [x] at h; exact absurd h (by simp)⟩
    · have : step c s i = s := by simp [step, hr, hh]
      rw [this]; exact h
  · have : step c s i = init := by simp [step, hr]
    rw [this]; exact ⟨by simp [init], by simp [init]⟩

/-- **C32** At every clock of every run the grant vector is one-hot at the encoded grant, or all zero when not valid. -/
theorem C32_one_hot (c : Cfg) (is : List In) :
    let s := run c init is
    (s.valid = true → s.enc < c.ports ∧ ∀ j, s.grant.testBit j = decide (j = s.enc)) ∧ (s.valid = false → s.grant = 0 ∧ s.enc = 0) := by
  have h : ∀ (is : List In) (s : St), Good c s → Good c (run c s is) := by
    intro is
    induction is with
    | nil => intro s h; exact h
    | cons i is ih => intro s h; exact ih _ (step_good c s i h)
  obtain ⟨a, b⟩ := h is init ⟨by simp [init], by simp [init]⟩
  refine ⟨fun hv => ⟨(a hv).1, fun j => ?_⟩, b⟩
  rw [(a hv).2, Nat.testBit_two_pow]
  simp only [decide_eq_decide]
  exact eq_comm

/-- **C32** A grant is either the held previous one, or goes to a port requesting in this very cycle; if somebody requests and nothing is held,
somebody is granted. -/
theorem C32_only_requesters (c : Cfg) (s : St) (i : In) (hr : i.rst = false) :
    (hold c s i = true → step c s i = s) ∧
    (hold c s i = false → (step c s i).valid = true → i.req.testBit (step c s i).enc = true) ∧
    (hold c s i = false → (∃ p, p < c.ports ∧ i.req.testBit p = true) → (step c s i).valid = true) := by
  refine ⟨fun h => by simp [step, hr, h], fun hh hv => ?_, fun hh hp => ?_⟩
  · obtain ⟨a, b⟩ := step_cases c s i hr hh
    cases hq : valid c.ports i.req
    · rw [(a hq).1] at hv; exact absurd hv (by simp)
    · exact (b hq).2.2.2.1
  · exact ((step_cases c s i hr hh).2 ((C33_valid _ _).mpr hp)).1

theorem grant_and (c : Cfg) (s : St) (h : Good c s) (x : Nat) : ((s.grant &&& x) != 0) = (s.valid && x.testBit s.enc) := by
  cases hv : s.valid
  · rw [(h.2 hv).1]; simp
  · rw [(h.1 hv).2, Bool.true_and]
    cases hx : x.testBit s.enc
    · have : 2 ^ s.enc &&& x = 0 := by
        apply Nat.eq_of_testBit_eq
        intro j
        rw [Nat.testBit_and, Nat.testBit_two_pow, Nat.zero_testBit]
        by_cases hj : s.enc = j
        · subst hj; simp [hx]
        · simp [hj]
      rw [this]; rfl
    · have : (2 ^ s.enc &&& x).testBit s.enc = true := by
        rw [Nat.testBit_and, Nat.testBit_two_pow, hx]; simp
      simp only [bne_iff_ne, ne_eq]
      intro h0
      rw [h0, Nat.zero_testBit] at this
      exact absurd this (by simp)

/-- **C32** Blocking: without blocking nothing is held; blocking on request holds a grant exactly while its port keeps requesting; blocking on acknowledge holds
a grant exactly until its port acknowledges. -/
theorem C32_blocking (c : Cfg) (s : St) (i : In) (h : Good c s) :
    hold c s i = (c.block && s.valid && (if c.blockAck then !i.ack.testBit s.enc else i.req.testBit s.enc)) := by
  have e : ((s.grant &&& i.ack) == 0) = !(s.valid && i.ack.testBit s.enc) := by
    rw [← grant_and c s h]; simp [bne]
  unfold hold
  rw [grant_and c s h, e]
  cases c.block <;> cases c.blockAck <;> cases s.valid <;> simp

/-- **C32** Fixed priority: the granted port is the lowest (or highest) requesting one. -/
theorem C32_priority (c : Cfg) (s : St) (i : In) (hr : i.rst = false) (hrr : c.roundRobin = false) (hh : hold c s i = false) (j : Nat)
    (hj : j < c.ports) (hq : i.req.testBit j = true) : if c.lsb then (step c s i).enc ≤ j else j ≤ (step c s i).enc :=
  ((step_cases c s i hr hh).2 (valid_of _ _ j hj hq)).2.2.2.2.2 hrr j hj hq

/-! ### fairness -/

/-- the ports granted by the arbitrations (cycles without hold) of a run, in order -/
def grants (c : Cfg) : St → List In → List Nat
  | _, [] => []
  | s, i :: is => (if !hold c s i && (step c s i).valid then [(step c s i).enc] else []) ++ grants c (step c s i) is

/-- the mask register remembers some last granted port -/
def Last (c : Cfg) (s : St) (l : Nat) : Prop := l < c.ports ∧ ∀ j, j < c.ports → s.mask.testBit j = if c.lsb then decide (l < j) else decide (j < l)

/-- ports to go until `p`, cyclically from the last granted port `l` -/
def dist (c : Cfg) (l p : Nat) : Nat :=
  if c.lsb then (if l < p then p - l - 1 else p + c.ports - l - 1) else (if p < l then l - p - 1 else l + c.ports - p - 1)

theorem maskFor_last (c : Cfg) (e : Nat) (he : e < c.ports) (s : St) (h : s.mask = maskFor c e) : Last c s e := by
  refine ⟨he, fun j hj => ?_⟩
  rw [h]
  unfold maskFor
  cases c.lsb
  · simp only [Bool.false_eq_true, if_false]
    rw [Nat.testBit_shiftRight, Nat.testBit_two_pow_sub_one]
    simp only [decide_eq_decide]
    omega
  · simp only [if_true]
    rw [Nat.testBit_mod_two_pow, Nat.testBit_shiftLeft, Nat.testBit_two_pow_sub_one]
    by_cases h1 : e < j
    · simp [h1, hj, show e + 1 ≤ j by omega, show j - (e + 1) < c.ports by omega]
    · simp [h1, show ¬ e + 1 ≤ j by omega]

theorem dist_lt (c : Cfg) (l p : Nat) (hl : l < c.ports) (hp : p < c.ports) : dist c l p < c.ports := by
  unfold dist; split <;> split <;> omega

/-- one arbitration while `p` requests: `p` is granted, or comes strictly closer -/
theorem arb_step (c : Cfg) (s : St) (i : In) (l p : Nat) (hrr : c.roundRobin = true) (hr : i.rst = false) (hh : hold c s i = false) (hl : Last c s l)
    (hp : p < c.ports) (hq : i.req.testBit p = true) :
    (step c s i).valid = true ∧ Last c (step c s i) (step c s i).enc ∧ ((step c s i).enc = p ∨ dist c (step c s i).enc p < dist c l p) := by
  obtain ⟨v1, v2, v3, v4, v5, _⟩ := (step_cases c s i hr hh).2 (valid_of _ _ p hp hq)
  obtain ⟨m1, m2, m3⟩ := v5 hrr
  refine ⟨v1, maskFor_last c _ v2 _ m1, ?_⟩
  obtain ⟨hl1, hl2⟩ := hl
  generalize (step c s i).enc = e at *
  cases hm : valid c.ports (i.req &&& s.mask)
  · have m3 := m3 hm
    have hno : ∀ j, j < c.ports → i.req.testBit j = true → s.mask.testBit j = false := by
      intro j hj h1
      cases h2 : s.mask.testBit j
      · rfl
      · have := valid_of c.ports (i.req &&& s.mask) j hj (by rw [Nat.testBit_and, h1, h2]; rfl)
        rw [hm] at this; exact absurd this (by simp)
    have np := hno p hp hq
    have ne := hno e v2 v4
    have m := m3 p hp hq
    rw [hl2 p hp] at np
    rw [hl2 e v2] at ne
    unfold dist
    cases hc : c.lsb
    · simp only [hc, Bool.false_eq_true, if_false, decide_eq_false_iff_not] at *
      by_cases h : e = p
      · exact Or.inl h
      · right; rw [if_pos (by omega), if_neg (by omega)]; omega
    · simp only [hc, if_true, decide_eq_false_iff_not] at *
      by_cases h : e = p
      · exact Or.inl h
      · right; rw [if_pos (by omega), if_neg (by omega)]; omega
  · obtain ⟨k1, k2⟩ := m2 hm
    rw [hl2 e v2] at k1
    have k2 := k2 p hp hq
    rw [hl2 p hp] at k2
    unfold dist
    cases hc : c.lsb
    · simp only [hc, Bool.false_eq_true, if_false, decide_eq_true_eq] at *
      by_cases h : e = p
      · exact Or.inl h
      · right
        by_cases hpl : p < l
        · have := k2 hpl; rw [if_pos (by omega), if_pos (by omega)]; omega
        · rw [if_neg (by omega), if_neg (by omega)]; omega
    · simp only [hc, if_true, decide_eq_true_eq] at *
      by_cases h : e = p
      · exact Or.inl h
      · right
        by_cases hpl : l < p
        · have := k2 hpl; rw [if_pos (by omega), if_pos (by omega)]; omega
        · rw [if_neg (by omega), if_neg (by omega)]; omega

theorem fair_aux (c : Cfg) (p : Nat) (hrr : c.roundRobin = true) (hp : p < c.ports) : ∀ (is : List In) (s : St) (l d : Nat), Last c s l → dist c l p ≤ d →
    (∀ i ∈ is, i.rst = false ∧ i.req.testBit p = true) → d + 1 ≤ (grants c s is).length → p ∈ (grants c s is).take (d + 1) := by
  intro is
  induction is with
  | nil => intro s l d _ _ _ h; simp [grants] at h
  | cons i is ih =>
    intro s l d hl hd hi hlen
    obtain ⟨hr, hq⟩ := hi i (by simp)
    have hi' : ∀ j ∈ is, j.rst = false ∧ j.req.testBit p = true := fun j hj => hi j (by simp [hj])
    rw [grants] at hlen ⊢
    cases hh : hold c s i
    · obtain ⟨a, b, e⟩ := arb_step c s i l p hrr hr hh hl hp hq
      rw [hh, a] at hlen
      rw [a]
      simp only [Bool.not_false, Bool.and_self, if_true, List.singleton_append, List.length_cons, List.take_succ_cons, List.mem_cons] at hlen ⊢
      rcases e with e | e
      · exact Or.inl e.symm
      · right
        obtain ⟨d', rfl⟩ : ∃ d', d = d' + 1 := ⟨d - 1, by omega⟩
        exact ih (step c s i) _ d' b (by omega) hi' (by omega)
    · have : step c s i = s := by simp [step, hr, hh]
      rw [hh, this] at hlen
      rw [this]
      simp only [Bool.not_true, Bool.false_and, Bool.false_eq_true, if_false, List.nil_append] at hlen ⊢
      exact ih s l d hl hd hi' hlen

theorem reach_last (c : Cfg) (hrr : c.roundRobin = true) (hpos : 0 < c.ports) : ∀ (is : List In) (s : St), (∃ l, Last c s l) → ∃ l, Last c (run c s is) l := by
  have hinit : ∃ l, Last c init l := by
    cases hc : c.lsb
    · exact ⟨0, hpos, fun j _ => by simp [init, hc]⟩
    · exact ⟨c.ports - 1, by omega, fun j hj => by simp [init, hc]; omega⟩
  intro is
  induction is with
  | nil => intro s h; exact h
  | cons i is ih =>
    intro s h
    apply ih
    cases hr : i.rst
    · cases hh : hold c s i
      · cases hv : valid c.ports i.req
        · have : (step c s i).mask = s.mask := by simp [step, hr, hh, hv]
          obtain ⟨l, h1, h2⟩ := h
          exact ⟨l, h1, fun j hj => by rw [this]; exact h2 j hj⟩
        · obtain ⟨_, v2, _, _, v5, _⟩ := (step_cases c s i hr hh).2 hv
          exact ⟨_, maskFor_last c _ v2 _ (v5 hrr).1⟩
      · have : step c s i = s := by simp [step, hr, hh]
        rw [this]; exact h
    · have : step c s i = init := by simp [step, hr]
      rw [this]; exact hinit

/-- **C32** Round robin: whatever happened before, a port that requests continuously is among the next PORTS grants. -/
theorem C32_fair (c : Cfg) (hrr : c.roundRobin = true) (pre is : List In) (p : Nat) (hp : p < c.ports) (hi : ∀ i ∈ is, i.rst = false ∧ i.req.testBit p = true)
    (hlen : c.ports ≤ (grants c (run c init pre) is).length) : p ∈ (grants c (run c init pre) is).take c.ports := by
  have hinit : ∃ l, Last c init l := by
    cases hc : c.lsb
    · exact ⟨0, by omega, fun j _ => by simp [init, hc]⟩
    · exact ⟨c.ports - 1, by omega, fun j hj => by simp [init, hc]; omega⟩
  obtain ⟨l, hl⟩ := reach_last c hrr (by omega) pre init hinit
  have hd := dist_lt c l p hl.1 hp
  have := fair_aux c p hrr hp is (run c init pre) l (c.ports - 1) hl (by omega) hi (by omega)
  rwa [Nat.sub_add_cancel (by omega)] at this

/-- **C32** Without blocking every cycle with a request is an arbitration, so the grant comes within PORTS clock cycles. -/
theorem C32_fair_nonblocking (c : Cfg) (hrr : c.roundRobin = true) (hb : c.block = false) (pre is : List In) (p : Nat) (hp : p < c.ports)
    (hi : ∀ i ∈ is, i.rst = false ∧ i.req.testBit p = true) (hlen : is.length = c.ports) : p ∈ grants c (run c init pre) is := by
  have hg : ∀ (is : List In) (s : St), (∀ i ∈ is, i.rst = false ∧ i.req.testBit p = true) → (grants c s is).length = is.length := by
    intro is
    induction is with
    | nil => intro s _; rfl
    | cons i is ih =>
      intro s hi
      obtain ⟨hr, hq⟩ := hi i (by simp)
      have hh : hold c s i = false := by simp [hold, hb]
      have hv := ((step_cases c s i hr hh).2 (valid_of _ _ p hp hq)).1
      rw [grants, hh, hv]
      simp only [Bool.not_false, Bool.and_self, if_true, List.singleton_append, List.length_cons]
      rw [ih _ (fun j hj => hi j (by simp [hj]))]
  exact List.mem_of_mem_take (C32_fair c hrr pre is p hp hi (by rw [hg is _ hi]; omega))

/-- four ports, ports 1 and 3 keep requesting: both are served alternately -/
example : grants ⟨4, true, false, false, true⟩ init [⟨0b1010, 0, false⟩, ⟨0b1010, 0, false⟩, ⟨0b1010, 0, false⟩, ⟨0b1011, 0, false⟩] = [1, 3, 1, 3] := by decide
example : grants ⟨3, true, true, true, false⟩ init [⟨0b111, 0, false⟩, ⟨0b111, 0, false⟩, ⟨0b111, 0b100, false⟩, ⟨0b111, 0b010, false⟩] = [2, 1, 0] := by decide

end Corundum.Arbiter
