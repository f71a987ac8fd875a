import Verif.Proof.ArbMux

namespace Corundum.ArbMux

variable {α : Type} {c : Cfg} {ins : Nat → In α}

/-- all that has passed the arbiter before cycle `n` -/
def stream (c : Cfg) (ins : Nat → In α) (n : Nat) : List (Nat × Beat α) := delivered c ins n ++ inOut (st c ins n)

theorem stream_succ (n : Nat) : stream c ins (n + 1) = stream c ins n ++ (pass (st c ins n)).toList := flow n

theorem stream_mono (n : Nat) : ∀ k, stream c ins n <+: stream c ins (n + k)
  | 0 => List.prefix_refl _
  | k + 1 => (stream_mono n k).trans (by rw [← Nat.add_assoc, stream_succ]; exact List.prefix_append _ _)

theorem ends_append (p : Nat) (a b : List (Nat × Beat α)) : ends c p (a ++ b) = ends c p a + ends c p b := List.countP_append

theorem ends_prefix {p : Nat} {a b : List (Nat × Beat α)} (h : a <+: b) : ends c p a ≤ ends c p b := by
  obtain ⟨r, rfl⟩ := h; rw [ends_append]; omega

theorem ends_le_length (p : Nat) (a : List (Nat × Beat α)) : ends c p a ≤ a.length := List.countP_le_length

/-- the register of an input keeps its beat until it passes -/
theorem reg_keep {n p : Nat} {b : Beat α} (h : (st c ins n).reg p = some b) (hp : ∀ b', pass (st c ins n) ≠ some (p, b')) : (st c ins (n + 1)).reg p = some b := by
  show (if sready (st c ins n) p then (ins n).offer p else (st c ins n).reg p) = some b
  rw [if_neg]
  · exact h
  · rw [sready_iff (inv_st n)]
    rintro (q | ⟨b', q⟩)
    · rw [h] at q; cases q
    · exact hp b' q

/-- a waiting input requests unless it has the grant -/
theorem req_bit {s : St α} {i : In α} (I : Inv c s) {p : Nat} (hp : p < c.ports) {b : Beat α} (h : s.reg p = some b) (hg : s.arb.valid = true → s.arb.enc ≠ p) : (req c s i).testBit p = true := by
  unfold req
  rw [bits_bit, grant_bit I, h]
  have : (s.arb.valid && decide (p = s.arb.enc)) = false := by
    cases hv : s.arb.valid
    · rfl
    · simp only [Bool.true_and, decide_eq_false_iff_not]; exact fun q => hg hv q.symm
  rw [this]; simp [hp]

/-! ### round robin -/

structure Turn (c : Cfg) (s : St α) (l : Nat) : Prop where
  last : Arbiter.Last c.arb s.arb l
  enc : s.arb.valid = true → s.arb.enc = l

theorem turn_step (hrr : c.rr = true) {s : St α} {i : In α} (h : ∃ l, Turn c s l) : ∃ l, Turn c (step c s i) l := by
  show ∃ l, Turn c (step c s i) l
  have hr : ({ req := req c s i, ack := ack c s } : Arbiter.In).rst = false := rfl
  cases hh : Arbiter.hold c.arb s.arb { req := req c s i, ack := ack c s }
  · cases hv : PriorityEncoder.valid c.arb.ports (req c s i)
    · have hm : (step c s i).arb.mask = s.arb.mask := by
        show (Arbiter.step c.arb s.arb { req := req c s i, ack := ack c s }).mask = _
        simp [Arbiter.step, hh, hv]
      have h1 := ((Arbiter.step_cases c.arb s.arb _ hr hh).1 hv).1
      obtain ⟨l, h2, _⟩ := h
      refine ⟨l, ⟨h2.1, fun j hj => by rw [hm]; exact h2.2 j hj⟩, fun q => ?_⟩
      change (Arbiter.step c.arb s.arb { req := req c s i, ack := ack c s }).valid = true at q
      rw [h1] at q; cases q
    · obtain ⟨_, v2, _, _, v5, _⟩ := (Arbiter.step_cases c.arb s.arb _ hr hh).2 hv
      exact ⟨_, Arbiter.maskFor_last c.arb _ v2 _ (v5 hrr).1, fun _ => rfl⟩
  · have e : (step c s i).arb = s.arb := by
      show Arbiter.step c.arb s.arb { req := req c s i, ack := ack c s } = _
      simp [Arbiter.step, hh]
    obtain ⟨l, h1, h2⟩ := h
    exact ⟨l, by rw [e]; exact h1, by rw [e]; exact h2⟩

theorem turn_st (hrr : c.rr = true) (hpos : 0 < c.ports) (n : Nat) : ∃ l, Turn c (st c ins n) l := by
  induction n with
  | zero =>
    have : ∃ l, Arbiter.Last c.arb Arbiter.init l := by
      cases hc : c.lsb
      · exact ⟨0, hpos, fun j _ => by simp [Arbiter.init, Cfg.arb, hc]⟩
      · refine ⟨c.ports - 1, (by show c.ports - 1 < c.ports; omega), fun j hj => ?_⟩
        change j < c.ports at hj
        simp [Arbiter.init, Cfg.arb, hc]; omega
    obtain ⟨l, h⟩ := this
    exact ⟨l, h, fun q => by cases q⟩
  | succ n ih => exact turn_step hrr ih

/-- how many ends of frames may still pass before input `p` is granted: `d` bounds it -/
def Wait (c : Cfg) (s : St α) (p d : Nat) : Prop := (s.arb.valid = true ∧ s.arb.enc = p) ∨ ∃ l, Turn c s l ∧ Arbiter.dist c.arb l p < d

/-- if the arbiter decides while `p` waits, `p` comes closer -/
theorem wait_arb (hrr : c.rr = true) {s : St α} {i : In α} {p d : Nat} (hp : p < c.ports) (I : Inv c s) {b : Beat α} (hb : s.reg p = some b) (hg : ¬ (s.arb.valid = true ∧ s.arb.enc = p))
    (hw : Wait c s p (d + 1)) (hh : Arbiter.hold c.arb s.arb { req := req c s i, ack := ack c s } = false) : Wait c (step c s i) p d := by
  rcases hw with q | ⟨l, ht, hd⟩
  · exact absurd q hg
  · obtain ⟨v1, v2, v3⟩ := Arbiter.arb_step c.arb s.arb { req := req c s i, ack := ack c s } l p hrr rfl hh ht.last hp (req_bit I hp hb (fun q1 q2 => hg ⟨q1, q2⟩))
    rcases v3 with v3 | v3
    · exact Or.inl ⟨v1, v3⟩
    · exact Or.inr ⟨_, ⟨v2, fun _ => rfl⟩, by omega⟩

theorem wait_pos {s : St α} {p d : Nat} (hg : ¬ (s.arb.valid = true ∧ s.arb.enc = p)) (hw : Wait c s p d) : ∃ d', d = d' + 1 := by
  rcases hw with q | ⟨l, _, hd⟩
  · exact absurd q hg
  · exact ⟨d - 1, by omega⟩

theorem wait_mono {s : St α} {p d d' : Nat} (h : d ≤ d') (hw : Wait c s p d) : Wait c s p d' := by
  rcases hw with q | ⟨l, ht, hd⟩
  · exact Or.inl q
  · exact Or.inr ⟨l, ht, by omega⟩

theorem arb_hold {s : St α} {i : In α} (h : Arbiter.hold c.arb s.arb { req := req c s i, ack := ack c s } = true) : (step c s i).arb = s.arb := by
  show Arbiter.step c.arb s.arb { req := req c s i, ack := ack c s } = _
  simp [Arbiter.step, h]

theorem wait_hold {s : St α} {i : In α} {p d : Nat} (h : Arbiter.hold c.arb s.arb { req := req c s i, ack := ack c s } = true) (hw : Wait c s p d) : Wait c (step c s i) p d := by
  have e := arb_hold h
  rcases hw with q | ⟨l, ht, hd⟩
  · exact Or.inl (by rw [e]; exact q)
  · exact Or.inr ⟨l, ⟨by rw [e]; exact ht.last, by rw [e]; exact ht.enc⟩, hd⟩

theorem wait_le (hrr : c.rr = true) {p : Nat} (hp : p < c.ports) (n : Nat) : Wait c (st c ins n) p c.ports := by
  obtain ⟨l, h⟩ := turn_st (ins := ins) hrr (show 0 < c.ports by omega) n
  exact Or.inr ⟨l, h, Arbiter.dist_lt c.arb l p h.last.1 hp⟩

/-- a cycle in which `p` waits -/
theorem wait_step (hrr : c.rr = true) {n p d : Nat} (hp : p < c.ports) {b : Beat α} (hb : (st c ins n).reg p = some b) (hn : ∀ b', pass (st c ins n) ≠ some (p, b')) (hw : Wait c (st c ins n) p d) :
    ∃ d', Wait c (st c ins (n + 1)) p d' ∧ ends c p (stream c ins (n + 1)) + d' ≤ ends c p (stream c ins n) + d := by
  have I := inv_st (c := c) (ins := ins) n
  rw [stream_succ, ends_append]
  cases hh : Arbiter.hold c.arb (st c ins n).arb { req := req c (st c ins n) (ins n), ack := ack c (st c ins n) }
  · by_cases hg : (st c ins n).arb.valid = true ∧ (st c ins n).arb.enc = p
    · exfalso
      have : ¬ (Arbiter.hold c.arb (st c ins n).arb { req := req c (st c ins n) (ins n), ack := ack c (st c ins n) } = true) := by rw [hh]; simp
      rw [hold_iff I] at this
      exact this ⟨hg.1, fun b' q => absurd (by rw [q, hg.2]) (hn b')⟩
    · obtain ⟨d', rfl⟩ := wait_pos hg hw
      refine ⟨d', wait_arb hrr hp I hb hg hw hh, ?_⟩
      have : ends c p (pass (st c ins n)).toList ≤ 1 := by
        refine Nat.le_trans (ends_le_length _ _) ?_
        cases pass (st c ins n) <;> simp
      omega
  · refine ⟨d, wait_hold hh hw, ?_⟩
    have : ends c p (pass (st c ins n)).toList = 0 := by
      cases hp' : pass (st c ins n) with
      | none => rfl
      | some x =>
        have he := (pass_some hp').2.2.1
        obtain ⟨q1, q2⟩ := ((hold_iff I).1 hh).2 x.2 (by rw [hp', he])
        simp [ends, q1, q2]
    omega

theorem waiting (hrr : c.rr = true) {n p : Nat} (hp : p < c.ports) {b : Beat α} (hb : (st c ins n).reg p = some b) : ∀ k, (∃ j, j < k ∧ (st c ins (n + j)).reg p = some b ∧ pass (st c ins (n + j)) = some (p, b) ∧
      ends c p (stream c ins (n + j)) ≤ ends c p (stream c ins n) + c.ports) ∨
    ((st c ins (n + k)).reg p = some b ∧ ∃ d, Wait c (st c ins (n + k)) p d ∧ ends c p (stream c ins (n + k)) + d ≤ ends c p (stream c ins n) + c.ports)
  | 0 => Or.inr ⟨hb, c.ports, wait_le hrr hp n, Nat.le_refl _⟩
  | k + 1 => by
    rcases waiting hrr hp hb k with ⟨j, h1, h2⟩ | ⟨h1, d, h2, h3⟩
    · exact Or.inl ⟨j, by omega, h2⟩
    · by_cases hq : ∃ b', pass (st c ins (n + k)) = some (p, b')
      · obtain ⟨b', hq⟩ := hq
        have := (pass_some hq).2.2.2
        rw [show (st c ins (n + k)).reg (p, b').1 = some b from h1] at this
        cases this
        exact Or.inl ⟨k, by omega, h1, hq, by omega⟩
      · have hq' : ∀ b', pass (st c ins (n + k)) ≠ some (p, b') := fun b' h => hq ⟨b', h⟩
        obtain ⟨d', q1, q2⟩ := wait_step hrr hp h1 hq' h2
        exact Or.inr ⟨reg_keep h1 hq', d', q1, by rw [← Nat.add_assoc]; omega⟩

theorem ofPort_prefix {p : Nat} {a b : List (Nat × Beat α)} (h : a <+: b) : (ofPort p a).length ≤ (ofPort p b).length := by
  obtain ⟨r, rfl⟩ := h; rw [ofPort_append, List.length_append]; omega

theorem inOut_le (n : Nat) : (inOut (st c ins n) ++ (pass (st c ins n)).toList).length ≤ 2 := by
  have h := (inv_st (c := c) (ins := ins) n).temp
  unfold inOut
  cases hr : (st c ins n).out.ready
  · rw [pass_ready hr]
    cases (st c ins n).out.m <;> cases (st c ins n).out.temp <;> simp
  · rw [h hr]
    cases (st c ins n).out.m <;> cases pass (st c ins n) <;> simp

theorem overtaking (hrr : c.rr = true) {n p : Nat} (hp : p < c.ports) {b : Beat α} (hs : sready (st c ins n) p = true) (ho : (ins n).offer p = some b) {n' : Nat} (hn : n < n')
    (hd : (ofPort p (delivered c ins n')).length ≤ (accepted c ins p n).length) : ends c p (delivered c ins n') ≤ ends c p (delivered c ins n) + c.ports + 2 := by
  have hreg : (st c ins (n + 1)).reg p = some b := by
    show (if sready (st c ins n) p then (ins n).offer p else (st c ins n).reg p) = some b
    rw [if_pos hs, ho]
  have h2 : ends c p (stream c ins (n + 1)) ≤ ends c p (delivered c ins n) + 2 := by
    rw [stream_succ, stream, List.append_assoc, ends_append]
    have := Nat.le_trans (ends_le_length (c := c) p _) (inOut_le (c := c) (ins := ins) n)
    omega
  have hpre : delivered c ins n' <+: stream c ins n' := List.prefix_append _ _
  obtain ⟨k, rfl⟩ : ∃ k, n' = n + 1 + k := ⟨n' - (n + 1), by omega⟩
  rcases waiting hrr hp hreg k with ⟨j, h3, h4, h5, h6⟩ | ⟨_, d, _, h6⟩
  · have h7 : (ofPort p (stream c ins (n + 1))).length = (accepted c ins p n).length := by
      have e : accepted c ins p (n + 1) = ofPort p (stream c ins (n + 1)) ++ ((st c ins (n + 1)).reg p).toList := accepted_eq p (n + 1)
      have e' : accepted c ins p (n + 1) = accepted c ins p n ++ [b] := by
        show (accepted c ins p n ++ if sready (st c ins n) p then ((ins n).offer p).toList else []) = _
        rw [if_pos hs, ho]; rfl
      rw [hreg, e'] at e
      have := congrArg List.length e
      simp only [List.length_append, Option.toList_some, List.length_singleton] at this
      omega
    have h8 := ofPort_prefix (p := p) (stream_mono (c := c) (ins := ins) (n + 1) j)
    have h9 : stream c ins (n + 1 + j) ++ [(p, b)] <+: stream c ins (n + 1 + k) := by
      have : stream c ins (n + 1 + j + 1) = stream c ins (n + 1 + j) ++ [(p, b)] := by rw [stream_succ, h5]; rfl
      rw [← this]
      have := stream_mono (c := c) (ins := ins) (n + 1 + j + 1) (k - j - 1)
      rw [show n + 1 + j + 1 + (k - j - 1) = n + 1 + k by omega] at this
      exact this
    have no : ¬ stream c ins (n + 1 + j) ++ [(p, b)] <+: delivered c ins (n + 1 + k) := by
      intro h
      have := ofPort_prefix (p := p) h
      rw [ofPort_append, List.length_append] at this
      simp only [ofPort, List.filterMap_cons, if_true, List.filterMap_nil, List.length_singleton] at this hd h7 h8
      omega
    rcases List.prefix_or_prefix_of_prefix hpre h9 with q | q
    · rcases List.prefix_concat_iff.1 q with q | q
      · exact absurd (by rw [q]; exact List.prefix_refl _) no
      · exact Nat.le_trans (ends_prefix q) (by omega)
    · exact absurd q no
  · exact Nat.le_trans (ends_prefix hpre) (by omega)

/-! ### when the output is always taken -/

/-- without frames the granted input has a beat -/
theorem granted_reg (hf : c.frames = false) (n : Nat) : (st c ins n).arb.valid = true → ∃ b, (st c ins n).reg (st c ins n).arb.enc = some b := by
  induction n with
  | zero => intro h; cases h
  | succ n ih =>
    have I := inv_st (c := c) (ins := ins) n
    intro hv
    cases hh : Arbiter.hold c.arb (st c ins n).arb { req := req c (st c ins n) (ins n), ack := ack c (st c ins n) }
    · have hv' : (Arbiter.step c.arb (st c ins n).arb { req := req c (st c ins n) (ins n), ack := ack c (st c ins n) }).valid = true := hv
      have hq := (Arbiter.C32_only_requesters c.arb (st c ins n).arb { req := req c (st c ins n) (ins n), ack := ack c (st c ins n) } rfl).2.1 hh hv'
      change (req c (st c ins n) (ins n)).testBit (st c ins (n + 1)).arb.enc = true at hq
      generalize (st c ins (n + 1)).arb.enc = e at hq
      unfold req at hq
      rw [bits_bit, Bool.and_eq_true, Bool.or_eq_true, Bool.and_eq_true, Bool.and_eq_true] at hq
      show ∃ b, (if sready (st c ins n) e then (ins n).offer e else (st c ins n).reg e) = some b
      rcases hq.2 with ⟨q1, q2⟩ | ⟨q1, q2⟩
      · obtain ⟨b, hb⟩ := Option.isSome_iff_exists.1 q1
        have : sready (st c ins n) e = false := by
          unfold sready; rw [hb]; simp at q2; simp [q2]
        rw [this]; exact ⟨b, hb⟩
      · obtain ⟨b, hb⟩ := Option.isSome_iff_exists.1 q1
        have : sready (st c ins n) e = true := by
          rw [sready_iff I]
          cases hr : (st c ins n).reg e with
          | none => exact Or.inl rfl
          | some b' =>
            right
            rw [grant_bit I, Bool.and_eq_true, decide_eq_true_eq] at q2
            have h3 : ¬ (Arbiter.hold c.arb (st c ins n).arb { req := req c (st c ins n) (ins n), ack := ack c (st c ins n) } = true) := by rw [hh]; simp
            rw [hold_iff I] at h3
            cases hp : pass (st c ins n) with
            | none => exact absurd ⟨q2.1, fun b h => by rw [hp] at h; cases h⟩ h3
            | some x =>
              have := (pass_some hp).2.2.1
              exact ⟨x.2, by rw [q2.2, this]⟩
        rw [this]; exact ⟨b, hb⟩
    · have e : (st c ins (n + 1)).arb = (st c ins n).arb := arb_hold hh
      rw [e] at hv ⊢
      obtain ⟨b, hb⟩ := ih hv
      refine ⟨b, reg_keep hb fun b' hp => ?_⟩
      have := (((hold_iff I).1 hh).2 b' hp).1
      rw [hf] at this; cases this

theorem progress (hrr : c.rr = true) (hf : c.frames = false) {n p : Nat} (hp : p < c.ports) {b : Beat α} (hm : ∀ k, n ≤ k → (ins k).mready = true) (hb : (st c ins (n + 1)).reg p = some b) :
    ∀ d k, Wait c (st c ins (n + 1 + k)) p d → (st c ins (n + 1 + k)).reg p = some b → ∃ j, j ≤ d ∧ pass (st c ins (n + 1 + k + j)) = some (p, b) := by
  have hr : ∀ k, (st c ins (n + 1 + k)).out.ready = true := by
    intro k
    rw [show n + 1 + k = n + k + 1 by omega]
    show ((st c ins (n + k)).out.step c.eager (pass (st c ins (n + k))) (ins (n + k)).mready).ready = true
    rw [hm (n + k) (by omega)]
    unfold Skid.step
    cases (st c ins (n + k)).out.ready <;> simp
  intro d
  induction d with
  | zero =>
    intro k hw hb
    rcases hw with ⟨q1, q2⟩ | ⟨_, _, q⟩
    · exact ⟨0, Nat.le_refl _, by rw [← q2] at hb ⊢; exact pass_of (hr k) q1 hb⟩
    · omega
  | succ d ih =>
    intro k hw hb
    by_cases hg : (st c ins (n + 1 + k)).arb.valid = true ∧ (st c ins (n + 1 + k)).arb.enc = p
    · exact ⟨0, Nat.zero_le _, by obtain ⟨q1, q2⟩ := hg; rw [← q2] at hb ⊢; exact pass_of (hr k) q1 hb⟩
    · have I := inv_st (c := c) (ins := ins) (n + 1 + k)
      have hh : Arbiter.hold c.arb (st c ins (n + 1 + k)).arb { req := req c (st c ins (n + 1 + k)) (ins (n + 1 + k)), ack := ack c (st c ins (n + 1 + k)) } = false := by
        rw [← Bool.not_eq_true, hold_iff I]
        rintro ⟨q1, q2⟩
        obtain ⟨b', hb'⟩ := granted_reg (ins := ins) hf (n + 1 + k) q1
        have := (q2 b' (pass_of (hr k) q1 hb')).1
        rw [hf] at this; cases this
      have hn : ∀ b', pass (st c ins (n + 1 + k)) ≠ some (p, b') := by
        intro b' h
        obtain ⟨_, q1, q2, _⟩ := pass_some h
        exact hg ⟨q1, q2⟩
      obtain ⟨j, h1, h2⟩ := ih (k + 1) (wait_arb hrr hp I hb hg hw hh) (reg_keep hb hn)
      exact ⟨j + 1, by omega, by rw [show n + 1 + k + (j + 1) = n + 1 + (k + 1) + j by omega]; exact h2⟩

end Corundum.ArbMux
