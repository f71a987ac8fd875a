import Verif.Proof.ArbMuxFair

/-!
The arbitrated multiplexer of requests, descriptors, events and frames: C83 nothing lost and order kept, C84 fairness.
-/
namespace Corundum.ArbMux

variable {α : Type}

/-- Every beat taken at an input comes out once, marked with the number of that input, in order; at most three are under way. -/
theorem C83_lossless (c : Cfg) (ins : Nat → In α) (p n : Nat) : ∃ rest, accepted c ins p n = ofPort p (delivered c ins n) ++ rest ∧ rest.length ≤ 3 := by
  refine ⟨ofPort p (inOut (st c ins n)) ++ ((st c ins n).reg p).toList, ?_, ?_⟩
  · rw [accepted_eq, ofPort_append, List.append_assoc]
  · have h1 : (ofPort p (inOut (st c ins n))).length ≤ (inOut (st c ins n)).length := List.length_filterMap_le _ _
    have h2 : (inOut (st c ins n)).length ≤ 2 := by
      unfold inOut
      cases (st c ins n).out.m <;> cases (st c ins n).out.temp <;> simp
    have h3 : ((st c ins n).reg p).toList.length ≤ 1 := by cases (st c ins n).reg p <;> simp
    rw [List.length_append]; omega

/-- What comes out is marked with the number of an input. -/
theorem C83_marked (c : Cfg) (ins : Nat → In α) (n : Nat) : ∀ x ∈ delivered c ins n, x.1 < c.ports := by
  have h : ∀ n, ∀ x ∈ stream c ins n, x.1 < c.ports := by
    intro n
    induction n with
    | zero => intro x hx; cases hx
    | succ n ih =>
      intro x hx
      rw [stream_succ, List.mem_append] at hx
      rcases hx with hx | hx
      · exact ih x hx
      · cases hp : pass (st c ins n) with
        | none => rw [hp] at hx; cases hx
        | some y =>
          rw [hp, Option.toList_some, List.mem_singleton] at hx
          subst hx
          obtain ⟨_, h1, h2, _⟩ := pass_some hp
          rw [← h2]; exact ((inv_st (c := c) (ins := ins) n).good.1 h1).1
  intro x hx
  exact h n x (List.mem_append.2 (Or.inl hx))

/-- Frames come out whole: between the beats of a frame there are none from other inputs. -/
theorem C83_frames_whole (c : Cfg) (hf : c.frames = true) (ins : Nat → In α) (n : Nat) : Whole (delivered c ins n) := whole_prefix _ _ (frames_inv hf n).1

/-- A beat offered at the output stays there unchanged until it is taken. -/
theorem C83_stable (c : Cfg) (ins : Nat → In α) (n : Nat) (x : Nat × Beat α) (h : (st c ins n).out.m = some x) (hr : (ins n).mready = false) : (st c ins (n + 1)).out.m = some x := by
  show ((st c ins n).out.step c.eager (pass (st c ins n)) (ins n).mready).m = some x
  rw [hr]
  unfold Skid.step
  rw [h]
  cases (st c ins n).out.ready <;> simp [h]

/-- Round robin: between a beat being taken at its input in cycle `n` and its coming out, at most PORTS + 2 frames (transfers, if there are no frames) of other inputs end at the output. -/
theorem C84_bounded_overtaking (c : Cfg) (hrr : c.rr = true) (ins : Nat → In α) (n p : Nat) (hp : p < c.ports) (b : Beat α) (hs : sready (st c ins n) p = true) (ho : (ins n).offer p = some b)
    (n' : Nat) (hn : n < n') (hd : (ofPort p (delivered c ins n')).length ≤ (accepted c ins p n).length) : ends c p (delivered c ins n') ≤ ends c p (delivered c ins n) + c.ports + 2 :=
  overtaking hrr hp hs ho hn hd

/-- Round robin, transfers of one beat: if the output is taken from cycle `n` on, a beat taken in cycle `n` comes out within PORTS + 3 cycles, whatever the other inputs do. -/
theorem C84_progress (c : Cfg) (hrr : c.rr = true) (hf : c.frames = false) (ins : Nat → In α) (n p : Nat) (hp : p < c.ports) (b : Beat α) (hs : sready (st c ins n) p = true)
    (ho : (ins n).offer p = some b) (hm : ∀ k, n ≤ k → (ins k).mready = true) : (accepted c ins p n).length < (ofPort p (delivered c ins (n + c.ports + 3))).length := by
  have hreg : (st c ins (n + 1)).reg p = some b := by
    show (if sready (st c ins n) p then (ins n).offer p else (st c ins n).reg p) = some b
    rw [if_pos hs, ho]
  obtain ⟨j, h1, h2⟩ := progress hrr hf hp hm hreg c.ports 0 (wait_le hrr hp _) hreg
  rw [Nat.add_zero] at h2
  have hr := (pass_some h2).1
  have hmm : (st c ins (n + 1 + j + 1)).out = { ready := true, m := some (p, b), temp := none } := by
    show (st c ins (n + 1 + j)).out.step c.eager (pass (st c ins (n + 1 + j))) (ins (n + 1 + j)).mready = _
    unfold Skid.step
    rw [h2, hr, hm _ (by omega), (inv_st (c := c) (ins := ins) (n + 1 + j)).temp hr]; rfl
  have e1 : stream c ins (n + 1 + j + 1) = delivered c ins (n + 1 + j + 2) := by
    show _ = delivered c ins (n + 1 + j + 1) ++ if (ins (n + 1 + j + 1)).mready then (st c ins (n + 1 + j + 1)).out.m.toList else []
    rw [hm _ (by omega), hmm, stream, inOut, hmm]; rfl
  have e2 : stream c ins (n + 1 + j + 1) = stream c ins (n + 1 + j) ++ [(p, b)] := by rw [stream_succ, h2]; rfl
  have e3 : (ofPort p (stream c ins (n + 1))).length = (accepted c ins p n).length := by
    have e : accepted c ins p (n + 1) = ofPort p (stream c ins (n + 1)) ++ ((st c ins (n + 1)).reg p).toList := accepted_eq p (n + 1)
    have e' : accepted c ins p (n + 1) = accepted c ins p n ++ [b] := by
      show (accepted c ins p n ++ if sready (st c ins n) p then ((ins n).offer p).toList else []) = _
      rw [if_pos hs, ho]; rfl
    rw [hreg, e'] at e
    have := congrArg List.length e
    simp only [List.length_append, Option.toList_some, List.length_singleton] at this
    omega
  have e4 := ofPort_prefix (p := p) (stream_mono (c := c) (ins := ins) (n + 1) j)
  have e5 : (ofPort p (delivered c ins (n + 1 + j + 2))).length = (ofPort p (stream c ins (n + 1 + j))).length + 1 := by
    rw [← e1, e2, ofPort_append, List.length_append]; simp [ofPort]
  have mono : ∀ a d, delivered c ins a <+: delivered c ins (a + d) := by
    intro a d
    induction d with
    | zero => exact List.prefix_refl _
    | succ d ih => exact ih.trans (List.prefix_append _ _)
  have e6 := ofPort_prefix (p := p) (mono (n + 1 + j + 2) (c.ports - j))
  rw [show n + 1 + j + 2 + (c.ports - j) = n + c.ports + 3 by omega] at e6
  omega

/-- Fixed priority starves: if input 0 has the highest priority and always offers something, nothing of another input ever comes out. -/
theorem C84_priority_starves (c : Cfg) (hrr : c.rr = false) (hl : c.lsb = true) (hpos : 0 < c.ports) (ins : Nat → In α) (ho : ∀ n, ((ins n).offer 0).isSome = true) (n : Nat) :
    ∀ x ∈ delivered c ins n, x.1 = 0 := by
  have key : ∀ n, (n = 0 ∨ ((st c ins n).reg 0).isSome = true) ∧ ((st c ins n).arb.valid = true → (st c ins n).arb.enc = 0) ∧ (n = 0 → ∀ p, (st c ins n).reg p = none) := by
    intro n
    induction n with
    | zero => exact ⟨Or.inl rfl, (fun h => by cases h), fun _ _ => rfl⟩
    | succ n ih =>
      obtain ⟨i1, i2, i3⟩ := ih
      have I := inv_st (c := c) (ins := ins) n
      refine ⟨Or.inr ?_, fun hv => ?_, fun h => by cases h⟩
      · show (if sready (st c ins n) 0 then (ins n).offer 0 else (st c ins n).reg 0).isSome = true
        by_cases hs : sready (st c ins n) 0 = true
        · rw [if_pos hs]; exact ho n
        · rw [if_neg hs]
          unfold sready at hs
          cases hr : (st c ins n).reg 0 with
          | none => rw [hr] at hs; exact absurd rfl hs
          | some b => rfl
      · cases hh : Arbiter.hold c.arb (st c ins n).arb { req := req c (st c ins n) (ins n), ack := ack c (st c ins n) }
        · have hv' : (Arbiter.step c.arb (st c ins n).arb { req := req c (st c ins n) (ins n), ack := ack c (st c ins n) }).valid = true := hv
          by_cases hn : n = 0
          · exfalso
            have hq := (Arbiter.C32_only_requesters c.arb (st c ins n).arb { req := req c (st c ins n) (ins n), ack := ack c (st c ins n) } rfl).2.1 hh hv'
            have hg : (st c ins n).arb.valid = false := by subst hn; rfl
            change (req c (st c ins n) (ins n)).testBit _ = true at hq
            unfold req at hq
            rw [bits_bit, grant_bit I, i3 hn, hg] at hq
            simp at hq
          · have hreg : ((st c ins n).reg 0).isSome = true := by
              rcases i1 with q | q
              · exact absurd q hn
              · exact q
            have hq : (req c (st c ins n) (ins n)).testBit 0 = true := by
              unfold req
              rw [bits_bit, hreg, ho n]
              simp [hpos]
            have := Arbiter.C32_priority c.arb (st c ins n).arb { req := req c (st c ins n) (ins n), ack := ack c (st c ins n) } rfl hrr hh 0 hpos hq
            rw [show c.arb.lsb = true from hl, if_pos rfl] at this
            exact Nat.le_zero.1 this
        · have e : (st c ins (n + 1)).arb = (st c ins n).arb := arb_hold hh
          rw [e] at hv ⊢
          exact i2 hv
  have h : ∀ n, ∀ x ∈ stream c ins n, x.1 = 0 := by
    intro n
    induction n with
    | zero => intro x hx; cases hx
    | succ n ih =>
      intro x hx
      rw [stream_succ, List.mem_append] at hx
      rcases hx with hx | hx
      · exact ih x hx
      · cases hp : pass (st c ins n) with
        | none => rw [hp] at hx; cases hx
        | some y =>
          rw [hp, Option.toList_some, List.mem_singleton] at hx
          subst hx
          obtain ⟨_, h1, h2, _⟩ := pass_some hp
          rw [← h2]; exact (key n).2.1 h1
  intro x hx
  exact h n x (List.mem_append.2 (Or.inl hx))

/-! ### examples -/

/-- three inputs that always offer: beat `100 p + n`, the end of a frame in every third cycle; the output is blocked in every fourth -/
def exIn (n : Nat) : In Nat := { offer := fun p => some ⟨100 * p + n, n % 3 == 0⟩, mready := n % 4 != 0 }

/-- round robin without frames: the inputs take turns -/
example : (delivered ⟨3, true, true, false, false⟩ exIn 12).map (fun x => (x.1, x.2.val)) = [(0, 0), (1, 100), (2, 200), (0, 2), (1, 103), (2, 204), (0, 6)] := by
  set_option maxRecDepth 100000 in decide

/-- with frames -/
example : (delivered ⟨3, true, true, true, true⟩ exIn 16).map (fun x => (x.1, x.2.val, x.2.last)) =
    [(0, 0, true), (1, 100, true), (2, 200, true), (0, 2, false), (0, 6, true), (1, 103, true), (2, 204, false), (2, 210, false), (2, 211, false), (2, 212, true)] := by
  set_option maxRecDepth 100000 in decide

/-- fixed priority: only input 0 -/
example : (delivered ⟨3, false, true, false, false⟩ exIn 10).map (fun x => (x.1, x.2.val)) = [(0, 0), (0, 2), (0, 3), (0, 4), (0, 6)] := by
  set_option maxRecDepth 100000 in decide

/-- C84: the beat of input 2 taken in cycle 0 is still under way before cycle 6 -/
example : sready (st ⟨3, true, true, false, false⟩ exIn 0) 2 = true ∧ accepted ⟨3, true, true, false, false⟩ exIn 2 0 = [] ∧ ofPort 2 (delivered ⟨3, true, true, false, false⟩ exIn 6) = [] ∧
    ends ⟨3, true, true, false, false⟩ 2 (delivered ⟨3, true, true, false, false⟩ exIn 6) = 2 := by
  set_option maxRecDepth 100000 in decide

end Corundum.ArbMux
