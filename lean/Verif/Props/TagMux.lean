import Verif.Spec.TagMux
import Verif.Props.ArbMux
import Verif.Props.RamDemux
/-!
Tags through the multiplexers: property C88.
-/
namespace Corundum.TagMux
open Corundum.ArbMux (Skid skid_temp skid_flow)

variable {σ β : Type}

theorem dvd_pow (a b k : Nat) (h : a ≤ b) : k * 2 ^ b % 2 ^ a = 0 := Nat.mod_eq_zero_of_dvd (Nat.dvd_trans (Nat.pow_dvd_pow 2 h) (Nat.dvd_mul_left _ _))

theorem out_back (c : Cfg) (hc : c.Ok) (p t : Nat) (hp : p < c.ports) (ht : t < 2 ^ c.sw) : c.port (c.out p t) = p ∧ c.out p t % 2 ^ c.sw = t := by
  have h1 := hc.mw
  have h2 := hc.cl
  have h3 : 2 ^ c.sw ≤ 2 ^ (c.mw - c.cl) := Nat.pow_le_pow_right (by omega) (by omega)
  unfold Cfg.port Cfg.out
  cases c.top with
  | true =>
    simp only [if_true]
    by_cases h : c.ports > 1
    · rw [if_pos h, if_pos h, Nat.mod_eq_of_lt (by omega : t < 2 ^ (c.mw - c.cl)), Nat.shiftRight_eq_div_pow, Nat.add_mul_div_right _ _ (Nat.two_pow_pos _), Nat.div_eq_of_lt (by omega)]
      refine ⟨by omega, ?_⟩
      rw [Nat.add_mod, dvd_pow _ _ _ (by omega), Nat.add_zero, Nat.mod_mod, Nat.mod_eq_of_lt ht]
    · rw [if_neg h, if_neg h]
      exact ⟨by omega, Nat.mod_eq_of_lt ht⟩
  | false =>
    simp only [Bool.false_eq_true, if_false]
    have h4 : p * 2 ^ c.sw + t < 2 ^ c.mw := by
      have h5 : 2 ^ (c.sw + c.cl) ≤ 2 ^ c.mw := Nat.pow_le_pow_right (by omega) h1
      rw [Nat.pow_add] at h5
      have h6 : (p + 1) * 2 ^ c.sw ≤ 2 ^ c.cl * 2 ^ c.sw := Nat.mul_le_mul_right _ (by omega)
      rw [Nat.mul_comm (2 ^ c.sw)] at h5
      rw [Nat.add_mul] at h6
      omega
    rw [Nat.mod_eq_of_lt h4]
    refine ⟨?_, ?_⟩
    · split
      · rw [Nat.shiftRight_eq_div_pow, Nat.mul_comm, Nat.mul_add_div (Nat.two_pow_pos _), Nat.div_eq_of_lt ht]; omega
      · omega
    · rw [Nat.mul_comm, Nat.mul_add_mod, Nat.mod_eq_of_lt ht]

/-- A status that carries the tag with which a request left comes, in the next cycle, to the input of that request alone and with the tag it had there; that request was taken at that input. -/
theorem C88_status_returns (c : Cfg) (hc : c.Ok) (a : ArbMux.Cfg) (ha : a.ports = c.ports) (ins : Nat → ArbMux.In (Req β)) (n : Nat) (x : Nat × ArbMux.Beat (Req β))
    (hx : x ∈ ArbMux.delivered a ins n) (ht : x.2.val.tag < 2 ^ c.sw) (v : σ) :
    status c (some (c.out x.1 x.2.val.tag, v)) = some (x.1, x.2.val.tag, v) ∧ x.2 ∈ ArbMux.accepted a ins x.1 n := by
  have hp := ArbMux.C83_marked a ins n x hx
  rw [ha] at hp
  obtain ⟨e1, e2⟩ := out_back c hc x.1 x.2.val.tag hp ht
  refine ⟨?_, ?_⟩
  · show c.back _ _ = _
    unfold Cfg.back
    rw [e1, e2, if_pos hp]
  · obtain ⟨rest, h, _⟩ := ArbMux.C83_lossless a ins x.1 n
    rw [h]
    apply List.mem_append_left
    unfold ArbMux.ofPort
    exact List.mem_filterMap.2 ⟨x, hx, by simp⟩

/-- Requests of different inputs, or with different tags, leave with different tags. -/
theorem C88_tags_distinct (c : Cfg) (hc : c.Ok) (p q t u : Nat) (hp : p < c.ports) (hq : q < c.ports) (ht : t < 2 ^ c.sw) (hu : u < 2 ^ c.sw) (h : c.out p t = c.out q u) : p = q ∧ t = u := by
  obtain ⟨a1, a2⟩ := out_back c hc p t hp ht
  obtain ⟨b1, b2⟩ := out_back c hc q u hq hu
  rw [← h] at b1 b2
  exact ⟨by rw [← a1, b1], by rw [← a2, b2]⟩

/-- Descriptor data: output `p` gives the beats for input `p`, all of them, in order, with the tag the request had there; at most two are under way. -/
theorem C88_data_returns (c : Cfg) (hc : c.Ok) (src : Nat → Option (Nat × Nat × σ)) (rdy : Nat → Nat → Bool) (hf : ∀ n x, src n = some x → x.1 < c.ports ∧ x.2.1 < 2 ^ c.sw) (p n : Nat) :
    ∃ rest, ((din c src rdy n).filterMap fun x => if x.1 = p then some x.2 else none) = dout c (tagged c src) rdy p n ++ rest ∧ rest.length ≤ 2 := by
  obtain ⟨f, ef⟩ : ∃ f : Nat × Nat × σ → Option (Nat × σ), f = fun x => if x.1 = p then some x.2 else none := ⟨_, rfl⟩
  have key : ((dst c (tagged c src) rdy n).ready = true → (dst c (tagged c src) rdy n).temp = none) ∧
      (din c src rdy n).filterMap f = dout c (tagged c src) rdy p n ++ ((dst c (tagged c src) rdy n).m.toList ++ (dst c (tagged c src) rdy n).temp.toList).filterMap f := by
    induction n with
    | zero => exact ⟨fun _ => rfl, rfl⟩
    | succ n ih =>
      obtain ⟨i1, i2⟩ := ih
      obtain ⟨s, es⟩ : ∃ s, s = dst c (tagged c src) rdy n := ⟨_, rfl⟩
      rw [← es] at i1 i2
      have hst : dst c (tagged c src) rdy (n + 1) = dataStep c s (tagged c src n) (rdy n) := by rw [es]; rfl
      have hin : din c src rdy (n + 1) = din c src rdy n ++ if s.ready = true then (src n).toList else [] := by rw [es]; rfl
      have hout : dout c (tagged c src) rdy p (n + 1) = dout c (tagged c src) rdy p n ++ (if (s.m.any fun x => rdy n x.1) = true then s.m.toList else []).filterMap f := by
        have : dout c (tagged c src) rdy p (n + 1) = dout c (tagged c src) rdy p n ++ match s.m with | some x => if x.1 = p ∧ rdy n p = true then [x.2] else [] | none => [] := by rw [es]; rfl
        rw [this]
        congr 1
        cases hm : s.m with
        | none => simp
        | some x =>
          rw [ef]
          by_cases hx : x.1 = p
          · cases hr : rdy n p <;> simp [hx, hr]
          · cases hr : rdy n x.1 <;> simp [hx, hr]
      have hoff : (tagged c src n).bind (fun x => c.back x.1 x.2) = src n := by
        unfold tagged
        cases hs : src n with
        | none => rfl
        | some x =>
          obtain ⟨h1, h2⟩ := hf n x hs
          obtain ⟨e1, e2⟩ := out_back c hc x.1 x.2.1 h1 h2
          show c.back (c.out x.1 x.2.1) x.2.2 = some x
          unfold Cfg.back
          rw [e1, e2, if_pos h1]
      rw [hst, hin, hout]
      unfold dataStep
      rw [hoff]
      refine ⟨skid_temp i1, ?_⟩
      have := skid_flow (e := false) (s := s) (o := if s.ready = true then src n else none) (r := s.m.any fun x => rdy n x.1) i1 (by intro h; rw [h]; rfl)
      rw [List.filterMap_append, i2, List.append_assoc, List.append_assoc, ← List.filterMap_append, ← List.filterMap_append, this, RamDemux.ite_toList]
  rw [← ef]
  refine ⟨_, key.2, ?_⟩
  refine Nat.le_trans (List.length_filterMap_le _ _) ?_
  cases (dst c (tagged c src) rdy n).m <;> cases (dst c (tagged c src) rdy n).temp <;> simp

/-- The RAM select of a descriptor of input `p` leads RAM commands to port `p` of the RAM demultiplexer, with the select the client gave. -/
theorem C88_ram_returns (c : RamDemux.Cfg) (hc : c.Ok) (p sel : Nat) (hp : p < c.ports) (hs : sel < 2 ^ c.sw) (x : RamDemux.Cmd β) (hx : x.sel = ramSel c p sel) :
    RamDemux.Fits c (some x) ∧ RamDemux.target c x = (p, ⟨sel, x.val⟩) := by
  have e : ramSel c p sel = RamDemux.encode c p sel := by
    have h1 := hc.mw
    have h3 : 2 ^ c.sw ≤ 2 ^ (c.mw - c.cl) := Nat.pow_le_pow_right (by omega) (by omega)
    have h4 := hc.pos
    unfold ramSel RamDemux.encode
    by_cases h : c.ports > 1
    · rw [if_pos h, if_neg (by omega), Nat.mod_eq_of_lt (by omega : sel < 2 ^ (c.mw - c.cl)), Nat.add_comm]
    · rw [if_neg h, if_pos (by omega)]
  rw [e] at hx
  refine ⟨?_, RamDemux.C85_select c hc p sel hp hs x hx⟩
  intro y hy
  cases hy
  exact ⟨p, sel, hp, hs, hx⟩

/-! ### examples -/

/-- three inputs, tags of three bits, tags of five bits at the output -/
example : (⟨3, 2, 3, 5, false⟩ : Cfg).Ok ∧ (⟨3, 2, 3, 5, true⟩ : Cfg).Ok := ⟨⟨by decide, by decide, by decide⟩, ⟨by decide, by decide, by decide⟩⟩

/-- tag 5 of input 2 is 21 at the output, and comes back to 2 -/
example : (⟨3, 2, 3, 5, false⟩ : Cfg).out 2 5 = 21 ∧ status ⟨3, 2, 3, 5, false⟩ (some (21, ())) = some (2, 5, ()) := by decide

/-- with one bit to spare the two encodings differ -/
example : (⟨3, 2, 3, 6, false⟩ : Cfg).out 2 5 = 21 ∧ (⟨3, 2, 3, 6, true⟩ : Cfg).out 2 5 = 37 ∧ status ⟨3, 2, 3, 6, true⟩ (some (37, ())) = some (2, 5, ()) := by decide

/-- data for inputs 0, 1, 2 in turn; input 1 takes nothing before cycle 8 -/
def exSrc (n : Nat) : Option (Nat × Nat × Nat) := some (n % 3, 7 - n % 8, n)
def exRdy (n p : Nat) : Bool := decide (p ≠ 1 ∨ 8 ≤ n)

example : (List.range 3).map (fun p => dout ⟨3, 2, 3, 5, false⟩ (tagged ⟨3, 2, 3, 5, false⟩ exSrc) exRdy p 14) = [[(6, 9), (3, 12)], [(6, 1), (5, 10)], [(5, 2), (4, 11)]] := by
  set_option maxRecDepth 100000 in decide

end Corundum.TagMux
