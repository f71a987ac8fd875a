import Verif.Proof.MacCtrlRx
/-!
C138, C139: control frames found in the data stream (mac_ctrl_rx.v), and sent by mac_ctrl_tx.v.
-/
namespace Corundum.MacCtrl

/-- **C138.** If the transfers accepted are frames of at least 60 bytes and the beginning of one, then exactly the frames
that match the configuration are reported, each once, in order, with the fields that are in its bytes; and the data
output, with at most two transfers still in the module, is the data input, the frames that are reported marked as bad
unless they are to be forwarded. -/
theorem C138_reception (c : RxCfg) (hL : 0 < c.lanes) (hP : c.params ≤ 44) (m : Match) (ins : Nat → RxIn) (h0 : c.useReady = true ∨ (ins 0).s = none) (n : Nat)
    (fs : List (List Beat)) (part : List Beat) (ht : taken c m ins n = fs.flatten ++ part) (hf : ∀ f ∈ fs, FrameOk c.lanes f) (hp : ∀ b ∈ part, b.last = false) :
    told c m ins (n + 1) = fs.filterMap (reported c.lanes c.params m) ∧
    ∃ buf, buf.length ≤ 2 ∧ given c m ins n ++ buf = (fs.map (passed c.lanes c.params m)).flatten ++ part := by
  have I := rx_inv (m := m) h0 n
  obtain ⟨a1, a2⟩ := frames_scan hL hP m fs hf (List.replicate (16 + c.params) 0) (by simp) 0 0 0
  refine ⟨?_, (rx c m ins n).out.m.toList ++ (rx c m ins n).out.temp.toList, ?_, ?_⟩
  · rw [I.rep, ht, scanRep_append]
    show scanRep c m { hdr := _, id := 0, dest := 0, user := 0 } _ ++ _ = _
    rw [a2, (scan_part c m _ part hp).2, List.append_nil]
  · cases (rx c m ins n).out.m <;> cases (rx c m ins n).out.temp <;> simp
  · rw [I.out, ht, scanOut_append]
    show scanOut c m { hdr := _, id := 0, dest := 0, user := 0 } _ ++ _ = _
    rw [a1, (scan_part c m _ part hp).1]

/-- **C138.** Without USE_READY every transfer is accepted, and with a sink that is always ready also with USE_READY,
from the second cycle on. -/
theorem C138_rate (c : RxCfg) (m : Match) (ins : Nat → RxIn) (h : c.useReady = false ∨ ∀ k, (ins k).ready = true) (n : Nat) :
    (rx c m ins (n + 1)).sready = true := by
  show ((rx c m ins n).step c m (ins n)).sready = true
  unfold Rx.step
  dsimp only
  rcases h with h | h
  · rw [h]; split <;> simp
  · rw [h n]; split <;> simp

/-! ### round trip -/

theorem beat_kept {L : Nat} (g : Nat → Nat) (q : Nat) (b : Beat) (hd : b.data = (List.range L).map g) (hk : b.keep = (List.range L).map fun j => decide (q + j < 60)) :
    b.data.length = L ∧ (q + L ≤ 60 → b.keep = List.replicate L true) ∧
    (q ≤ 60 → 60 ≤ q + L → b.keep = List.replicate (60 - q) true ++ List.replicate (L - (60 - q)) false) := by
  refine ⟨by rw [hd]; simp, ?_, ?_⟩
  · intro h
    rw [hk]
    apply List.ext_getElem (by simp)
    intro j h1 h2
    simp at h1 h2 ⊢
    omega
  · intro h h'
    rw [hk]
    apply List.ext_getElem (by simp; omega)
    intro j h1 h2
    simp only [List.length_map, List.length_range] at h1
    rw [List.getElem_map, List.getElem_range, List.getElem_append]
    by_cases hj : j < 60 - q
    · simp [hj]; omega
    · simp [hj]; omega

theorem range_flat (x : List Nat) (L k : Nat) (hk : L * k ≤ x.length) : (List.range k).flatMap (fun p => (List.range L).map fun j => x.getD (L * p + j) 0) = x.take (L * k) := by
  induction k with
  | zero => simp
  | succ k ih =>
    rw [Nat.mul_succ] at hk
    rw [List.range_succ, List.flatMap_append, ih (by omega), Nat.mul_succ, List.take_add]
    congr 1
    simp only [List.flatMap_cons, List.flatMap_nil, List.append_nil]
    apply List.ext_getElem
    · simp; omega
    · intro j h1 h2
      simp at h1 h2 ⊢
      rw [List.getElem?_eq_getElem (by omega)]; rfl

/-- **C139.** The control frame that mac_ctrl_tx puts out for a request is a frame of 60 bytes, and if it matches the
configuration of the receiver, mac_ctrl_rx reports just that request. -/
theorem C139_roundtrip (lanes params : Nat) (hL : 0 < lanes) (hP : params ≤ 44) (m : Match) (r : Req) (hr : r.Ok params) (hw : Wanted m r (r.user % 2 == 1)) :
    FrameOk lanes (ctrlFrame lanes r) ∧ (payload (ctrlFrame lanes r)).length = 60 ∧ reported lanes params m (ctrlFrame lanes r) = some r := by
  have hb := beats_bounds hL
  have hb0 := beats_pos hL
  have hlb := last_beat hL
  generalize hB : beats lanes = B at *
  obtain ⟨T, rfl⟩ : ∃ T, B = T + 1 := ⟨B - 1, by omega⟩
  rw [Nat.mul_succ] at hb
  have hlen60 : (frameBytes r).length = 60 := by
    unfold frameBytes
    have h5 := hr.params
    simp [hr.dst, hr.src, hr.etype, hr.opcode, h5]
    omega
  let beat : Nat → Beat := fun p =>
    { data := (List.range lanes).map fun j => (frameBytes r).getD (lanes * p + j) 0
      keep := (List.range lanes).map fun j => decide (lanes * p + j < 60)
      last := decide (p + 1 = T + 1)
      id := r.id, dest := r.dest, user := r.user }
  have hF : ctrlFrame lanes r = (List.range T).map beat ++ [beat T] := by
    unfold ctrlFrame
    rw [hB, List.range_succ, List.map_append]; rfl
  have hfull : ∀ p, p < T → (beat p).data.length = lanes ∧ (beat p).keep = List.replicate lanes true ∧ (beat p).last = false := by
    intro p hp
    obtain ⟨k1, k2, _⟩ := beat_kept (L := lanes) _ (lanes * p) (beat p) rfl rfl
    have h1 : lanes * p + lanes ≤ lanes * T := by rw [← Nat.mul_succ]; exact Nat.mul_le_mul_left _ hp
    refine ⟨k1, k2 (by omega), ?_⟩
    show decide (p + 1 = T + 1) = false
    simp; omega
  obtain ⟨l1, _, l3⟩ := beat_kept (L := lanes) _ (lanes * T) (beat T) rfl rfl
  have l3 := l3 (by omega) (by omega)
  have hk := kept_part l1 (by omega) l3
  have hpay : payload (ctrlFrame lanes r) = frameBytes r := by
    rw [hF]
    obtain ⟨p1, _⟩ := payload_full (fs := (List.range T).map beat) (L := lanes) (by
      intro x hx
      obtain ⟨p, hp, rfl⟩ := List.mem_map.1 hx
      exact hfull p (List.mem_range.1 hp))
    show ((List.range T).map beat ++ [beat T]).flatMap kept = _
    rw [List.flatMap_append]
    have e1 : ((List.range T).map beat).flatMap kept = (frameBytes r).take (lanes * T) := by
      show payload _ = _
      rw [p1, List.flatMap_map]
      exact range_flat _ _ _ (by omega)
    have e2 : [beat T].flatMap kept = (frameBytes r).drop (lanes * T) := by
      simp only [List.flatMap_cons, List.flatMap_nil, List.append_nil]
      rw [hk]
      apply List.ext_getElem
      · rw [List.length_take, l1, List.length_drop]; omega
      · intro j h1 h2
        rw [List.getElem_take, List.getElem_drop]
        show ((List.range lanes).map fun j => (frameBytes r).getD (lanes * T + j) 0)[j]'_ = _
        rw [List.getElem_map, List.getElem_range, List.getD_eq_getElem?_getD]
        rw [List.length_drop] at h2
        rw [List.getElem?_eq_getElem (by omega)]; rfl
    rw [e1, e2, List.take_append_drop]
  have hat : at60 lanes (ctrlFrame lanes r) = beat T := by
    unfold at60
    rw [hlb, hF, List.getD_eq_getElem?_getD]
    simp
  have hreq : reqOf params (payload (ctrlFrame lanes r)) (at60 lanes (ctrlFrame lanes r)) = r := by
    rw [hpay, hat]
    obtain ⟨h1, h2, h3, h4, h5⟩ := hr
    obtain ⟨d, s, e, o, pr, i, de, u⟩ := r
    dsimp only at *
    have l1 : d.reverse.length = 6 := by simp [h1]
    have l2 : s.reverse.length = 6 := by simp [h2]
    have l3 : e.reverse.length = 2 := by simp [h3]
    have l4 : o.reverse.length = 2 := by simp [h4]
    unfold reqOf frameBytes
    dsimp only
    have a1 : (d.reverse ++ s.reverse ++ e.reverse ++ o.reverse ++ pr ++ List.replicate (44 - pr.length) 0).take 6 = d.reverse := by
      simp only [List.append_assoc]
      rw [List.take_append_of_le_length (by omega), List.take_of_length_le (by omega)]
    have a2 : ((d.reverse ++ s.reverse ++ e.reverse ++ o.reverse ++ pr ++ List.replicate (44 - pr.length) 0).drop 6).take 6 = s.reverse := by
      simp only [List.append_assoc]
      rw [show 6 = d.reverse.length by omega, List.drop_left, List.take_append_of_le_length (by omega), List.take_of_length_le (by omega)]
    have a3 : ((d.reverse ++ s.reverse ++ e.reverse ++ o.reverse ++ pr ++ List.replicate (44 - pr.length) 0).drop 12).take 2 = e.reverse := by
      rw [show d.reverse ++ s.reverse ++ e.reverse ++ o.reverse ++ pr ++ List.replicate (44 - pr.length) 0 = (d.reverse ++ s.reverse) ++ (e.reverse ++ (o.reverse ++ pr ++ List.replicate (44 - pr.length) 0)) by simp only [List.append_assoc]]
      rw [show 12 = (d.reverse ++ s.reverse).length by rw [List.length_append]; omega, List.drop_left, List.take_append_of_le_length (by omega), List.take_of_length_le (by omega)]
    have a4 : ((d.reverse ++ s.reverse ++ e.reverse ++ o.reverse ++ pr ++ List.replicate (44 - pr.length) 0).drop 14).take 2 = o.reverse := by
      rw [show d.reverse ++ s.reverse ++ e.reverse ++ o.reverse ++ pr ++ List.replicate (44 - pr.length) 0 = (d.reverse ++ s.reverse ++ e.reverse) ++ (o.reverse ++ (pr ++ List.replicate (44 - pr.length) 0)) by simp only [List.append_assoc]]
      rw [show 14 = (d.reverse ++ s.reverse ++ e.reverse).length by rw [List.length_append, List.length_append]; omega, List.drop_left, List.take_append_of_le_length (by omega), List.take_of_length_le (by omega)]
    have a5 : ((d.reverse ++ s.reverse ++ e.reverse ++ o.reverse ++ pr ++ List.replicate (44 - pr.length) 0).drop 16).take params = pr := by
      rw [show d.reverse ++ s.reverse ++ e.reverse ++ o.reverse ++ pr ++ List.replicate (44 - pr.length) 0 = (d.reverse ++ s.reverse ++ e.reverse ++ o.reverse) ++ (pr ++ List.replicate (44 - pr.length) 0) by simp only [List.append_assoc]]
      rw [show 16 = (d.reverse ++ s.reverse ++ e.reverse ++ o.reverse).length by rw [List.length_append, List.length_append, List.length_append]; omega, List.drop_left, List.take_append_of_le_length (by omega), List.take_of_length_le (by omega)]
    rw [a1, a2, a3, a4, a5, List.reverse_reverse, List.reverse_reverse, List.reverse_reverse, List.reverse_reverse]
  refine ⟨⟨(List.range T).map beat, beat T, 60 - lanes * T, hF, ?_, l1, ?_, by omega, l3, by rw [hpay, hlen60]; omega⟩, by rw [hpay, hlen60], ?_⟩
  · intro x hx
    obtain ⟨p, hp, rfl⟩ := List.mem_map.1 hx
    exact hfull p (List.mem_range.1 hp)
  · show decide (T + 1 = T + 1) = true
    simp
  · unfold reported
    rw [hreq]
    have : bad (ctrlFrame lanes r) = (r.user % 2 == 1) := by
      rw [hF]; unfold bad; simp; rfl
    rw [this, if_pos hw]

/-! ### frames that are too short -/

/-- the usual configuration: pause frames to the multicast address -/
def exMatch : Match :=
  { mcast := [1, 0, 0, 0xc2, 0x80, 1], checkMcast := true, ucast := [], checkUcast := false, src := [], checkSrc := false, etype := [8, 0x88]
    opLfc := [1, 0], checkLfc := true, opPfc := [1, 1], checkPfc := true, forward := false, enable := true }

/-- a frame of 14 bytes, no opcode in it; the lanes after its end hold what was there before -/
def exShort : List Beat :=
  [{ data := [1, 0x80, 0xc2, 0, 0, 1, 1, 2], keep := List.replicate 8 true, last := false, id := 0, dest := 0, user := 0 },
   { data := [3, 4, 5, 6, 0x88, 8, 0, 1], keep := [true, true, true, true, true, true, false, false], last := true, id := 0, dest := 0, user := 0 }]

def exRxIns : Nat → RxIn
  | 1 => { s := exShort[0]? }
  | 2 => { s := exShort[1]? }
  | _ => {}

/-- **C138.** With frames shorter than 60 bytes it is not so: a frame of 14 bytes, which ends before the opcode, is
reported as a pause frame, the opcode taken from lanes that are not part of the frame. -/
theorem C138_short_counterexample :
    (payload exShort).length = 14 ∧ taken ⟨8, 18, false⟩ exMatch exRxIns 4 = exShort ∧
    (told ⟨8, 18, false⟩ exMatch exRxIns 4).map (·.opcode) = [[1, 0]] := by
  refine ⟨by decide +kernel, by decide +kernel, by decide +kernel⟩

/-- the request of the example of C135, with an opcode of 1 and the multicast address, is wanted by this configuration -/
def exReq2 : Req := { dst := [1, 0, 0, 0xc2, 0x80, 1], src := [6, 5, 4, 3, 2, 1], etype := [8, 0x88], opcode := [1, 0], params := [0xff, 0xff], id := 3, dest := 2, user := 0 }
example : exReq2.Ok 2 ∧ Wanted exMatch exReq2 (exReq2.user % 2 == 1) := ⟨⟨rfl, rfl, rfl, rfl, rfl⟩, by decide⟩
def exRoundIns : Nat → RxIn
  | n => { s := if n = 0 then none else (ctrlFrame 32 exReq2)[n - 1]? }
example : taken ⟨32, 2, true⟩ exMatch exRoundIns 4 = [ctrlFrame 32 exReq2].flatten ++ [] ∧ told ⟨32, 2, true⟩ exMatch exRoundIns 5 = [exReq2] ∧
    (given ⟨32, 2, true⟩ exMatch exRoundIns 5).map (·.user) = [0, 1] := by
  refine ⟨by decide +kernel, by decide +kernel, by decide +kernel⟩
end Corundum.MacCtrl
