import Verif.Proof.DmaSource
import Verif.Proof.AxiRead
import Verif.Props.DmaSink
/-!
C145: what the stream DMA client reads from the RAM and puts out.
-/
namespace Corundum.DmaSource
open Corundum.Spec DmaSink

theorem flatRead_congr (ms : Nat) (m : Nat → Nat) (a b n : Nat) (h : a % ms = b % ms) :
    flatRead ms m a n = flatRead ms m b n := by
  unfold flatRead
  apply List.map_congr_left
  intro i _
  rw [Nat.add_mod, h, ← Nat.add_mod]

theorem data_eq (c : Cfg) (hc : c.Ok) (m : Nat → Nat) (a : Nat) (ha : c.k ∣ a) (hlt : a < 2 ^ c.aw) :
    ((List.range c.k).map fun j => m (a + j)) = flatRead (2 ^ c.aw) m a c.k := by
  unfold flatRead
  apply List.map_congr_left
  intro j hj
  have hj' : j < c.k := List.mem_range.1 hj
  congr 1
  have hd : c.k ∣ 2 ^ c.aw := Nat.pow_dvd_pow 2 (by have := hc.addr; omega)
  obtain ⟨x, hx⟩ := hd
  obtain ⟨y, rfl⟩ := ha
  rw [hx] at hlt ⊢
  have h1 : y < x := Nat.lt_of_mul_lt_mul_left hlt
  have h2 : c.k * (y + 1) ≤ c.k * x := Nat.mul_le_mul_left _ h1
  rw [Nat.mul_add] at h2
  rw [Nat.mod_eq_of_lt (by omega)]

theorem axis_spec (c : Cfg) (hc : c.Ok) (m junk : Nat → Nat) (user : Nat) : ∀ (r a R : Nat) (q rest : Queues),
    c.k ∣ a → a < 2 ^ c.aw → 0 < R → r = (R - 1) / c.k → (∀ n, q n = pend c (r + 1) a n ++ rest n) →
    ∃ bs, axisLoop c m junk (R % c.k) user r a q = some (rest, bs) ∧ Framed c.k bs ∧
      content bs = flatRead (2 ^ c.aw) m a R ∧ bs.map (·.user) = List.replicate (r + 1) user
  | 0, a, R, q, rest, ha, hlt, hR, hr, hq => by
    have hk := k_pos c
    have hRk : R ≤ c.k := by
      have := Nat.lt_of_div_eq_zero hk hr.symm
      omega
    have ht := take_eq c hc m junk a ha q rest fun n => by
      rw [hq n, pend, pend]
      split <;> rfl
    have hkeep : (if R % c.k > 0 then (2 ^ c.k - 1) >>> (c.k - R % c.k) else 2 ^ c.k - 1) = 2 ^ R - 1 := by
      by_cases h : R = c.k
      · rw [h, Nat.mod_self, if_neg (by omega)]
      · rw [Nat.mod_eq_of_lt (by omega), if_pos hR, ones_shr _ _ hRk]
    rw [axisLoop, ht]
    refine ⟨_, rfl, ⟨rfl, by simp, R, hRk, hkeep⟩, ?_, rfl⟩
    simp only [content, List.flatMap_cons, List.flatMap_nil, List.append_nil]
    rw [bytesOf_eq _ R hkeep]
    show List.take R ((List.range c.k).map fun j => m (a + j)) = _
    rw [data_eq c hc m a ha hlt, Axi.flatRead_take _ _ _ _ _ hRk]
  | r + 1, a, R, q, rest, ha, hlt, hR, hr, hq => by
    have hk := k_pos c
    have hRk : c.k < R := by
      refine Nat.lt_of_not_le fun h => ?_
      rw [Nat.div_eq_of_lt (by omega)] at hr
      omega
    have ht := take_eq c hc m junk a ha q (fun n => pend c (r + 1) ((a + c.k) % 2 ^ c.aw) n ++ rest n) fun n => by
      rw [hq n, pend]
      split <;> rfl
    obtain ⟨bs, h1, h2, h3, h4⟩ := axis_spec c hc m junk user r ((a + c.k) % 2 ^ c.aw) (R - c.k) _ rest
      (aligned c hc _ (Nat.dvd_add ha (Nat.dvd_refl _))) (Nat.mod_lt _ (Nat.two_pow_pos _)) (by omega) (by
        rw [show R - 1 = (R - c.k - 1) + c.k by omega, Nat.add_div_right _ hk] at hr
        omega) fun n => rfl
    have hoff : (R - c.k) % c.k = R % c.k := by
      rw [← Nat.mod_eq_sub_mod (by omega)]
    rw [hoff] at h1
    rw [axisLoop, ht]
    simp only [h1]
    refine ⟨_, rfl, ?_, ?_, ?_⟩
    · cases bs with
      | nil => exact h2.elim
      | cons b bs => exact ⟨rfl, by simp, rfl, h2⟩
    · simp only [content, List.flatMap_cons] at h3 ⊢
      rw [h3, bytesOf_eq _ c.k rfl, data_eq c hc m a ha hlt, Axi.flatRead_take _ _ _ _ _ (Nat.le_refl _),
        flatRead_congr _ _ _ (a + c.k) _ (Nat.mod_mod _ _), Axi.flatRead_append]
      congr 1
      omega
    · rw [List.map_cons, h4, List.replicate_succ (n := r + 1)]

theorem descs_spec (c : Cfg) (hc : c.Ok) (m junk : Nat → Nat) : ∀ (ds : List Desc) (q rest : Queues),
    (∀ d ∈ ds, 0 < d.len ∧ d.len < 2 ^ c.lw) →
    (∀ n, q n = (ds.flatMap fun d => pend c (count c d.len + 1) (d.addr / c.k * c.k % 2 ^ c.aw) n) ++ rest n) →
    ∃ fs, axisDescs c m junk ds q = some (rest, fs) ∧ fs.map Prod.fst = ds.map (·.tag) ∧
      (∀ f ∈ fs, Framed c.k f.2) ∧
      (fs.map fun f => content f.2) = ds.map (fun d => flatRead (2 ^ c.aw) m (d.addr / c.k * c.k) d.len) ∧
      (fs.map fun f => f.2.map (·.user)) = ds.map fun d => List.replicate ((d.len - 1) / c.k + 1) d.user
  | [], q, rest, _, hq => ⟨[], by
      have : q = rest := funext fun n => hq n
      rw [axisDescs, this], rfl, (fun _ h => by cases h), rfl, rfl⟩
  | d :: ds, q, rest, h, hq => by
    obtain ⟨h0, h1⟩ := h d (List.mem_cons_self ..)
    have hce := count_eq c hc d.len h0 h1
    obtain ⟨bs, a1, a2, a3, a4⟩ := axis_spec c hc m junk d.user (count c d.len) (d.addr / c.k * c.k % 2 ^ c.aw) d.len q
      (fun n => (ds.flatMap fun d => pend c (count c d.len + 1) (d.addr / c.k * c.k % 2 ^ c.aw) n) ++ rest n)
      (aligned c hc _ (Nat.dvd_mul_left _ _)) (Nat.mod_lt _ (Nat.two_pow_pos _)) h0 hce fun n => by
        rw [hq n, List.flatMap_cons, List.append_assoc]
    obtain ⟨fs, f1, f2, f3, f4, f5⟩ := descs_spec c hc m junk ds _ rest (fun d hd => h d (List.mem_cons_of_mem _ hd)) fun n => rfl
    have a1' : axisDesc c m junk d q = _ := a1
    rw [axisDescs, a1']
    simp only [f1]
    refine ⟨_, rfl, by rw [List.map_cons, f2, List.map_cons], ?_, ?_, ?_⟩
    · intro f hf
      rcases List.mem_cons.1 hf with rfl | hf
      · exact a2
      · exact f3 f hf
    · rw [List.map_cons, List.map_cons, f4]
      congr 1
      rw [a3]
      exact flatRead_congr _ _ _ _ _ (Nat.mod_mod _ _)
    · rw [List.map_cons, List.map_cons, f5, a4, hce]

/-- C145. For any list of descriptors, of any lengths and addresses, one frame is put out for each, in order, and one status
with its tag: the bytes of the RAM from its address on (a multiple of the lanes), exactly `len` of them, in full transfers but
the last, `tlast` on the last only, each transfer with the side data of the descriptor. Nothing read is left over, and what is
on the data lines of segments not read makes no difference. -/
theorem C145_frames (c : Cfg) (hc : c.Ok) (m junk : Nat → Nat) (ds : List Desc)
    (h : ∀ d ∈ ds, 0 < d.len ∧ d.len < 2 ^ c.lw) :
    ∃ fs, run c m junk ds = some (fun _ => [], fs) ∧ fs.map Prod.fst = ds.map (·.tag) ∧
      (∀ f ∈ fs, Framed c.k f.2) ∧
      (fs.map fun f => content f.2) = ds.map (fun d => flatRead (2 ^ c.aw) m (d.addr / c.k * c.k) d.len) ∧
      (fs.map fun f => f.2.map (·.user)) = ds.map fun d => List.replicate ((d.len - 1) / c.k + 1) d.user := by
  unfold run
  exact descs_spec c hc m junk ds _ _ h fun n => by rw [issueDescs_eq]; simp

/-- C145. What the sink has stored from a frame is what the source puts out for the same address and the length of the frame. -/
theorem C145_roundtrip (c : Cfg) (hc : c.Ok) (m junk : Nat → Nat) (addr len tag tag' user : Nat) (bs : List Beat)
    (hf : Framed c.k bs) (h0 : 0 < (content bs).length) (h1 : (content bs).length ≤ len) (h2 : len < 2 ^ c.lw)
    (h3 : len ≤ 2 ^ c.aw) :
    ∃ bs', run c ((DmaSink.run c [(⟨addr, len, tag⟩, bs)]).cmds.foldl (ramCmd c) m) junk
        [⟨addr, (content bs).length, tag', user⟩] = some (fun _ => [], [(tag', bs')]) ∧
      Framed c.k bs' ∧ content bs' = content bs := by
  obtain ⟨s1, _⟩ := C143_store c hc [(⟨addr, len, tag⟩, bs)] (by
    intro p hp
    rw [List.mem_singleton.1 hp]
    exact ⟨Nat.lt_of_lt_of_le h0 h1, h2, hf⟩) m
  obtain ⟨fs, f1, f2, f3, f4, _⟩ := C145_frames c hc
    ((DmaSink.run c [(⟨addr, len, tag⟩, bs)]).cmds.foldl (ramCmd c) m) junk [⟨addr, (content bs).length, tag', user⟩] (by
      intro d hd
      rw [List.mem_singleton.1 hd]
      exact ⟨h0, Nat.lt_of_le_of_lt h1 h2⟩)
  match fs, f1, f2, f3, f4 with
  | [(t, bs')], f1, f2, f3, f4 =>
    simp only [List.map_cons, List.map_nil, List.cons.injEq, and_true] at f2 f4
    rw [f2] at f1
    refine ⟨bs', f1, f3 _ (List.mem_singleton.2 rfl), ?_⟩
    rw [f4, s1]
    simp only [List.foldl_cons, List.foldl_nil]
    rw [List.take_of_length_le h1]
    unfold flatRead
    apply List.ext_getElem (by simp)
    intro i hi hi'
    rw [List.getElem_map, List.getElem_range]
    exact flatWrite_get _ _ _ _ i (Nat.le_trans h1 h3) hi'

/-- C145, failing case. With one lane and several lanes in a RAM word the part is taken from the wrong bits of the address
(PART_OFFSET_WIDTH is 1), so that another byte is read. -/
theorem C145_one_lane_counterexample :
    ∃ c : Cfg, c.ko = 0 ∧ (run c (fun a => 100 + a) (fun _ => 0) [⟨1, 1, 0, 0⟩]).map (·.2.map fun f => content f.2) =
      some [[100]] :=
  ⟨⟨0, 1, 0, 4, 3⟩, rfl, by decide +kernel⟩

/-- C145, failing case. A descriptor of length 0 is not rejected and puts out no empty frame: the count of cycles wraps round, to
eight full transfers for 3 bits of length. -/
theorem C145_zero_length_counterexample :
    ∃ c : Cfg, c.Ok ∧
      (run c (fun a => 100 + a) (fun _ => 0) [⟨0, 0, 0, 0⟩]).map (·.2.map fun f => (content f.2).length) = some [16] :=
  ⟨⟨1, 0, 1, 4, 3⟩, ⟨by decide, by decide, by decide, by decide, by decide⟩, by decide +kernel⟩

/-- a case meeting the hypotheses: three transfers of two segments in a word of four, beginning in the upper half, and a second
descriptor -/
example : (run ⟨2, 1, 1, 4, 4⟩ (fun a => 100 + a) (fun _ => 0) [⟨4, 10, 7, 1⟩, ⟨9, 3, 8, 2⟩]).map (·.2.map fun f => (f.1, content f.2)) =
    some [(7, [104, 105, 106, 107, 108, 109, 110, 111, 112, 113]), (8, [108, 109, 110])] := by decide +kernel

end Corundum.DmaSource
