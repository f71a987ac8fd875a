import Verif.Proof.PsdpLive

/-! C38: the segmented DMA RAM behaves as one flat memory. -/

namespace Corundum.PsdpRam

open Corundum.Spec

/-- C38. Under every interleaving of commands, clock edges, pauses on either side and response steps:
commands complete in the order issued, and every byte that no uncompleted command covers holds what the
completed writes, done one after another to a flat memory, leave there. -/
theorem C38_write (c : Cfg) (hsc : 0 < c.sc) (hsb : 0 < c.sbl) (m : Mem) (es : List WEv)
    (hv : ∀ w ∈ issued es, w.1 + w.2.length ≤ 2 ^ c.saw * (c.sc * c.sbl) ∧ ∀ d ∈ w.2, d < 256) :
    ∃ J, J ≤ (issued es).length ∧
      ((WSys.init m).run c es).completed = ((issued es).take J).map (fun w => (w.1, w.2.length)) ∧
      ∀ x, (∀ w ∈ (issued es).drop J, ¬ (w.1 ≤ x ∧ x < w.1 + w.2.length)) →
        ((WSys.init m).run c es).mem x =
          ((issued es).take J).foldl (fun m w => flatWrite c.space m w.1 w.2) m x := by
  obtain ⟨E, h⟩ := WInv.run hsc hsb es [] _ _ (WInv.init c m) (by rw [List.nil_append]; exact hv)
  rw [List.nil_append] at h
  exact ⟨_, h.jle, h.comp, fun x hx => h.content hsc hsb hv x hx⟩

/-- C38. Commands do complete: after any history, enough clock edges without pauses followed by enough
response steps complete every command, and the memory is then exactly the flat memory after all writes. -/
theorem C38_write_done (c : Cfg) (hsc : 0 < c.sc) (hsb : 0 < c.sbl) (m : Mem) (es : List WEv)
    (hv : ∀ w ∈ issued es, w.1 + w.2.length ≤ 2 ^ c.saw * (c.sc * c.sbl) ∧ ∀ d ∈ w.2, d < 256) :
    ∃ n k, ∀ es', es' = es ++ List.replicate n (.clk false false) ++ List.replicate k .resp →
      ((WSys.init m).run c es').completed = (issued es).map (fun w => (w.1, w.2.length)) ∧
      ((WSys.init m).run c es').mem = (issued es).foldl (fun m w => flatWrite c.space m w.1 w.2) m := by
  obtain ⟨n, k, h⟩ := write_live hsc hsb m es hv
  refine ⟨n, k, ?_⟩
  rintro _ rfl
  refine ⟨h, ?_⟩
  have hi : issued (es ++ List.replicate n (.clk false false) ++ List.replicate k .resp) = issued es := by
    rw [issued_append, issued_append]
    have h1 : ∀ n, issued (List.replicate n (WEv.clk false false)) = [] := by
      intro n; induction n with
      | zero => rfl
      | succ n ih => rw [List.replicate_succ]; exact ih
    have h2 : ∀ n, issued (List.replicate n WEv.resp) = [] := by
      intro n; induction n with
      | zero => rfl
      | succ n ih => rw [List.replicate_succ]; exact ih
    rw [h1, h2, List.append_nil, List.append_nil]
  obtain ⟨J, hJ, hc, hx⟩ := C38_write c hsc hsb m (es ++ List.replicate n (.clk false false) ++ List.replicate k .resp)
    (by rw [hi]; exact hv)
  rw [hi] at hJ hc hx
  have hl := congrArg List.length (h.symm.trans hc)
  simp only [List.length_map, List.length_take] at hl
  have hJ2 : J = (issued es).length := by omega
  funext x
  have := hx x (by rw [hJ2]; simp)
  rw [this, hJ2, List.take_length]

/-- C38. The master never indexes past the end of the data when it builds the lane values. -/
theorem C38_no_error (c : Cfg) (hsc : 0 < c.sc) (hsb : 0 < c.sbl) (addr : Nat) (data : List Nat)
    (hv : addr + data.length ≤ 2 ^ c.saw * (c.sc * c.sbl)) (hd : ∀ d ∈ data, d < 256) :
    (writeOps c addr data).2 = true ∧
      (writeOps c addr data).1.length = (data.length + addr % c.sbl + c.sbl - 1) / c.sbl ∧
      ∀ o ∈ (writeOps c addr data).1, o.1 < c.sc := by
  obtain ⟨h1, h2, h3, _⟩ := writeOps_spec c hsc hsb addr data hd hv
  exact ⟨h1, h2, h3.seg⟩

/-- C38. What one flat write means, byte by byte. -/
theorem C38_exact (c : Cfg) (m : Mem) (addr : Nat) (data : List Nat)
    (hv : addr + data.length ≤ 2 ^ c.saw * (c.sc * c.sbl)) (x : Nat) :
    flatWrite c.space m addr data x =
      if addr ≤ x then (data[x - addr]?).getD (m x) else m x := by
  have hsp : c.space = 2 ^ c.saw * (c.sc * c.sbl) := rfl
  by_cases h : addr ≤ x ∧ x < addr + data.length
  · rw [if_pos h.1]
    have := flatWrite_get c.space data m addr (x - addr) (by rw [hsp]; omega) (by omega)
    rw [Nat.add_sub_cancel' h.1, Nat.mod_eq_of_lt (by rw [hsp]; omega)] at this
    rw [this]
    simp [List.getElem?_eq_getElem (show x - addr < data.length by omega)]
  · have := flatWrite_other c.space data m addr x (by
      intro i hi e
      rw [Nat.mod_eq_of_lt (by rw [hsp]; omega)] at e
      omega)
    rw [this]
    split
    · rw [List.getElem?_eq_none (by omega)]; rfl
    · rfl

/-- C38. Under every interleaving, reads complete in the order issued and each returns exactly the bytes of
its range. -/
theorem C38_read (c : Cfg) (hsc : 0 < c.sc) (hsb : 0 < c.sbl) (m : Mem) (hm : ∀ x, m x < 256) (es : List REv)
    (hv : ∀ w ∈ rissued es, w.1 + w.2 ≤ 2 ^ c.saw * (c.sc * c.sbl)) :
    ∃ J, J ≤ (rissued es).length ∧ (RSys.init.run c m es).completed =
      ((rissued es).take J).map (fun w => (w.1, (List.range w.2).map fun i => m (w.1 + i))) := by
  obtain ⟨T, h⟩ := RInv.run hsc hsb hm es [] _ _ (RInv.init c m) (by rw [List.nil_append]; exact hv)
  rw [List.nil_append] at h
  refine ⟨_, h.jle, h.comp.trans ?_⟩
  apply List.map_congr_left
  intro w hw
  have := hv w (List.mem_of_mem_take hw)
  unfold flatRead
  congr 1
  apply List.map_congr_left
  intro i hi
  rw [List.mem_range] at hi
  rw [Nat.mod_eq_of_lt]
  show w.1 + i < 2 ^ c.saw * (c.sc * c.sbl)
  omega

/-- C38. And reads do complete once neither side pauses. -/
theorem C38_read_done (c : Cfg) (hsc : 0 < c.sc) (hsb : 0 < c.sbl) (m : Mem) (hm : ∀ x, m x < 256) (es : List REv)
    (hv : ∀ w ∈ rissued es, w.1 + w.2 ≤ 2 ^ c.saw * (c.sc * c.sbl)) :
    ∃ n k, (RSys.init.run c m (es ++ List.replicate n (.clk false false) ++ List.replicate k .resp)).completed =
      (rissued es).map (fun w => (w.1, (List.range w.2).map fun i => m (w.1 + i))) := by
  obtain ⟨n, k, h⟩ := read_live hsc hsb m hm es hv
  refine ⟨n, k, h.trans ?_⟩
  apply List.map_congr_left
  intro w hw
  have := hv w hw
  unfold flatRead
  congr 1
  apply List.map_congr_left
  intro i hi
  rw [List.mem_range] at hi
  rw [Nat.mod_eq_of_lt]
  show w.1 + i < 2 ^ c.saw * (c.sc * c.sbl)
  omega

/-! Concrete cases: three segments of four bytes, sixteen words deep. -/

def exCfg : Cfg := ⟨3, 4, 4⟩

/-- An unaligned write over four segment words, one of them a second visit to segment 1. -/
example : writeOps exCfg 6 [1, 2, 3, 4, 5, 6, 7, 8, 9, 10, 11] =
    ([(1, ⟨0, 0x02010000, 12⟩), (2, ⟨0, 0x06050403, 15⟩), (0, ⟨1, 0x0a090807, 15⟩), (1, ⟨1, 0x0b, 1⟩)], true) := by
  decide

def exRun : List WEv :=
  [.write 6 [1, 2, 3, 4, 5, 6, 7, 8, 9, 10, 11], .clk false false, .write 7 [99], .clk true false,
   .clk false true, .resp, .clk false false, .resp, .clk false false, .clk false false, .clk false false,
   .clk false false, .resp, .resp, .resp, .resp, .resp, .resp, .resp]

example : ((WSys.init fun _ => 0).run exCfg exRun).completed = [(6, 11), (7, 1)] := by decide

example : (List.range 13).map (fun i => ((WSys.init fun _ => 0).run exCfg exRun).mem (5 + i)) =
    [0, 1, 99, 3, 4, 5, 6, 7, 8, 9, 10, 11, 0] := by decide

def exReads : List REv :=
  [.read 6 11, .read 0 3, .clk false false, .clk false false, .resp, .clk true false, .clk false true,
   .clk false false, .clk false false, .clk false false, .clk false false, .clk false false, .clk false false,
   .clk false false, .clk false false, .resp, .resp, .resp, .resp, .resp, .resp, .resp, .resp]

example : (RSys.init.run exCfg (fun x => x % 256) exReads).completed =
    [(6, [6, 7, 8, 9, 10, 11, 12, 13, 14, 15, 16]), (0, [0, 1, 2])] := by decide

end Corundum.PsdpRam
