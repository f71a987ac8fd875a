import Verif.Proof.CfgFn
/-! Accesses of the root complex. -/
namespace Corundum.CfgSpace

theorem le_bit : ∀ (l : List Nat), (∀ b ∈ l, b < 256) → ∀ i, (le l).testBit i = (l[i / 8]?.getD 0).testBit (i % 8)
  | [], _, i => by simp [le]
  | b :: l, h, i => by
    have hb := h b (List.mem_cons_self ..)
    have e : b + 256 * le l = 2 ^ 8 * le l + b := by omega
    rw [le, e, Nat.testBit_two_pow_mul_add _ (show b < 2 ^ 8 from hb)]
    split
    · rw [show i / 8 = 0 from by omega, show i % 8 = i from by omega]; rfl
    · rename_i hi
      rw [le_bit l (fun x hx => h x (List.mem_cons_of_mem _ hx)) (i - 8), show i / 8 = (i - 8) / 8 + 1 from by omega, show (i - 8) % 8 = i % 8 from by omega]; rfl

theorem be_bit' : ∀ pad < 4, ∀ len ≤ 4, 1 ≤ len → pad + len ≤ 4 → be pad len < 16 ∧ ∀ k < 4, (be pad len).testBit k = decide (pad ≤ k ∧ k < pad + len) := by decide

theorem Kept.trans {f g h : Fn} (a : Kept f g) (b : Kept g h) : Kept f h :=
  ⟨b.bridge.trans a.bridge, b.caps.trans a.caps, b.barMask.trans a.barMask, b.b64.trans a.b64, b.mcap.trans a.mcap⟩

theorem configWrite_bits : ∀ (n : Nat) (f f' : Fn) (addr : Nat) (data : List Nat), (∀ b ∈ data, b < 256) → Layout f → configWrite n f addr data = some f' →
    Layout f' ∧ Kept f f' ∧ ∀ q rw w1c dev, Bits f q rw w1c dev → ∀ v, f.read q = some v →
      ∃ v', f'.read q = some v' ∧ ∀ i < 32, dev.testBit i = false → v'.testBit i = newBit addr data q rw w1c i (v.testBit i) := by
  intro n
  induction n with
  | zero =>
    intro f f' addr data hd L h
    cases data with
    | nil =>
      rw [configWrite] at h
      cases h
      refine ⟨L, ⟨rfl, rfl, rfl, rfl, rfl⟩, ?_⟩
      intro q rw w1c dev _ v hv
      refine ⟨v, hv, ?_⟩
      intro i _ _
      unfold newBit; simp
    | cons b data => rw [configWrite] at h <;> first | cases h | simp
  | succ n ih =>
    intro f f' addr data hd L h
    cases hdata : data with
    | nil =>
      subst hdata
      rw [configWrite] at h
      cases h
      refine ⟨L, ⟨rfl, rfl, rfl, rfl, rfl⟩, ?_⟩
      intro q rw w1c dev _ v hv
      refine ⟨v, hv, ?_⟩
      intro i _ _
      unfold newBit; simp
    | cons b rest =>
      have hlen : 1 ≤ data.length := by rw [hdata]; simp
      rw [hdata, configWrite, ← hdata] at h
      rw [← hdata]
      obtain ⟨f1, h1, h2⟩ := Option.bind_eq_some_iff.1 h
      obtain ⟨len, hlendef⟩ : ∃ len, len = min data.length (4 - addr % 4) := ⟨_, rfl⟩
      rw [← hlendef] at h1 h2
      have hl1 : 1 ≤ len := by omega
      have hl2 : addr % 4 + len ≤ 4 := by omega
      obtain ⟨hbe, hbk⟩ := be_bit' (addr % 4) (by omega) len (by omega) hl1 hl2
      obtain ⟨L1, K1⟩ := write_keeps L hbe h1
      obtain ⟨L2, K2, ih⟩ := ih f1 f' (addr + len) (data.drop len) (fun x hx => hd x (List.mem_of_mem_drop hx)) L1 h2
      refine ⟨L2, K1.trans K2, ?_⟩
      intro q rw w1c dev hb v hv
      by_cases hq : q = addr / 4
      · subst hq
        obtain ⟨v1, hv1, hbit⟩ := write_reg L hbe hb h1 hv
        obtain ⟨v2, hv2, hbit2⟩ := ih _ rw w1c dev (K1.bits hb) v1 hv1
        refine ⟨v2, hv2, ?_⟩
        intro i hi hdv
        rw [hbit2 i hi hdv]
        have hz : newBit (addr + len) (data.drop len) (addr / 4) rw w1c i (v1.testBit i) = v1.testBit i := by
          unfold newBit
          split
          · rename_i hge
            have : data.length ≤ len := by omega
            rw [List.getElem?_eq_none (by rw [List.length_drop]; omega)]
          · rfl
        rw [hz, hbit i hi hdv, hbk (i / 8) (by omega)]
        unfold newBit
        by_cases h3 : addr ≤ 4 * (addr / 4) + i / 8
        · rw [if_pos h3]
          by_cases h4 : 4 * (addr / 4) + i / 8 - addr < len
          · have h5 : addr % 4 ≤ i / 8 ∧ i / 8 < addr % 4 + len := by omega
            have hin : 4 * (addr / 4) + i / 8 - addr < data.length := by omega
            rw [List.getElem?_eq_getElem hin]
            simp only [h5, and_self, decide_true, if_true]
            rw [le_bit _ (by
              intro x hx
              rcases List.mem_append.1 hx with hx | hx
              · rw [(List.mem_replicate.1 hx).2]; omega
              · exact hd x (List.mem_of_mem_take hx)), List.getElem?_append_right (by rw [List.length_replicate]; exact h5.1), List.length_replicate, List.getElem?_take,
              if_pos (by omega), show i / 8 - addr % 4 = 4 * (addr / 4) + i / 8 - addr from by omega, List.getElem?_eq_getElem hin]
            rfl
          · have h5 : ¬ (addr % 4 ≤ i / 8 ∧ i / 8 < addr % 4 + len) := by omega
            rw [decide_eq_false h5, List.getElem?_eq_none (by omega)]
            simp
        · have h5 : ¬ (addr % 4 ≤ i / 8 ∧ i / 8 < addr % 4 + len) := by omega
          rw [if_neg h3, decide_eq_false h5]
          simp
      · have hv1 := write_others L hbe h1 hq
        obtain ⟨v2, hv2, hbit2⟩ := ih q rw w1c dev (K1.bits hb) v (hv1.trans hv)
        refine ⟨v2, hv2, ?_⟩
        intro i hi hdv
        rw [hbit2 i hi hdv]
        unfold newBit
        by_cases h3 : addr ≤ 4 * q + i / 8
        · by_cases h4 : addr + len ≤ 4 * q + i / 8
          · rw [if_pos h3, if_pos h4, List.getElem?_drop, show len + (4 * q + i / 8 - (addr + len)) = 4 * q + i / 8 - addr from by omega]
          · omega
        · rw [if_neg h3, if_neg (by omega)]

theorem bytes4_get (v : Nat) {k : Nat} (h : k < 4) : (bytes4 v)[k]? = some (v / 256 ^ k % 256) := by
  unfold bytes4
  rw [List.getElem?_map, List.getElem?_range h]; rfl

theorem readLoop_bytes (f : Fn) : ∀ (n addr len : Nat) (l : List Nat), readLoop f n addr len = some l →
    len ≤ l.length ∧ ∀ k < len, ∃ v, f.read ((addr + k) / 4) = some v ∧ l[k]? = some (v / 256 ^ ((addr + k) % 4) % 256) := by
  intro n
  induction n with
  | zero =>
    intro addr len l h
    cases len with
    | zero => rw [readLoop] at h; cases h; exact ⟨by simp, fun k hk => by omega⟩
    | succ len => rw [readLoop] at h; simp at h; simp
  | succ n ih =>
    intro addr len l h
    cases hlen : len with
    | zero => subst hlen; rw [readLoop] at h; cases h; exact ⟨by simp, fun k hk => by omega⟩
    | succ m =>
      rw [hlen, readLoop, show m.succ = len from hlen.symm] at h
      rw [← hlen]
      obtain ⟨v, hv, h⟩ := Option.bind_eq_some_iff.1 h
      obtain ⟨rest, hr, h⟩ := Option.bind_eq_some_iff.1 h
      cases h
      obtain ⟨e, he⟩ : ∃ e, e = min len (4 - addr % 4) := ⟨_, rfl⟩
      rw [← he] at hr
      obtain ⟨h1, h2⟩ := ih _ _ _ hr
      have hb4 : (bytes4 v).length = 4 := by simp [bytes4]
      refine ⟨by rw [List.length_append, List.length_drop, hb4]; omega, ?_⟩
      intro k hk
      by_cases hke : k < 4 - addr % 4
      · refine ⟨v, by rw [show (addr + k) / 4 = addr / 4 from by omega]; exact hv, ?_⟩
        rw [List.getElem?_append_left (by rw [List.length_drop, hb4]; omega), List.getElem?_drop, bytes4_get v (by omega), show (addr + k) % 4 = addr % 4 + k from by omega]
      · obtain ⟨w, hw1, hw2⟩ := h2 (k - e) (by omega)
        refine ⟨w, by rw [show addr + k = addr + e + (k - e) from by omega]; exact hw1, ?_⟩
        rw [List.getElem?_append_right (by rw [List.length_drop, hb4]; omega), List.length_drop, hb4, show k - (4 - addr % 4) = k - e from by omega, hw2,
          show addr + k = addr + e + (k - e) from by omega]

theorem readLoop_some (f : Fn) : ∀ (n addr len : Nat), len ≤ n → (∀ k < len, ∃ v, f.read ((addr + k) / 4) = some v) → ∃ l, readLoop f n addr len = some l := by
  intro n
  induction n with
  | zero => intro addr len h _; cases len with
    | zero => exact ⟨[], by rw [readLoop]⟩
    | succ m => omega
  | succ n ih =>
    intro addr len h hall
    cases hlen : len with
    | zero => exact ⟨[], by rw [readLoop]⟩
    | succ m =>
      rw [readLoop, show m.succ = len from hlen.symm]
      obtain ⟨e, he⟩ : ∃ e, e = min len (4 - addr % 4) := ⟨_, rfl⟩
      rw [← he]
      obtain ⟨v, hv⟩ := hall 0 (by omega)
      obtain ⟨l, hl⟩ := ih (addr + e) (len - e) (by omega) (by
        intro k hk
        obtain ⟨v, hv⟩ := hall (e + k) (by omega)
        exact ⟨v, by rw [Nat.add_assoc]; exact hv⟩)
      rw [Nat.add_zero] at hv
      refine ⟨(bytes4 v).drop (addr % 4) ++ l, ?_⟩
      show (f.read (addr / 4)).bind _ = _
      rw [hv]
      show (readLoop f n (addr + e) (len - e)).bind _ = _
      rw [hl]; rfl

/-! ### exceptions -/

def Wr.calm : Wr → Bool
  | .raise | .raiseIf _ => false
  | _ => true

theorem assign_calm (data mask : Nat) : ∀ (l : List Wr) (o : Obj), l.all Wr.calm = true → ∃ o', assign data mask o l = some o'
  | [], o, _ => ⟨o, rfl⟩
  | w :: l, o, h => by
    rw [List.all_cons, Bool.and_eq_true] at h
    have : ∃ o1, w.app data mask o = some o1 := by
      cases w <;> first | exact ⟨_, rfl⟩ | cases h.1
    obtain ⟨o1, h1⟩ := this
    rw [assign_cons, h1]
    exact assign_calm data mask l o1 h.2

theorem hdrCalms : (bools.all fun b => (List.range 16).all fun r => (b && r == 15) || (hdrWr b r).all Wr.calm) = true := by decide +kernel

theorem capCalms : (bools.all fun b64 => bools.all fun mc => kinds.all fun k => (List.range k.len).all fun r => (decide (k = .pcie) && r == 12) || (kWr b64 mc k r).all Wr.calm) = true := by decide +kernel

theorem assign_append (data mask : Nat) : ∀ (l m : List Wr) (o : Obj), assign data mask o (l ++ m) = (assign data mask o l).bind fun o => assign data mask o m
  | [], m, o => rfl
  | w :: l, m, o => by
    rw [List.cons_append, assign_cons, assign_cons]
    cases w.app data mask o with
    | none => rfl
    | some o1 => exact assign_append data mask l m o1

theorem assign_12 (data mask : Nat) (o : Obj) : (∃ o', assign data mask o (pcieWr 12) = some o') ↔ o .link_equalization_request = 0 := by
  constructor
  · rintro ⟨o', h⟩; exact leq_zero h
  · intro h
    obtain ⟨o1, h1⟩ := assign_calm data mask ((pcieWr 12).take 8) o (by decide)
    have e : pcieWr 12 = (pcieWr 12).take 8 ++ [.raiseIf .link_equalization_request] := rfl
    have h2 := assign_attr data mask .link_equalization_request _ o o1 h1 (by decide)
    rw [e, assign_append, h1]
    refine ⟨o1, ?_⟩
    show assign data mask o1 [.raiseIf .link_equalization_request] = some o1
    rw [assign_cons]
    simp only [Wr.app]
    rw [h2, h]; rfl

theorem write_total {f : Fn} (L : Layout f) (reg data mask : Nat) : (∃ f', f.write reg data mask = some f') ↔ ¬ Raises f reg := by
  have viaObj : ∀ (x : Option Obj), (∃ f', (x.map fun o => { f with obj := o }) = some f') ↔ ∃ o, x = some o := by
    intro x; cases x <;> simp
  obtain ⟨rw', w1c, dev, hb⟩ := bits_total f reg
  have nocap : reg < 16 → ¬ ∃ c ∈ f.caps, c.kind = .pcie ∧ reg = c.off + 12 ∧ f.obj .link_equalization_request ≠ 0 := by
    rintro h ⟨c, hc, -, e, -⟩
    have := L.range c hc; omega
  cases hb with
  | bar b hb =>
    rw [write_bar f hb]
    have hb' : 4 + b < 10 := by
      cases hf : f.bridge <;> simp [hf] at hb <;> omega
    refine ⟨fun _ => ?_, fun _ => ⟨_, rfl⟩⟩
    rintro (h | h)
    · omega
    · exact nocap (by omega) h
  | hdr reg hr hb =>
    rw [write_hdr f hr hb, viaObj]
    have hc := List.all_eq_true.1 (List.all_eq_true.1 hdrCalms f.bridge (mem_bools _)) reg (List.mem_range.2 hr)
    rw [Bool.or_eq_true] at hc
    rcases hc with hc | hc
    · simp only [Bool.and_eq_true, beq_iff_eq] at hc
      rw [hc.1, hc.2]
      constructor
      · rintro ⟨o, ho⟩
        have : assign data mask f.obj (hdrWr true 15) = none := rfl
        rw [this] at ho; cases ho
      · intro hn; exact absurd (Or.inl ⟨hc.1, rfl⟩) hn
    · refine ⟨fun _ => ?_, fun _ => assign_calm data mask _ _ hc⟩
      rintro (⟨h1, h2⟩ | h)
      · rw [h1, h2] at hc; cases hc
      · exact nocap hr h
  | cap c hcm r hr =>
    rw [write_cap L hcm hr, viaObj]
    have hrange := L.range c hcm
    have hc := List.all_eq_true.1 (List.all_eq_true.1 (List.all_eq_true.1 (List.all_eq_true.1 capCalms f.b64 (mem_bools _)) f.mcap (mem_bools _)) c.kind (mem_kinds _)) r (List.mem_range.2 hr)
    rw [Bool.or_eq_true] at hc
    rcases hc with hc | hc
    · simp only [Bool.and_eq_true, beq_iff_eq, decide_eq_true_eq] at hc
      rw [hc.1, hc.2]
      show (∃ o, assign data mask f.obj (pcieWr 12) = some o) ↔ _
      rw [assign_12]
      constructor
      · rintro h (h' | ⟨d, hd, hk, e, hz⟩)
        · omega
        · exact hz h
      · intro hn
        apply Classical.byContradiction
        intro hz
        exact hn (Or.inr ⟨c, hcm, hc.1, rfl, hz⟩)
    · refine ⟨fun _ => ?_, fun _ => assign_calm data mask _ _ hc⟩
      rintro (h' | ⟨d, hd, hk, e, hz⟩)
      · omega
      · have hlen : d.kind.len = 15 := by rw [hk]; rfl
        have h1 := L.find hd (r := 12) (by omega)
        have h2 := L.find hcm hr
        rw [e, h1] at h2
        cases h2
        have : r = 12 := by omega
        rw [hk, this] at hc
        cases hc
  | gap _ hr hn =>
    rw [write_gap hr hn]
    refine ⟨fun _ => ?_, fun _ => ⟨_, rfl⟩⟩
    rintro (h' | ⟨d, hd, hk, e, hz⟩)
    · omega
    · have := hn d hd
      rw [hk] at this
      simp only [Kind.len] at this
      omega

end Corundum.CfgSpace
