import Verif.Model.Tlp
import Verif.Proof.Frames
import Verif.Proof.Driver

namespace Corundum.Pcie
open Corundum.Struct

/-! ### Double words and bytes -/

def Bytes (l : List Nat) : Prop := ∀ b ∈ l, b < 256

theorem unpack4 {a b c d : Nat} : unpackLE 4 [a, b, c, d] = some (a + 256 * b + 65536 * c + 16777216 * d) := by
  unfold unpackLE valBE
  simp
  omega

theorem pack4 {a b c d : Nat} (ha : a < 256) (hb : b < 256) (hc : c < 256) (hd : d < 256) :
    packLE 4 (a + 256 * b + 65536 * c + 16777216 * d) = some [a, b, c, d] := by
  unfold packLE
  rw [if_pos (by simp; omega), Frames.bytesLE_4]
  congr 2
  · omega
  · congr 1
    · omega
    · congr 1
      · omega
      · congr 1; omega

theorem toDwords_spec : ∀ (n : Nat) (l : List Nat), l.length = 4 * n → Bytes l →
    ∃ ds, toDwords l = some ds ∧ ds.length = n ∧ toBytes ds = some l
  | 0, l, hl, _ => by
    have : l = [] := List.length_eq_zero_iff.mp (by omega)
    subst this
    exact ⟨[], by simp [toDwords], rfl, rfl⟩
  | n + 1, l, hl, hb => by
    match l, hl, hb with
    | a :: b :: c :: d :: rest, hl, hb =>
      simp only [List.length_cons] at hl
      obtain ⟨ds, h1, h2, h3⟩ := toDwords_spec n rest (by omega) (fun x hx => hb x (by simp [hx]))
      refine ⟨(a + 256 * b + 65536 * c + 16777216 * d) :: ds, ?_, by simp [h2], ?_⟩
      · simp only [toDwords, unpack4, h1]; rfl
      · simp only [toBytes]
        rw [pack4 (hb a (by simp)) (hb b (by simp)) (hb c (by simp)) (hb d (by simp)), h3]
        rfl
    | [], hl, _ => simp at hl
    | [_], hl, _ => simp at hl; omega
    | [_, _], hl, _ => simp at hl; omega
    | [_, _, _], hl, _ => simp at hl; omega

theorem toBytes_length : ∀ (ds l : List Nat), toBytes ds = some l → l.length = 4 * ds.length
  | [], l, h => by cases h; rfl
  | w :: ws, l, h => by
    simp only [toBytes] at h
    cases h1 : packLE 4 w with
    | none => rw [h1] at h; cases h
    | some a =>
      cases h2 : toBytes ws with
      | none => rw [h1, h2] at h; cases h
      | some b =>
        rw [h1, h2] at h
        cases h
        have := toBytes_length ws b h2
        have ha : a.length = 4 := by
          unfold packLE at h1
          split at h1
          · cases h1; simp [bytesLE]
          · cases h1
        simp only [List.length_append, List.length_cons, this, ha]
        omega

theorem slice_get (l : List Nat) (a b i : Nat) : (slice l a b)[i]? = if a + i < b then l[a + i]? else none := by
  unfold slice
  rw [List.getElem?_drop, List.getElem?_take]

theorem slice_length (l : List Nat) (a b : Nat) : (slice l a b).length = min b l.length - a := by
  unfold slice; simp

theorem sliceSet_get {l d : List Nat} {a : Nat} (h : a + d.length ≤ l.length) (i : Nat) :
    (sliceSet l a d)[i]? = if i < a then l[i]? else if i < a + d.length then d[i - a]? else l[i]? := by
  unfold sliceSet
  have hl : (l.take a).length = a := by simp; omega
  by_cases h1 : i < a
  · rw [if_pos h1, List.append_assoc, List.getElem?_append_left (by omega), List.getElem?_take, if_pos h1]
  · rw [if_neg h1, List.append_assoc, List.getElem?_append_right (by omega), hl]
    by_cases h2 : i < a + d.length
    · rw [if_pos h2, List.getElem?_append_left (by omega)]
    · rw [if_neg h2, List.getElem?_append_right (by omega), List.getElem?_drop]
      congr 1; omega

theorem sliceSet_length {l d : List Nat} {a : Nat} (h : a + d.length ≤ l.length) :
    (sliceSet l a d).length = l.length := by
  unfold sliceSet; simp; omega

theorem sliceSet_append (l x y : List Nat) (a : Nat) (h : a + x.length + y.length ≤ l.length) :
    sliceSet (sliceSet l a x) (a + x.length) y = sliceSet l a (x ++ y) := by
  apply List.ext_getElem?
  intro i
  have hx := sliceSet_length (l := l) (d := x) (a := a) (by omega)
  rw [sliceSet_get (by omega), sliceSet_get (by omega), sliceSet_get (by simp; omega)]
  simp only [List.length_append]
  by_cases h1 : i < a
  · rw [if_pos (by omega), if_pos h1, if_pos h1]
  · rw [if_neg h1, if_neg h1]
    by_cases h2 : i < a + x.length
    · rw [if_pos h2, if_pos h2, if_pos (by omega), List.getElem?_append_left (by omega)]
    · rw [if_neg h2]
      by_cases h3 : i < a + x.length + y.length
      · rw [if_pos h3, if_pos (by omega), List.getElem?_append_right (by omega)]
        congr 1; omega
      · rw [if_neg h3, if_neg h2, if_neg (by omega)]

/-! ### The scan over byte enables -/

/-- The scan over a list of byte enables. -/
def scanBits (addr : Nat) (data : List Nat) (L : List Bool) (s : Scan) : Scan :=
  L.foldl (fun s b => s.bit addr data b) s

structure ScanInv (addr : Nat) (data r : List Nat) (L : List Bool) (s : Scan) : Prop where
  off : s.offset = L.length
  len : s.region.length = r.length
  run : ∀ a, s.start = some a → a ≤ s.offset ∧ ∀ j, a ≤ j → j < s.offset → L[j]? = some true
  get : ∀ i, s.region[i]? =
    if addr ≤ i ∧ i - addr < s.start.getD s.offset ∧ L[i - addr]? = some true then data[i - addr]? else r[i]?

theorem flush_spec {addr : Nat} {data r : List Nat} {L : List Bool} {s : Scan} (h : ScanInv addr data r L s)
    (hd : L.length ≤ data.length) (hr : addr + L.length ≤ r.length) :
    (s.flush addr data).length = r.length ∧
    ∀ i, (s.flush addr data)[i]? = if addr ≤ i ∧ L[i - addr]? = some true then data[i - addr]? else r[i]? := by
  obtain ⟨h1, h2, h3, h4⟩ := h
  have hlt : ∀ j, L[j]? = some true → j < s.offset := by
    intro j hj
    rw [h1]
    rcases Nat.lt_or_ge j L.length with h | h
    · exact h
    · rw [List.getElem?_eq_none h] at hj; cases hj
  unfold Scan.flush
  cases hs : s.start with
  | none =>
    simp only
    refine ⟨h2, fun i => ?_⟩
    rw [h4 i, hs]
    simp only [Option.getD_none]
    by_cases hc : addr ≤ i ∧ L[i - addr]? = some true
    · rw [if_pos ⟨hc.1, hlt _ hc.2, hc.2⟩, if_pos hc]
    · rw [if_neg hc, if_neg (fun h => hc ⟨h.1, h.2.2⟩)]
  | some a =>
    simp only
    obtain ⟨ha, hrun⟩ := h3 a hs
    split
    · rename_i hne
      have hsl : (slice data a s.offset).length = s.offset - a := by rw [slice_length]; omega
      refine ⟨by rw [sliceSet_length (by omega)]; exact h2, fun i => ?_⟩
      rw [sliceSet_get (by omega), hsl]
      by_cases c1 : i < addr + a
      · rw [if_pos c1, h4 i, hs]
        simp only [Option.getD_some]
        by_cases hc : addr ≤ i ∧ L[i - addr]? = some true
        · rw [if_pos ⟨hc.1, by omega, hc.2⟩, if_pos hc]
        · rw [if_neg hc, if_neg (fun h => hc ⟨h.1, h.2.2⟩)]
      · rw [if_neg c1]
        by_cases c2 : i < addr + a + (s.offset - a)
        · rw [if_pos c2, slice_get, if_pos (by omega), if_pos ⟨by omega, hrun _ (by omega) (by omega)⟩]
          congr 1; omega
        · rw [if_neg c2, h4 i, hs]
          simp only [Option.getD_some]
          rw [if_neg (by omega), if_neg]
          intro hc
          have := hlt _ hc.2
          omega
    · rename_i hne
      have hne : s.offset = a := Classical.not_not.mp hne
      refine ⟨h2, fun i => ?_⟩
      rw [h4 i, hs]
      simp only [Option.getD_some]
      by_cases hc : addr ≤ i ∧ L[i - addr]? = some true
      · rw [if_pos ⟨hc.1, by have := hlt _ hc.2; omega, hc.2⟩, if_pos hc]
      · rw [if_neg hc, if_neg (fun h => hc ⟨h.1, h.2.2⟩)]

theorem bit_inv {addr : Nat} {data r : List Nat} {L : List Bool} {s : Scan} (h : ScanInv addr data r L s) (b : Bool)
    (hd : L.length ≤ data.length) (hr : addr + L.length ≤ r.length) :
    ScanInv addr data r (L ++ [b]) (s.bit addr data b) := by
  have hlt : ∀ j, j < L.length → (L ++ [b])[j]? = L[j]? := fun j hj => List.getElem?_append_left hj
  have hend : (L ++ [b])[L.length]? = some b := by simp
  have hge : ∀ j, L.length < j → (L ++ [b])[j]? = none := fun j hj => List.getElem?_eq_none (by simp; omega)
  cases b with
  | true =>
    have e : s.bit addr data true = { s with start := some (s.start.getD s.offset), offset := s.offset + 1 } := rfl
    rw [e]
    have hst : s.start.getD s.offset ≤ s.offset := by
      cases hs : s.start with
      | none => simp
      | some a => exact (h.run a hs).1
    refine ⟨by simp [h.off], h.len, ?_, ?_⟩
    · intro a ha
      simp only [Option.some.injEq] at ha
      refine ⟨by simp only; omega, ?_⟩
      intro j h1 h2
      simp only at h2
      by_cases hj : j = L.length
      · rw [hj]; exact hend
      · have hj' : j < L.length := by have := h.off; omega
        rw [hlt j hj']
        cases hs : s.start with
        | none =>
          rw [hs] at ha; simp only [Option.getD_none] at ha
          have := h.off; omega
        | some a' =>
          rw [hs] at ha; simp only [Option.getD_some] at ha
          exact (h.run a' hs).2 j (by omega) (by have := h.off; omega)
    · intro i
      simp only [Option.getD_some]
      rw [h.get i]
      have hoff := h.off
      by_cases hc : i - addr < s.start.getD s.offset
      · rw [hlt _ (by omega)]
      · rw [if_neg (by omega), if_neg (by omega)]
  | false =>
    have e : s.bit addr data false = { start := none, offset := s.offset + 1, region := s.flush addr data } := rfl
    rw [e]
    obtain ⟨f1, f2⟩ := flush_spec h hd hr
    have hoff := h.off
    refine ⟨by simp [hoff], f1, (by intro a ha; cases ha), ?_⟩
    intro i
    simp only [Option.getD_none]
    rw [f2 i]
    by_cases hc : i - addr < L.length
    · rw [hlt _ hc]
      by_cases hx : addr ≤ i ∧ L[i - addr]? = some true
      · rw [if_pos hx, if_pos ⟨hx.1, by omega, hx.2⟩]
      · rw [if_neg hx, if_neg (fun h => hx ⟨h.1, h.2.2⟩)]
    · rw [if_neg (by intro h; rw [List.getElem?_eq_none (by omega)] at h; exact nomatch h.2), if_neg]
      intro ⟨h1, h2, h3⟩
      by_cases hj : i - addr = L.length
      · rw [hj, hend] at h3; cases h3
      · rw [hge _ (by omega)] at h3; cases h3

theorem scanBits_inv (addr : Nat) (data r : List Nat) (M : List Bool) : ∀ (L : List Bool) (s : Scan),
    ScanInv addr data r L s → (L ++ M).length ≤ data.length → addr + (L ++ M).length ≤ r.length →
    ScanInv addr data r (L ++ M) (scanBits addr data M s) := by
  induction M with
  | nil => intro L s h _ _; simpa [scanBits] using h
  | cons b M ih =>
    intro L s h hd hr
    simp only [List.length_append, List.length_cons] at hd hr
    have := ih (L ++ [b]) (s.bit addr data b) (bit_inv h b (by omega) (by omega)) (by simp; omega) (by simp; omega)
    simpa [scanBits] using this

theorem scan_init (addr : Nat) (data r : List Nat) : ScanInv addr data r [] ⟨none, 0, r⟩ :=
  ⟨rfl, rfl, (by intro a h; cases h), by intro i; simp⟩

theorem bits_true (addr : Nat) (data : List Nat) (n : Nat) : ∀ s : Scan,
    scanBits addr data (List.replicate (n + 1) true) s =
      { s with start := some (s.start.getD s.offset), offset := s.offset + (n + 1) } := by
  induction n with
  | zero => intro s; rfl
  | succ n ih =>
    intro s
    rw [List.replicate_succ]
    show scanBits addr data (List.replicate (n + 1) true) (s.bit addr data true) = _
    rw [ih]
    simp only [Scan.bit, if_true, Option.getD_some]
    congr 1; omega

def maskBits (m : Nat) : List Bool := [m.testBit 0, m.testBit 1, m.testBit 2, m.testBit 3]

theorem mask_bits (addr : Nat) (data : List Nat) (m : Nat) (s : Scan) :
    s.mask addr data m = scanBits addr data (maskBits m) s := by
  unfold Scan.mask scanBits maskBits
  have h : ∀ k, (m &&& (1 <<< k) != 0) = m.testBit k := by
    intro k
    rw [Nat.one_shiftLeft]
    exact Driver.wrapBit_eq k m
  simp only [h]
  rfl

/-- The byte enables of a request, one per byte. -/
def enBits (t : Tlp) : List Bool :=
  maskBits t.firstBe ++ List.replicate ((t.length - 2) * 4) true ++ (if t.length > 1 then maskBits t.lastBe else [])

theorem enBits_length (t : Tlp) (h : 1 ≤ t.length) : (enBits t).length = 4 * t.length := by
  unfold enBits maskBits
  split <;> simp <;> omega

/-- Byte `j` of the request is enabled: first and last double word by their enables, the others always. -/
def enabled (t : Tlp) (j : Nat) : Bool :=
  if j < 4 then t.firstBe.testBit j
  else if j < 4 * (t.length - 1) then true
  else t.lastBe.testBit (j - 4 * (t.length - 1))

theorem maskBits_get (m k : Nat) (h : k < 4) : (maskBits m)[k]? = some (m.testBit k) := by
  unfold maskBits
  match k, h with
  | 0, _ => rfl
  | 1, _ => rfl
  | 2, _ => rfl
  | 3, _ => rfl

theorem enBits_get (t : Tlp) (j : Nat) (hj : j < 4 * t.length) : (enBits t)[j]? = some (enabled t j) := by
  unfold enBits enabled
  have hl : (maskBits t.firstBe).length = 4 := rfl
  by_cases h1 : j < 4
  · rw [if_pos h1, List.append_assoc, List.getElem?_append_left (by omega), maskBits_get _ _ h1]
  · rw [if_neg h1, List.append_assoc, List.getElem?_append_right (by omega), hl]
    by_cases h2 : j < 4 * (t.length - 1)
    · rw [if_pos h2, List.getElem?_append_left (by simp; omega), List.getElem?_replicate, if_pos (by omega)]
    · rw [if_neg h2, List.getElem?_append_right (by simp; omega), if_pos (by omega)]
      simp only [List.length_replicate]
      rw [show j - 4 - (t.length - 2) * 4 = j - 4 * (t.length - 1) by omega, maskBits_get _ _ (by omega)]

theorem scan_all (t : Tlp) (addr : Nat) (data r : List Nat) (h : 1 ≤ t.length) :
    ((Scan.mask addr data t.firstBe ⟨none, 0, r⟩).middle t.length).last addr data t =
      scanBits addr data (enBits t) ⟨none, 0, r⟩ := by
  unfold enBits scanBits
  rw [List.foldl_append, List.foldl_append, mask_bits]
  show _ = List.foldl _ (scanBits addr data (List.replicate _ true) (scanBits addr data (maskBits t.firstBe) _)) _
  generalize scanBits addr data (maskBits t.firstBe) ⟨none, 0, r⟩ = s
  have hm : s.middle t.length = scanBits addr data (List.replicate ((t.length - 2) * 4) true) s := by
    unfold Scan.middle
    split
    · rw [show (t.length - 2) * 4 = ((t.length - 2) * 4 - 1) + 1 by omega, bits_true]
    · rw [show (t.length - 2) * 4 = 0 by omega]; rfl
  rw [hm]
  generalize scanBits addr data (List.replicate ((t.length - 2) * 4) true) s = s'
  unfold Scan.last
  split
  · rw [mask_bits]; rfl
  · rfl

/-- The write handler changes exactly the enabled bytes. -/
theorem handleMemWrite_spec (t : Tlp) (region : List Nat) (addr chk : Nat) (bs : List Nat) (h1 : 1 ≤ t.length)
    (hd : toBytes t.data = some bs) (hl : t.data.length = t.length) (hchk : t.length * 4 ≤ 0x1000 - (chk &&& 0xfff))
    (hr : addr + 4 * t.length ≤ region.length) :
    ∃ r', handleMemWrite region addr chk t = some r' ∧ r'.length = region.length ∧
      ∀ i, r'[i]? = if addr ≤ i ∧ i < addr + 4 * t.length ∧ enabled t (i - addr) then bs[i - addr]? else region[i]? := by
  have hbl := toBytes_length _ _ hd
  have hel := enBits_length t h1
  have inv := scanBits_inv addr bs region (enBits t) [] _ (scan_init addr bs region) (by simp; omega) (by simp; omega)
  simp only [List.nil_append] at inv
  obtain ⟨f1, f2⟩ := flush_spec inv (by omega) (by omega)
  refine ⟨(scanBits addr bs (enBits t) ⟨none, 0, region⟩).flush addr bs, ?_, f1, ?_⟩
  · unfold handleMemWrite
    rw [if_neg (by omega), hd]
    show some (Scan.flush addr bs (((Scan.mask addr bs t.firstBe ⟨none, 0, region⟩).middle t.length).last addr bs t)) = _
    rw [scan_all t addr bs region h1]
  · intro i
    rw [f2 i]
    by_cases hc : addr ≤ i ∧ i < addr + 4 * t.length
    · rw [enBits_get t _ (by omega)]
      by_cases he : enabled t (i - addr) = true
      · rw [if_pos ⟨hc.1, by rw [he]⟩, if_pos ⟨hc.1, hc.2, he⟩]
      · rw [if_neg (fun h => he (Option.some.inj h.2)), if_neg (fun h => he h.2.2)]
    · rw [if_neg (fun h => hc ⟨h.1, by
        rcases Nat.lt_or_ge i (addr + 4 * t.length) with h' | h'
        · exact h'
        · have := h.2; rw [List.getElem?_eq_none (by omega)] at this; cases this⟩), if_neg (fun h => hc ⟨h.1, h.2.1⟩)]

/-! ### Byte enables of `set_be` -/

theorem setBe_len (t : Tlp) (addr n : Nat) (hn : 1 ≤ n) :
    4 * (setBe t addr n).length = addr % 4 + n + lastPad addr n ∧ lastPad addr n < 4 ∧ 1 ≤ (setBe t addr n).length := by
  have h1 : (setBe t addr n).length = (n + addr % 4 + lastPad addr n + 3) / 4 := rfl
  have h2 : lastPad addr n = 3 - (addr + n + 3) % 4 := rfl
  omega

theorem shl_mask (f : Nat) (hf : f < 4) (k : Nat) : ((0xf <<< f) &&& 0xf).testBit k = decide (f ≤ k ∧ k < 4) := by
  rcases Nat.lt_or_ge k 4 with hk | hk
  · have : ∀ f < 4, ∀ k < 4, ((0xf <<< f) &&& 0xf).testBit k = decide (f ≤ k ∧ k < 4) := by decide
    exact this f hf k hk
  · rw [Nat.testBit_and]
    have : (0xf : Nat).testBit k = false := Nat.testBit_lt_two_pow (Nat.lt_of_lt_of_le (by decide : 15 < 2 ^ 4) (Nat.pow_le_pow_right (by omega) hk))
    rw [this]
    simp; omega

theorem shr_mask (l : Nat) (_ : l < 4) (k : Nat) : (0xf >>> l).testBit k = decide (k + l < 4) := by
  rw [Nat.testBit_shiftRight]
  have : ∀ j, (0xf : Nat).testBit j = decide (j < 4) := by
    intro j
    rcases Nat.lt_or_ge j 4 with hj | hj
    · have : ∀ j < 4, (0xf : Nat).testBit j = decide (j < 4) := by decide
      exact this j hj
    · rw [Nat.testBit_lt_two_pow (Nat.lt_of_lt_of_le (by decide : 15 < 2 ^ 4) (Nat.pow_le_pow_right (by omega) hj))]
      simp; omega
  rw [this]
  congr 1
  simp only [eq_iff_iff]
  omega

/-- `set_be` enables exactly the addressed bytes. -/
theorem setBe_enabled (t : Tlp) (addr n : Nat) (hn : 1 ≤ n) (j : Nat) (hj : j < 4 * (setBe t addr n).length) :
    enabled (setBe t addr n) j = decide (addr % 4 ≤ j ∧ j < addr % 4 + n) := by
  obtain ⟨h1, h2, h3⟩ := setBe_len t addr n hn
  have hf4 : addr % 4 < 4 := Nat.mod_lt _ (by omega)
  have e1 : (setBe t addr n).firstBe = if (setBe t addr n).length = 1 then ((0xf <<< (addr % 4)) &&& 0xf) &&& (0xf >>> lastPad addr n)
      else (0xf <<< (addr % 4)) &&& 0xf := rfl
  have e2 : (setBe t addr n).lastBe = if (setBe t addr n).length = 1 then 0 else 0xf >>> lastPad addr n := rfl
  unfold enabled
  rw [e1, e2]
  generalize (setBe t addr n).length = q at *
  by_cases hq : q = 1
  · subst hq
    rw [if_pos (by omega), if_pos rfl, Nat.testBit_and, shl_mask _ hf4, shr_mask _ h2]
    rw [← Bool.decide_and]
    congr 1; simp only [eq_iff_iff]; omega
  · rw [if_neg hq, if_neg hq]
    by_cases c1 : j < 4
    · rw [if_pos c1, shl_mask _ hf4]
      congr 1; simp only [eq_iff_iff]; omega
    · rw [if_neg c1]
      by_cases c2 : j < 4 * (q - 1)
      · rw [if_pos c2]
        symm; rw [decide_eq_true_iff]; omega
      · rw [if_neg c2, shr_mask _ h2]
        congr 1; simp only [eq_iff_iff]; omega

theorem setBe_first (t : Tlp) (addr n : Nat) (hn : 1 ≤ n) : firstBeOffset (setBe t addr n) = addr % 4 := by
  obtain ⟨h1, h2, h3⟩ := setBe_len t addr n hn
  have hf4 : addr % 4 < 4 := Nat.mod_lt _ (by omega)
  have e1 : (setBe t addr n).firstBe = if (setBe t addr n).length = 1 then ((0xf <<< (addr % 4)) &&& 0xf) &&& (0xf >>> lastPad addr n)
      else (0xf <<< (addr % 4)) &&& 0xf := rfl
  unfold firstBeOffset
  rw [e1]
  generalize (setBe t addr n).length = q at *
  generalize lastPad addr n = lp at *
  generalize addr % 4 = fp at *
  by_cases hq : q = 1
  · rw [if_pos hq]
    have : ∀ fp < 4, ∀ lp < 4, fp + lp < 4 → (if (0xf <<< fp &&& 0xf &&& 0xf >>> lp) &&& 7 = 0 then 3
        else if (0xf <<< fp &&& 0xf &&& 0xf >>> lp) &&& 3 = 0 then 2
        else if (0xf <<< fp &&& 0xf &&& 0xf >>> lp) &&& 1 = 0 then 1 else 0) = fp := by decide
    exact this fp hf4 lp h2 (by omega)
  · rw [if_neg hq]
    have : ∀ fp < 4, (if (0xf <<< fp &&& 0xf) &&& 7 = 0 then 3
        else if (0xf <<< fp &&& 0xf) &&& 3 = 0 then 2
        else if (0xf <<< fp &&& 0xf) &&& 1 = 0 then 1 else 0) = fp := by decide
    exact this fp hf4

theorem setBe_last (t : Tlp) (addr n : Nat) (hn : 1 ≤ n) : lastBeOffset (setBe t addr n) = lastPad addr n := by
  obtain ⟨h1, h2, h3⟩ := setBe_len t addr n hn
  have hf4 : addr % 4 < 4 := Nat.mod_lt _ (by omega)
  have e1 : (setBe t addr n).firstBe = if (setBe t addr n).length = 1 then ((0xf <<< (addr % 4)) &&& 0xf) &&& (0xf >>> lastPad addr n)
      else (0xf <<< (addr % 4)) &&& 0xf := rfl
  have e2 : (setBe t addr n).lastBe = if (setBe t addr n).length = 1 then 0 else 0xf >>> lastPad addr n := rfl
  unfold lastBeOffset
  simp only
  rw [e1, e2]
  generalize (setBe t addr n).length = q at *
  generalize lastPad addr n = lp at *
  generalize addr % 4 = fp at *
  by_cases hq : q = 1
  · rw [if_pos hq, if_pos hq]
    have : ∀ fp < 4, ∀ lp < 4, fp + lp < 4 → (if (0xf <<< fp &&& 0xf &&& 0xf >>> lp) &&& 0xf = 1 then 3
        else if (0xf <<< fp &&& 0xf &&& 0xf >>> lp) &&& 0xe = 2 then 2
        else if (0xf <<< fp &&& 0xf &&& 0xf >>> lp) &&& 0xc = 4 then 1 else 0) = lp := by decide
    exact this fp hf4 lp h2 (by omega)
  · rw [if_neg hq, if_neg hq]
    have : ∀ lp < 4, (if (0xf >>> lp) &&& 0xf = 1 then 3
        else if (0xf >>> lp) &&& 0xe = 2 then 2
        else if (0xf >>> lp) &&& 0xc = 4 then 1 else 0) = lp := by decide
    exact this lp h2

theorem setBe_count (t : Tlp) (addr n : Nat) (hn : 1 ≤ n) : beByteCount (setBe t addr n) = n := by
  obtain ⟨h1, h2, h3⟩ := setBe_len t addr n hn
  unfold beByteCount
  rw [setBe_first t addr n hn, setBe_last t addr n hn]
  omega

/-! ### Memory write -/

theorem and_fff (a : Nat) : a &&& 0xfff = a % 4096 := Nat.and_two_pow_sub_one_eq_mod a 12

theorem setBeData_spec (t : Tlp) (addr : Nat) (bs : List Nat) (hb : Bytes bs) (hn : 1 ≤ bs.length) :
    ∃ ds, setBeData t addr bs = some { setBe t addr bs.length with data := ds } ∧
      ds.length = (setBe t addr bs.length).length ∧
      toBytes ds = some (List.replicate (addr % 4) 0 ++ bs ++ List.replicate (lastPad addr bs.length) 0) := by
  obtain ⟨h1, h2, h3⟩ := setBe_len t addr bs.length hn
  have hlen : (List.replicate (firstPad addr) 0 ++ bs ++ List.replicate (lastPad addr bs.length) 0).length =
      4 * (setBe t addr bs.length).length := by
    simp [firstPad]; omega
  obtain ⟨ds, d1, d2, d3⟩ := toDwords_spec _ _ hlen (by
    intro x hx
    simp only [List.mem_append, List.mem_replicate] at hx
    rcases hx with (hx | hx) | hx
    · omega
    · exact hb x hx
    · omega)
  refine ⟨ds, ?_, d2, d3⟩
  unfold setBeData setData
  rw [d1, Option.map_some, d2]

/-- One write request stores its bytes. -/
theorem write_one (t : Tlp) (addr : Nat) (bs region : List Nat) (off chk : Nat) (hb : Bytes bs) (hn : 1 ≤ bs.length)
    (hchk : addr % 4 + bs.length + chk % 4096 ≤ 4096) (hc4 : chk % 4 = 0) (hr : off + addr % 4 + bs.length ≤ region.length)
    (hr4 : off % 4 = 0) (hrl : region.length % 4 = 0) :
    ∃ u, setBeData t addr bs = some u ∧ handleMemWrite region off chk u = some (sliceSet region (off + addr % 4) bs) := by
  obtain ⟨ds, d1, d2, d3⟩ := setBeData_spec t addr bs hb hn
  obtain ⟨h1, h2, h3⟩ := setBe_len t addr bs.length hn
  refine ⟨_, d1, ?_⟩
  have hf4 : addr % 4 < 4 := Nat.mod_lt _ (by omega)
  have hlp : lastPad addr bs.length = 3 - (addr + bs.length + 3) % 4 := rfl
  obtain ⟨r', e1, e2, e3⟩ := handleMemWrite_spec { setBe t addr bs.length with data := ds } region off chk _ h3 d3 d2
    (by rw [and_fff]; show (setBe t addr bs.length).length * 4 ≤ _; omega)
    (by show off + 4 * (setBe t addr bs.length).length ≤ _; omega)
  rw [e1]
  congr 1
  apply List.ext_getElem?
  intro i
  rw [e3 i, sliceSet_get hr]
  simp only
  have henab : ∀ j, enabled { setBe t addr bs.length with data := ds } j = enabled (setBe t addr bs.length) j := fun _ => rfl
  rw [henab]
  by_cases c0 : off ≤ i ∧ i < off + 4 * (setBe t addr bs.length).length
  · rw [setBe_enabled t addr bs.length hn _ (by omega)]
    by_cases c1 : i < off + addr % 4
    · rw [if_pos c1, if_neg (by simp; omega)]
    · rw [if_neg c1]
      by_cases c2 : i < off + addr % 4 + bs.length
      · rw [if_pos c2, if_pos (by simp; omega), List.append_assoc, List.getElem?_append_right (by simp; omega),
          List.getElem?_append_left (by simp; omega)]
        congr 1; simp; omega
      · rw [if_neg c2, if_neg (by simp; omega)]
  · rw [if_neg (fun h => c0 ⟨h.1, h.2.1⟩)]
    by_cases c1 : i < off + addr % 4
    · rw [if_pos c1]
    · rw [if_neg c1, if_neg (by omega)]

theorem bytes_take {l : List Nat} (h : Bytes l) (k : Nat) : Bytes (l.take k) := fun x hx => h x (List.mem_of_mem_take hx)
theorem bytes_drop {l : List Nat} (h : Bytes l) (k : Nat) : Bytes (l.drop k) := fun x hx => h x (List.mem_of_mem_drop hx)

theorem writeLen_spec (mps addr n : Nat) (hn : 1 ≤ n) :
    1 ≤ writeLen mps addr n ∧ writeLen mps addr n ≤ n ∧ addr % 4 + writeLen mps addr n ≤ 128 * 2 ^ mps ∧
    addr % 4096 + writeLen mps addr n ≤ 4096 := by
  unfold writeLen firstPad
  rw [and_fff, Nat.shiftLeft_eq]
  have : 1 ≤ 2 ^ mps := Nat.two_pow_pos mps
  have : 128 * 1 ≤ 128 * 2 ^ mps := Nat.mul_le_mul_left _ this
  have : addr % 4096 < 4096 := Nat.mod_lt _ (by omega)
  have : addr % 4 < 4 := Nat.mod_lt _ (by omega)
  omega

/-- The completer maps the request address `a` (double-word aligned) to a region offset and a checked address. -/
structure Maps (base size : Nat) (off chk : Nat → Nat) : Prop where
  base4 : base % 4 = 0
  size4 : size % 4 = 0
  offEq : ∀ a, base ≤ a → a < base + size → a % 4 = 0 → off a = a - base
  chk4 : ∀ a, base ≤ a → a < base + size → a % 4 = 0 → chk a % 4 = 0
  page : ∀ a l, base ≤ a → a + l ≤ base + size → a % 4 = 0 → 1 ≤ l → a % 4096 + l ≤ 4096 → chk a % 4096 + l ≤ 4096

theorem ep_maps {k base size : Nat} (hk : 2 ≤ k) (hb : base % 2 ^ k = 0) (hs : size ≤ 2 ^ k) (hs4 : size % 4 = 0) :
    Maps base size (· % 2 ^ k) (· % 2 ^ k) := by
  have h4 : 4 ∣ 2 ^ k := Nat.pow_dvd_pow 2 hk
  have hb4 : base % 4 = 0 := Nat.mod_eq_zero_of_dvd (Nat.dvd_trans h4 (Nat.dvd_of_mod_eq_zero hb))
  have hoff : ∀ a, base ≤ a → a < base + size → a % 2 ^ k = a - base := by
    intro a h1 h2
    obtain ⟨c, hc⟩ := Nat.dvd_of_mod_eq_zero hb
    rw [show a = (a - base) + 2 ^ k * c by omega, Nat.add_mul_mod_self_left, Nat.mod_eq_of_lt (by omega)]
    omega
  refine ⟨hb4, hs4, fun a h1 h2 _ => hoff a h1 h2, ?_, ?_⟩
  · intro a h1 h2 h3
    show a % 2 ^ k % 4 = 0
    rw [hoff a h1 h2]; omega
  · intro a l h1 h2 h3 h4 h5
    show a % 2 ^ k % 4096 + l ≤ 4096
    rcases Nat.lt_or_ge k 12 with hk' | hk'
    · have : 2 ^ k ≤ 2 ^ 12 := Nat.pow_le_pow_right (by omega) (by omega)
      rw [hoff a h1 (by omega)]
      have := Nat.mod_le (a - base) 4096
      omega
    · rw [Nat.mod_mod_of_dvd _ (Nat.pow_dvd_pow 2 hk' : 2 ^ 12 ∣ 2 ^ k)]
      exact h5

theorem rc_maps {base size : Nat} (hb : base % 4 = 0) (hs4 : size % 4 = 0) :
    Maps base size (· - base) (fun a => a) :=
  ⟨hb, hs4, fun _ _ _ _ => rfl, fun _ _ _ h => h, fun _ _ _ _ _ _ h => h⟩

theorem setBe_address (t : Tlp) (addr n : Nat) : (setBe t addr n).address = addr - addr % 4 := rfl

theorem memWrite_spec (mps : Nat) (req : Id) (attr tc base : Nat) (off chk : Nat → Nat) : ∀ (fuel addr : Nat) (data region : List Nat),
    data.length ≤ fuel → Bytes data → Maps base region.length off chk → base ≤ addr → addr + data.length ≤ base + region.length →
    ∃ ts, memWrite mps req attr tc fuel addr data = some ts ∧
      ts.foldlM (fun r t => handleMemWrite r (off t.address) (chk t.address) t) region = some (sliceSet region (addr - base) data) ∧
      ∀ t ∈ ts, check t = true ∧ t.length = t.data.length ∧ 1 ≤ t.length ∧ 4 * t.length ≤ 128 * 2 ^ mps ∧
        t.requester = req ∧ t.typ = 0 ∧ t.attr = attr ∧ t.tc = tc ∧ (t.fmt = 2 ∨ t.fmt = 3) ∧ (t.fmt = 3 ↔ 2 ^ 32 ≤ t.address)
  | 0, addr, data, region, hf, _, _, h1, h2 => by
    have : data = [] := List.length_eq_zero_iff.mp (by omega)
    subst this
    exact ⟨[], rfl, by simp [sliceSet], by simp⟩
  | fuel + 1, addr, data, region, hf, hb, hm, h1, h2 => by
    by_cases hd : data = []
    · subst hd
      exact ⟨[], by simp [memWrite], by simp [sliceSet], by simp⟩
    · have hl : 1 ≤ data.length := List.length_pos_iff.mpr hd
      obtain ⟨w1, w2, w3, w4⟩ := writeLen_spec mps addr data.length hl
      generalize hk : writeLen mps addr data.length = k at *
      have htl : (data.take k).length = k := by simp; omega
      have hbt := bytes_take hb k
      have hb4 := hm.base4
      have hs4 := hm.size4
      have ho := hm.offEq (addr - addr % 4) (by omega) (by omega) (by omega)
      have hc := hm.chk4 (addr - addr % 4) (by omega) (by omega) (by omega)
      have hp := hm.page (addr - addr % 4) (addr % 4 + k) (by omega) (by omega) (by omega) (by omega) (by omega)
      let t0 : Tlp := { fmt := if addr > 0xffffffff then 3 else 2, typ := 0, requester := req, attr := attr, tc := tc }
      obtain ⟨u, u1, u2⟩ := write_one t0 addr (data.take k) region (off (addr - addr % 4)) (chk (addr - addr % 4)) hbt
        (by omega) (by omega) hc (by omega) (by omega) hs4
      obtain ⟨ds, v1, v2, v3⟩ := setBeData_spec t0 addr (data.take k) hbt (by omega)
      have hu : u = { setBe t0 addr (data.take k).length with data := ds } := Option.some.inj (u1.symm.trans v1)
      have hua : u.address = addr - addr % 4 := by rw [hu]; exact setBe_address t0 addr (data.take k).length
      have hsl := sliceSet_length (l := region) (d := data.take k) (a := addr - base) (by omega)
      obtain ⟨ts, t1, t2, t3⟩ := memWrite_spec mps req attr tc base off chk fuel (addr + k) (data.drop k)
        (sliceSet region (addr - base) (data.take k)) (by simp; omega) (bytes_drop hb k) (by rw [hsl]; exact hm) (by omega)
        (by rw [hsl]; simp; omega)
      refine ⟨u :: ts, ?_, ?_, ?_⟩
      · rw [memWrite, if_neg hd]
        simp only [hk]
        show (setBeData t0 addr (data.take k)).bind _ = _
        rw [u1, t1]; rfl
      · rw [List.foldlM_cons, hua, u2]
        show List.foldlM _ (sliceSet region (off (addr - addr % 4) + addr % 4) (data.take k)) ts = _
        rw [show off (addr - addr % 4) + addr % 4 = addr - base by omega, t2,
          show addr + k - base = addr - base + (data.take k).length by omega,
          sliceSet_append _ _ _ _ (by simp; omega), List.take_append_drop]
      · intro t ht
        rcases List.mem_cons.mp ht with ht | ht
        · have hlen := setBe_len t0 addr (data.take k).length (by omega)
          have hul : u.length = (setBe t0 addr (data.take k).length).length := by rw [hu]
          have hlp : lastPad addr (data.take k).length = 3 - (addr + (data.take k).length + 3) % 4 := rfl
          have hdl : u.length = u.data.length := by rw [hu]; exact v2.symm
          have hpow : 128 * 2 ^ mps % 4 = 0 := by omega
          have hfm : u.fmt = if addr > 0xffffffff then 3 else 2 := by rw [hu]; rfl
          have hty : u.typ = 0 := by rw [hu]; rfl
          rw [ht]
          refine ⟨?_, hdl, by omega, by omega, by rw [hu]; rfl, hty, by rw [hu]; rfl, by rw [hu]; rfl, ?_, ?_⟩
          · unfold check
            have hmem : u.length * 4 ≤ 0x1000 - (u.address &&& 0xfff) := by rw [and_fff, hua]; omega
            rw [hty, hfm]
            simp only [hdl, beq_self_eq_true, Bool.or_true, Bool.true_and] at hmem ⊢
            simp only [hmem, decide_true, Bool.or_true, Bool.true_and]
            split <;> rfl
          · rw [hfm]; split <;> simp
          · rw [hfm, hua]; split <;> simp <;> omega
        · exact t3 t ht

/-! ### Memory read -/

theorem and_7f (a : Nat) : a &&& 0x7f = a % 128 := Nat.and_two_pow_sub_one_eq_mod a 7
theorem and_3 (a : Nat) : a &&& 3 = a % 4 := Nat.and_two_pow_sub_one_eq_mod a 2
theorem and_7c (a : Nat) : (a &&& 0x7c) >>> 2 = a % 128 / 4 := by
  rw [Nat.shiftRight_and_distrib]
  show a >>> 2 &&& 31 = _
  rw [Nat.and_two_pow_sub_one_eq_mod (a >>> 2) 5, Nat.shiftRight_eq_div_pow]
  omega

theorem slice_slice (l : List Nat) (a b o c : Nat) : slice (slice l a b) o c = slice l (a + o) (min b (a + c)) := by
  apply List.ext_getElem?
  intro i
  rw [slice_get, slice_get, slice_get]
  by_cases h : o + i < c
  · rw [if_pos h]
    by_cases h2 : a + (o + i) < b
    · rw [if_pos h2, if_pos (by omega), Nat.add_assoc]
    · rw [if_neg h2, if_neg (by omega)]
  · rw [if_neg h, if_neg (by omega)]

theorem slice_split (l : List Nat) (x b y : Nat) (hx : x ≤ b) (hb : b ≤ l.length) :
    slice l x (min b y) ++ slice l b y = slice l x y := by
  apply List.ext_getElem?
  intro i
  have hl : (slice l x (min b y)).length = min b y - x := by rw [slice_length]; omega
  by_cases h : i < min b y - x
  · rw [List.getElem?_append_left (by omega), slice_get, slice_get, if_pos (by omega), if_pos (by omega)]
  · rw [List.getElem?_append_right (by omega), slice_get, slice_get, hl]
    by_cases h2 : x + i < y
    · rw [if_pos h2, if_pos (by omega)]; congr 1; omega
    · rw [if_neg h2, if_neg (by omega)]

theorem slice_nil (l : List Nat) (a b : Nat) (h : b ≤ a) : slice l a b = [] :=
  List.length_eq_zero_iff.mp (by rw [slice_length]; omega)

theorem bytes_slice {l : List Nat} (h : Bytes l) (a b : Nat) : Bytes (slice l a b) := bytes_drop (bytes_take h b) a

theorem beOffsets (t : Tlp) (h : 1 ≤ t.length) :
    firstBeOffset t < 4 ∧ lastBeOffset t < 4 ∧ firstBeOffset t + lastBeOffset t < 4 * t.length := by
  have hf : firstBeOffset t < 4 := by unfold firstBeOffset; split <;> (try split) <;> (try split) <;> omega
  have hl : lastBeOffset t < 4 := by
    unfold lastBeOffset; simp only; generalize (if t.length = 1 then t.firstBe else t.lastBe) = m
    split <;> (try split) <;> (try split) <;> omega
  refine ⟨hf, hl, ?_⟩
  by_cases h1 : t.length = 1
  · unfold firstBeOffset lastBeOffset
    rw [if_pos h1, h1]
    simp only
    have : ∀ m, m < 16 → (if m &&& 7 = 0 then 3 else if m &&& 3 = 0 then 2 else if m &&& 1 = 0 then 1 else 0) +
        (if m &&& 0xf = 1 then 3 else if m &&& 0xe = 2 then 2 else if m &&& 0xc = 4 then 1 else 0) < 4 * 1 := by decide
    have h16 := this (t.firstBe &&& 0xf) (by
      rw [Nat.and_two_pow_sub_one_eq_mod t.firstBe 4]; exact Nat.mod_lt _ (by decide))
    simp only [Nat.and_assoc] at h16
    exact h16
  · omega

/-- What every completion of a request `t` satisfies. -/
structure CplOk (mps : Nat) (completer : Id) (t c : Tlp) : Prop where
  chk : check c = true
  fmt : c.fmt = 2 ∧ c.typ = 0xA ∧ c.status = 0
  ids : c.completer = completer ∧ c.requester = t.requester ∧ c.tag = t.tag ∧ c.tc = t.tc ∧ c.attr = t.attr
  payload : 1 ≤ c.length ∧ c.length = c.data.length ∧ c.length ≤ 32 * 2 ^ mps
  boundary : (c.lowerAddress - c.lowerAddress % 4 + 4 * c.length) % 128 = 0 ∨ c.byteCount + c.lowerAddress % 4 ≤ 4 * c.length
  count : 1 ≤ c.byteCount ∧ c.byteCount ≤ beByteCount t

theorem cplLoop_spec (mps : Nat) (completer : Id) (t : Tlp) (data : List Nat) (h1 : 1 ≤ t.length) (ha : t.address % 4 = 0)
    (hb : Bytes data) (hd : data.length = 4 * t.length) : ∀ (fuel m n : Nat), t.length - m ≤ fuel → m ≤ t.length →
    n = (if m = 0 then 0 else 4 * m - firstBeOffset t) →
    ∃ cs, cplLoop mps completer t data fuel m n (t.address + firstBeOffset t + n) = some cs ∧
      recv (beByteCount t) n cs = some (slice data (firstBeOffset t + n) (firstBeOffset t + beByteCount t)) ∧
      ∀ c ∈ cs, CplOk mps completer t c := by
  obtain ⟨hf, hl, hfl⟩ := beOffsets t h1
  have hk : beByteCount t + firstBeOffset t + lastBeOffset t = 4 * t.length := by unfold beByteCount; omega
  have hk1 : 1 ≤ beByteCount t := by omega
  generalize hff : firstBeOffset t = f at *
  generalize hkk : beByteCount t = k at *
  generalize lastBeOffset t = lb at *
  have done : ∀ fuel m n, m = t.length → n = (if m = 0 then 0 else 4 * m - f) →
      ∃ cs, cplLoop mps completer t data fuel m n (t.address + f + n) = some cs ∧
      recv k n cs = some (slice data (f + n) (f + k)) ∧ ∀ c ∈ cs, CplOk mps completer t c := by
    intro fuel m n hm hn
    rw [if_neg (by omega)] at hn
    refine ⟨[], ?_, ?_, by simp⟩
    · cases fuel with
      | zero => rfl
      | succ _ => rw [cplLoop, if_neg (by omega)]
    · unfold recv; rw [if_neg (by omega), slice_nil _ _ _ (by omega)]
  intro fuel
  induction fuel with
  | zero => intro m n hfu hm hn; exact done 0 m n (by omega) hn
  | succ fuel ih =>
    intro m n hfu hm hn
    by_cases hml : m = t.length
    · exact done _ m n hml hn
    · -- one completion
      have hpow : 1 ≤ 2 ^ mps := Nat.two_pow_pos mps
      have e32 : 32 <<< mps = 32 * 2 ^ mps := Nat.shiftLeft_eq _ _
      obtain ⟨o, ho⟩ : ∃ o, o = if m = 0 then f else 0 := ⟨_, rfl⟩
      have haddr : t.address + f + n = t.address + 4 * m + o := by
        by_cases hz : m = 0
        · rw [if_pos hz] at hn ho; omega
        · rw [if_neg hz] at hn ho; omega
      have ho4 : o < 4 := by rw [ho]; split <;> omega
      have hmod : (t.address + f + n) % 4 = o := by omega
      have hnk : n < k := by
        by_cases hz : m = 0
        · rw [if_pos hz] at hn; omega
        · rw [if_neg hz] at hn; omega
      obtain ⟨d, hdd⟩ : ∃ d, d = if t.length - m > 32 <<< mps then (32 <<< mps) - (((t.address + f + n) &&& 0x7c) >>> 2)
        else t.length - m := ⟨_, rfl⟩
      have hd' : 1 ≤ d ∧ m + d ≤ t.length ∧ d ≤ 32 * 2 ^ mps ∧
          ((m + d = t.length) ∨ d = 32 * 2 ^ mps - (t.address + f + n) % 128 / 4) := by
        rw [hdd]
        split
        · rename_i hgt
          rw [e32] at hgt
          rw [and_7c, e32]
          refine ⟨by omega, by omega, by omega, Or.inr rfl⟩
        · rename_i hgt
          rw [e32] at hgt
          exact ⟨by omega, by omega, by omega, Or.inl (by omega)⟩
      obtain ⟨d1, d2, d3, d4⟩ := hd'
      have hn' : n + (d * 4 - o) = if m + d = 0 then 0 else 4 * (m + d) - f := by
        rw [if_neg (by omega)]
        by_cases hz : m = 0
        · rw [if_pos hz] at hn ho; omega
        · rw [if_neg hz] at hn ho; omega
      have hfn : f + n = 4 * m + o := by omega
      obtain ⟨cs, c1, c2, c3⟩ := ih (m + d) (n + (d * 4 - o)) (by omega) d2 hn'
      have hsl : (slice data (m * 4) ((m + d) * 4)).length = 4 * d := by rw [slice_length]; omega
      obtain ⟨ds, s1, s2, s3⟩ := toDwords_spec d _ hsl (bytes_slice hb _ _)
      have hbc : 4 * d ≤ (k - n) + o + 3 := by
        rw [if_neg (by omega)] at hn'
        omega
      refine ⟨{ setCompletion t completer true with
        byteCount := k - n, lowerAddress := (t.address + f + n) % 128, data := ds, length := ds.length } :: cs, ?_, ?_, ?_⟩
      · rw [cplLoop, if_pos (by omega)]
        simp only [← hdd, hkk]
        rw [and_3, hmod, and_7f, show t.address + f + n + (d * 4 - o) = t.address + f + (n + (d * 4 - o)) by omega, c1]
        unfold setData
        rw [s1]
        rfl
      · unfold recv
        rw [if_pos hnk]
        simp only
        rw [and_3, show (t.address + f + n) % 128 % 4 = o by omega, s2]
        have g1 : (guard ((setCompletion t completer true).status = 0) : Option Unit) = some () := by
          unfold setCompletion; simp [guard]
        rw [List.take_of_length_le (by omega), s3]
        simp only [hsl, bind, Option.bind, pure]
        rw [g1]
        simp only [guard]
        rw [if_pos (show d * 4 ≤ k - n + 3 + o by omega), if_pos trivial, if_pos (by omega)]
        simp only [pure]
        rw [show 4 * d - o = d * 4 - o by omega, c2]
        simp only
        congr 1
        rw [slice_slice, show m * 4 + o = f + n by omega, show m * 4 + (o + (k - n)) = f + k by omega,
          show f + (n + (d * 4 - o)) = (m + d) * 4 by omega]
        exact slice_split _ _ _ _ (by omega) (by omega)
      · intro c hc
        rcases List.mem_cons.mp hc with hc | hc
        · rw [hc]
          refine ⟨?_, ⟨rfl, rfl, rfl⟩, ⟨rfl, rfl, rfl, rfl, rfl⟩, ?_, ?_, ?_⟩
          · unfold check isMemReq setCompletion
            simp only [and_3, show (t.address + f + n) % 128 % 4 = o by omega, s2]
            have : d * 4 ≤ k - n + o + 3 := by omega
            simp [this]
          · simp only [s2]; exact ⟨d1, trivial, d3⟩
          · simp only [s2, show (t.address + f + n) % 128 % 4 = o by omega]
            rcases d4 with d4 | d4
            · right; omega
            · left; omega
          · simp only [hkk]; omega
        · exact c3 c hc

theorem readLen_eq (mrrs addr n : Nat) : readLen mrrs addr n = writeLen mrrs addr n := rfl

/-- One read request returns its bytes. -/
theorem read_one (mps : Nat) (completer : Id) (t0 : Tlp) (addr k base : Nat) (region : List Nat) (off chk : Nat → Nat)
    (hb : Bytes region) (hm : Maps base region.length off chk) (hk : 1 ≤ k) (h1 : base ≤ addr)
    (h2 : addr + k ≤ base + region.length) (hp : addr % 4096 + k ≤ 4096) :
    ∃ cs, handleMemRead mps completer region (off (setBe t0 addr k).address) (chk (setBe t0 addr k).address) (setBe t0 addr k) = some cs ∧
      recv k 0 cs = some (slice region (addr - base) (addr - base + k)) ∧
      ∀ c ∈ cs, CplOk mps completer (setBe t0 addr k) c := by
  have hb4 := hm.base4
  have hs4 := hm.size4
  have ho := hm.offEq (addr - addr % 4) (by omega) (by omega) (by omega)
  have hc := hm.chk4 (addr - addr % 4) (by omega) (by omega) (by omega)
  have hpg := hm.page (addr - addr % 4) (addr % 4 + k) (by omega) (by omega) (by omega) (by omega) (by omega)
  obtain ⟨l1, l2, l3⟩ := setBe_len t0 addr k hk
  have hlp : lastPad addr k = 3 - (addr + k + 3) % 4 := rfl
  obtain ⟨cs, c1, c2, c3⟩ := cplLoop_spec mps completer (setBe t0 addr k)
    (slice region (off (addr - addr % 4)) (off (addr - addr % 4) + (setBe t0 addr k).length * 4)) l3
    (by rw [setBe_address]; omega) (bytes_slice hb _ _) (by rw [slice_length]; omega) (setBe t0 addr k).length 0 0 (by omega) (by omega) rfl
  rw [setBe_first t0 addr k hk, setBe_count t0 addr k hk] at c2
  refine ⟨cs, ?_, ?_, c3⟩
  · unfold handleMemRead
    rw [if_neg (by rw [and_fff, setBe_address]; omega), setBe_address]
    exact c1
  · rw [c2, slice_slice]
    congr 2
    · omega
    · omega

theorem rcMemRead_spec (mrrs mps : Nat) (req completer : Id) (attr tc base : Nat) (tag : Nat → Nat) (region : List Nat)
    (off chk : Nat → Nat) (hb : Bytes region) (hm : Maps base region.length off chk) : ∀ (fuel addr len : Nat), len ≤ fuel →
    base ≤ addr → addr + len ≤ base + region.length →
    rcMemRead mrrs req attr tc tag (fun t => handleMemRead mps completer region (off t.address) (chk t.address) t) fuel addr len =
      some (slice region (addr - base) (addr - base + len))
  | 0, addr, len, hf, h1, h2 => by rw [rcMemRead, slice_nil _ _ _ (by omega)]
  | fuel + 1, addr, len, hf, h1, h2 => by
    rw [rcMemRead]
    by_cases hl : len = 0
    · rw [if_pos hl, slice_nil _ _ _ (by omega)]
    · rw [if_neg hl]
      obtain ⟨w1, w2, w3, w4⟩ := writeLen_spec mrrs addr len (by omega)
      rw [readLen_eq]
      generalize writeLen mrrs addr len = k at *
      simp only
      generalize ht0 : ({ fmt := if addr > 0xffffffff then 1 else 0, requester := req, tag := tag addr, attr := attr, tc := tc } : Tlp) = t0
      obtain ⟨cs, c1, c2, c3⟩ := read_one mps completer t0 addr k base region off chk hb hm w1 h1 (by omega) w4
      have hck : check (setBe t0 addr k) = true := by
        have hmem : (setBe t0 addr k).length * 4 ≤ 0x1000 - ((setBe t0 addr k).address &&& 0xfff) := by
          obtain ⟨l1, l2, l3⟩ := setBe_len t0 addr k w1
          have hlp : lastPad addr k = 3 - (addr + k + 3) % 4 := rfl
          rw [and_fff, setBe_address]; omega
        have hfm : (setBe t0 addr k).fmt = if addr > 0xffffffff then 1 else 0 := by rw [← ht0]; rfl
        have hty : (setBe t0 addr k).typ = 0 := by rw [← ht0]; rfl
        unfold check
        rw [hty, hfm]
        simp only [hmem, decide_true, Bool.or_true, Bool.and_true]
        split <;> rfl
      simp only [bind, Option.bind, pure, guard, hck, if_true, c1, c2]
      rw [rcMemRead_spec mrrs mps req completer attr tc base tag region off chk hb hm fuel (addr + k) (len - k) (by omega) (by omega) (by omega)]
      simp only
      congr 1
      have := slice_split region (addr - base) (addr - base + k) (addr - base + len) (by omega) (by omega)
      rw [show min (addr - base + k) (addr - base + len) = addr - base + k by omega] at this
      rw [← this]
      congr 2 <;> omega

/-! ### IO accesses -/

theorem dwLen_spec (addr n : Nat) (hn : 1 ≤ n) :
    1 ≤ dwLen addr n ∧ dwLen addr n ≤ n ∧ addr % 4 + dwLen addr n ≤ 4 ∧ (dwLen addr n < n → addr % 4 + dwLen addr n = 4) := by
  unfold dwLen firstPad
  omega

theorem io_len (t : Tlp) (addr k : Nat) (h1 : 1 ≤ k) (h2 : addr % 4 + k ≤ 4) : (setBe t addr k).length = 1 ∧ (setBe t addr k).lastBe = 0 := by
  obtain ⟨l1, l2, l3⟩ := setBe_len t addr k h1
  have : (setBe t addr k).length = 1 := by omega
  refine ⟨this, ?_⟩
  show (if (setBe t addr k).length = 1 then 0 else _) = 0
  rw [if_pos this]

theorem handleIoWrite_eq (region : List Nat) (addr : Nat) (t : Tlp) (h : t.length = 1) :
    handleIoWrite region addr t = handleMemWrite region addr 0 t := by
  unfold handleIoWrite handleMemWrite
  rw [h]
  simp only [guard, if_true]
  cases toBytes t.data with
  | none => rfl
  | some d =>
    show some _ = some _
    congr 1
    unfold Scan.last Scan.middle
    rw [h]
    rfl

theorem ioWrite_spec (req : Id) (tag : Nat → Nat) (base : Nat) (off chk : Nat → Nat) : ∀ (fuel addr : Nat) (data region : List Nat),
    data.length ≤ fuel → Bytes data → Maps base region.length off chk → base ≤ addr → addr + data.length ≤ base + region.length →
    ∃ ts, ioWrite req tag fuel addr data = some ts ∧
      ts.foldlM (fun r t => handleIoWrite r (off t.address) t) region = some (sliceSet region (addr - base) data) ∧
      ∀ t ∈ ts, check t = true ∧ t.length = 1 ∧ t.lastBe = 0 ∧ t.fmt = 2 ∧ t.typ = 2 ∧ t.requester = req
  | 0, addr, data, region, hf, _, _, h1, h2 => by
    have : data = [] := List.length_eq_zero_iff.mp (by omega)
    subst this
    exact ⟨[], rfl, by simp [sliceSet], by simp⟩
  | fuel + 1, addr, data, region, hf, hb, hm, h1, h2 => by
    by_cases hd : data = []
    · subst hd
      exact ⟨[], by simp [ioWrite], by simp [sliceSet], by simp⟩
    · have hl : 1 ≤ data.length := List.length_pos_iff.mpr hd
      obtain ⟨w1, w2, w3, -⟩ := dwLen_spec addr data.length hl
      generalize hk : dwLen addr data.length = k at *
      have htl : (data.take k).length = k := by simp; omega
      have hbt := bytes_take hb k
      have hb4 := hm.base4
      have hs4 := hm.size4
      have ho := hm.offEq (addr - addr % 4) (by omega) (by omega) (by omega)
      let t0 : Tlp := { fmt := 2, typ := 2, requester := req, tag := tag addr }
      obtain ⟨u, u1, u2⟩ := write_one t0 addr (data.take k) region (off (addr - addr % 4)) 0 hbt
        (by omega) (by omega) rfl (by omega) (by omega) hs4
      obtain ⟨ds, v1, v2, v3⟩ := setBeData_spec t0 addr (data.take k) hbt (by omega)
      have hu : u = { setBe t0 addr (data.take k).length with data := ds } := Option.some.inj (u1.symm.trans v1)
      have hua : u.address = addr - addr % 4 := by rw [hu]; exact setBe_address t0 addr (data.take k).length
      obtain ⟨i1, i2⟩ := io_len t0 addr (data.take k).length (by omega) (by omega)
      have hul : u.length = 1 := by rw [hu]; exact i1
      have hulb : u.lastBe = 0 := by rw [hu]; exact i2
      have hsl := sliceSet_length (l := region) (d := data.take k) (a := addr - base) (by omega)
      obtain ⟨ts, t1, t2, t3⟩ := ioWrite_spec req tag base off chk fuel (addr + k) (data.drop k)
        (sliceSet region (addr - base) (data.take k)) (by simp; omega) (bytes_drop hb k) (by rw [hsl]; exact hm) (by omega)
        (by rw [hsl]; simp; omega)
      refine ⟨u :: ts, ?_, ?_, ?_⟩
      · rw [ioWrite, if_neg hd]
        simp only [hk]
        show (setBeData t0 addr (data.take k)).bind _ = _
        rw [u1, t1]; rfl
      · rw [List.foldlM_cons, hua, handleIoWrite_eq _ _ _ hul, u2]
        show List.foldlM _ (sliceSet region (off (addr - addr % 4) + addr % 4) (data.take k)) ts = _
        rw [show off (addr - addr % 4) + addr % 4 = addr - base by omega, t2,
          show addr + k - base = addr - base + (data.take k).length by omega,
          sliceSet_append _ _ _ _ (by simp; omega), List.take_append_drop]
      · intro t ht
        rcases List.mem_cons.mp ht with ht | ht
        · have hfm : u.fmt = 2 := by rw [hu]; rfl
          have hty : u.typ = 2 := by rw [hu]; rfl
          have hdl : u.data.length = 1 := by rw [hu]; exact v2.trans i1
          rw [ht]
          refine ⟨?_, hul, hulb, hfm, hty, by rw [hu]; rfl⟩
          unfold check isMemReq
          rw [hty, hfm, hul, hdl, hulb]
          rfl
        · exact t3 t ht

def RScan.toScan (s : RScan) : Scan := ⟨s.start, s.offset, s.data⟩

theorem slice_drop (l : List Nat) (n a b : Nat) : slice (l.drop n) a b = slice l (n + a) (n + b) := by
  apply List.ext_getElem?
  intro i
  rw [slice_get, slice_get, List.getElem?_drop]
  by_cases h : a + i < b
  · rw [if_pos h, if_pos (by omega), Nat.add_assoc]
  · rw [if_neg h, if_neg (by omega)]

theorem rflush_eq (region : List Nat) (addr : Nat) (s : RScan) (h : ∀ a, s.start = some a → a ≤ s.offset)
    (hr : addr + s.offset ≤ region.length) : s.flush region addr = s.toScan.flush 0 (region.drop addr) := by
  unfold RScan.flush Scan.flush RScan.toScan
  cases hs : s.start with
  | none => rfl
  | some a =>
    have := h a hs
    simp only
    split
    · unfold sliceSet
      rw [slice_drop, slice_length, Nat.zero_add]
      congr 2
      omega
    · rfl

theorem rbit_eq (region : List Nat) (addr : Nat) (s : RScan) (b : Bool) (h : ∀ a, s.start = some a → a ≤ s.offset)
    (hr : addr + s.offset ≤ region.length) :
    (s.bit region addr b).toScan = s.toScan.bit 0 (region.drop addr) b ∧
    (∀ a, (s.bit region addr b).start = some a → a ≤ (s.bit region addr b).offset) ∧
    (s.bit region addr b).offset = s.offset + 1 := by
  cases b with
  | true =>
    refine ⟨rfl, ?_, rfl⟩
    intro a ha
    have ha : some (s.start.getD s.offset) = some a := ha
    have : (s.bit region addr true).offset = s.offset + 1 := rfl
    rw [this]
    cases hs : s.start with
    | none => rw [hs] at ha; cases ha; simp
    | some x => rw [hs] at ha; cases ha; have := h x hs; simp only [Option.getD_some]; omega
  | false =>
    refine ⟨?_, (by intro a ha; cases ha), rfl⟩
    have : (s.bit region addr false).toScan = ⟨none, s.offset + 1, s.flush region addr⟩ := rfl
    rw [this, rflush_eq region addr s h hr]
    rfl

theorem rscan_eq (region : List Nat) (addr : Nat) : ∀ (L : List Bool) (s : RScan), (∀ a, s.start = some a → a ≤ s.offset) →
    addr + s.offset + L.length ≤ region.length →
    (L.foldl (fun s b => RScan.bit region addr s b) s).flush region addr =
      (scanBits 0 (region.drop addr) L s.toScan).flush 0 (region.drop addr)
  | [], s, h, hr => rflush_eq region addr s h (by simpa using hr)
  | b :: L, s, h, hr => by
    simp only [List.length_cons] at hr
    obtain ⟨e1, e2, e3⟩ := rbit_eq region addr s b h (by omega)
    have := rscan_eq region addr L (s.bit region addr b) e2 (by omega)
    rw [e1] at this
    exact this

theorem handleIoRead_spec (completer : Id) (region : List Nat) (addr : Nat) (t : Tlp) (h : t.length = 1) (hb : Bytes region)
    (hr : addr + 4 ≤ region.length) :
    ∃ c w bs, handleIoRead completer region addr t = some c ∧ c.data = [w] ∧ packLE 4 w = some bs ∧ c.length = 1 ∧ c.status = 0 ∧
      check c = true ∧ c.requester = t.requester ∧ c.tag = t.tag ∧ bs.length = 4 ∧
      ∀ j, j < 4 → bs[j]? = if t.firstBe.testBit j then region[addr + j]? else some 0 := by
  have inv := scanBits_inv 0 (region.drop addr) [0, 0, 0, 0] (maskBits t.firstBe) [] _ (scan_init 0 _ _)
    (by simp [maskBits]; omega) (by simp [maskBits])
  simp only [List.nil_append] at inv
  obtain ⟨f1, f2⟩ := flush_spec inv (by simp [maskBits]; omega) (by simp [maskBits])
  have hrs := rscan_eq region addr (maskBits t.firstBe) ⟨none, 0, [0, 0, 0, 0]⟩ (by intro a ha; cases ha) (by simp [maskBits]; omega)
  have hk : ∀ k, (t.firstBe &&& (1 <<< k) != 0) = t.firstBe.testBit k := by
    intro k
    rw [Nat.one_shiftLeft]
    exact Driver.wrapBit_eq k t.firstBe
  have hfold : (List.range 4).foldl (fun s k => RScan.bit region addr s (t.firstBe &&& (1 <<< k) != 0)) ⟨none, 0, [0, 0, 0, 0]⟩ =
      (maskBits t.firstBe).foldl (fun s b => RScan.bit region addr s b) ⟨none, 0, [0, 0, 0, 0]⟩ := by
    simp only [hk]
    rfl
  obtain ⟨X, hX⟩ : ∃ X, X = (scanBits 0 (region.drop addr) (maskBits t.firstBe) ⟨none, 0, [0, 0, 0, 0]⟩).flush 0 (region.drop addr) := ⟨_, rfl⟩
  have hrs : ((maskBits t.firstBe).foldl (fun s b => RScan.bit region addr s b) ⟨none, 0, [0, 0, 0, 0]⟩).flush region addr = X := by
    rw [hX]; exact hrs
  rw [← hX] at f1 f2
  have hXl : X.length = 4 := f1
  have hget : ∀ j, j < 4 → X[j]? = if t.firstBe.testBit j then region[addr + j]? else some 0 := by
    intro j hj
    rw [f2 j, Nat.sub_zero, maskBits_get _ _ hj]
    by_cases hx : t.firstBe.testBit j = true
    · rw [if_pos ⟨by omega, by rw [hx]⟩, if_pos hx, List.getElem?_drop]
    · rw [if_neg (fun h => hx (Option.some.inj h.2)), if_neg hx]
      match j, hj with
      | 0, _ => rfl
      | 1, _ => rfl
      | 2, _ => rfl
      | 3, _ => rfl
  have hXb : Bytes X := by
    intro x hx
    obtain ⟨j, hj, hjx⟩ := List.getElem_of_mem hx
    have := hget j (by omega)
    rw [List.getElem?_eq_getElem hj, hjx] at this
    split at this
    · exact hb x (List.mem_of_getElem? this.symm)
    · cases this; omega
  obtain ⟨ds, d1, d2, d3⟩ := toDwords_spec 1 X hXl hXb
  match ds, d2 with
  | [w], _ =>
    have hw : packLE 4 w = some X := by
      simp only [toBytes] at d3
      cases hp : packLE 4 w with
      | none => rw [hp] at d3; cases d3
      | some a => rw [hp] at d3; simpa using d3
    refine ⟨{ setCompletion t completer true with data := [w], byteCount := 4, length := 1 }, w, X, ?_, rfl, hw, rfl, rfl, ?_, rfl, rfl, hXl, hget⟩
    · unfold handleIoRead
      simp only [hfold, hrs, guard, h, if_true]
      unfold setData
      rw [d1]
      rfl
    · unfold check setCompletion isMemReq
      simp

theorem ioRead_spec (req completer : Id) (tag : Nat → Nat) (base : Nat) (region : List Nat) (off chk : Nat → Nat) (hb : Bytes region)
    (hm : Maps base region.length off chk) : ∀ (fuel addr len : Nat), len ≤ fuel → base ≤ addr → addr + len ≤ base + region.length →
    ∃ extra, ioReadLoop req tag (fun t => handleIoRead completer region (off t.address) t) fuel addr len =
      some (slice region (addr - base) (addr - base + len) ++ extra)
  | 0, addr, len, hf, h1, h2 => ⟨[], by rw [ioReadLoop, slice_nil _ _ _ (by omega)]; rfl⟩
  | fuel + 1, addr, len, hf, h1, h2 => by
    rw [ioReadLoop]
    by_cases hl : len = 0
    · exact ⟨[], by rw [if_pos hl, slice_nil _ _ _ (by omega)]; rfl⟩
    · rw [if_neg hl]
      obtain ⟨w1, w2, w3, w4⟩ := dwLen_spec addr len (by omega)
      generalize dwLen addr len = k at *
      simp only
      generalize ht0 : ({ fmt := 0, typ := 2, requester := req, tag := tag addr } : Tlp) = t0
      have hb4 := hm.base4
      have hs4 := hm.size4
      have ho := hm.offEq (addr - addr % 4) (by omega) (by omega) (by omega)
      obtain ⟨i1, i2⟩ := io_len t0 addr k w1 w3
      have hck : check (setBe t0 addr k) = true := by
        have hfm : (setBe t0 addr k).fmt = 0 := by rw [← ht0]; rfl
        have hty : (setBe t0 addr k).typ = 2 := by rw [← ht0]; rfl
        unfold check isMemReq
        rw [hty, hfm, i1, i2]
        rfl
      obtain ⟨c, w, bs, c1, c2, c3, c4, c5, -, -, -, c9, c10⟩ := handleIoRead_spec completer region (off (addr - addr % 4)) (setBe t0 addr k) i1 hb (by omega)
      rw [setBe_address]
      simp only [bind, Option.bind, pure, guard, hck, if_true, c1, c4, c5, c2, c3, List.head?_cons]
      have hbs : ∀ j, j < k → (bs.drop (addr % 4))[j]? = region[addr - base + j]? := by
        intro j hj
        have he := setBe_enabled t0 addr k w1 (addr % 4 + j) (by omega)
        unfold enabled at he
        rw [if_pos (by omega)] at he
        rw [List.getElem?_drop, c10 _ (by omega), he, decide_eq_true (by omega), if_pos rfl]
        congr 1; omega
      obtain ⟨extra, hx⟩ := ioRead_spec req completer tag base region off chk hb hm fuel (addr + k) (len - k) (by omega) (by omega) (by omega)
      rw [hx]
      simp only [firstPad]
      by_cases hlast : k < len
      · refine ⟨extra, ?_⟩
        have hd : bs.drop (addr % 4) = slice region (addr - base) (addr - base + k) := by
          apply List.ext_getElem?
          intro j
          rw [slice_get]
          by_cases hj : j < k
          · rw [hbs j hj, if_pos (by omega)]
          · rw [if_neg (by omega), List.getElem?_eq_none (by simp; omega)]
        rw [hd, ← List.append_assoc]
        congr 2
        have := slice_split region (addr - base) (addr - base + k) (addr - base + len) (by omega) (by omega)
        rw [show min (addr - base + k) (addr - base + len) = addr - base + k by omega] at this
        rw [← this]
        congr 2 <;> omega
      · have hkl : k = len := by omega
        refine ⟨(bs.drop (addr % 4)).drop k ++ extra, ?_⟩
        have hd : (bs.drop (addr % 4)).take k = slice region (addr - base) (addr - base + k) := by
          apply List.ext_getElem?
          intro j
          rw [slice_get, List.getElem?_take]
          by_cases hj : j < k
          · rw [if_pos hj, hbs j hj, if_pos (by omega)]
          · rw [if_neg hj, if_neg (by omega)]
        rw [slice_nil region (addr + k - base) _ (by omega), ← hkl, ← hd, List.nil_append, ← List.append_assoc, List.take_append_drop]

end Corundum.Pcie
