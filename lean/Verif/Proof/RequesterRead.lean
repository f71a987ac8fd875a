import Verif.Proof.Requester
import Verif.Proof.Tlp

namespace Corundum.Requester
open Corundum.Pcie Corundum.Struct

theorem stop_read {req c : Tlp} (hr : isRead req = true) (h0 : c.status = 0) (h2 : c.fmt = 2) : stop req c = decide (c.byteCount + (c.lowerAddress &&& 3) ≤ c.length * 4) := by
  unfold stop
  rw [hr, h0, h2]
  simp

theorem cplLoop_complete (req : Tlp) (hr : isRead req = true) (mps : Nat) (completer : Id) (t : Tlp) (data : List Nat) (h1 : 1 ≤ t.length) (ha : t.address % 4 = 0)
    (hb : Bytes data) (hd : data.length = 4 * t.length) : ∀ (fuel m n : Nat) (cs : List Tlp), t.length - m ≤ fuel → m < t.length →
    n = (if m = 0 then 0 else 4 * m - firstBeOffset t) →
    cplLoop mps completer t data fuel m n (t.address + firstBeOffset t + n) = some cs → Complete req cs := by
  obtain ⟨hf, hl, hfl⟩ := beOffsets t h1
  have hk : beByteCount t + firstBeOffset t + lastBeOffset t = 4 * t.length := by unfold beByteCount; omega
  generalize hff : firstBeOffset t = f at *
  generalize hkk : beByteCount t = k at *
  generalize lastBeOffset t = lb at *
  intro fuel
  induction fuel with
  | zero => intro m n cs hfu hm hn; omega
  | succ fuel ih =>
    intro m n cs hfu hm hn hcs
    have hpow : 1 ≤ 2 ^ mps := Nat.two_pow_pos mps
    have e32 : 32 <<< mps = 32 * 2 ^ mps := Nat.shiftLeft_eq _ _
    obtain ⟨o, ho⟩ : ∃ o, o = if m = 0 then f else 0 := ⟨_, rfl⟩
    have haddr : t.address + f + n = t.address + 4 * m + o := by
      by_cases hz : m = 0
      · rw [if_pos hz] at hn ho; omega
      · rw [if_neg hz] at hn ho; omega
    have ho4 : o < 4 := by rw [ho]; split <;> omega
    have hmod : (t.address + f + n) % 4 = o := by omega
    obtain ⟨d, hdd⟩ : ∃ d, d = if t.length - m > 32 <<< mps then (32 <<< mps) - (((t.address + f + n) &&& 0x7c) >>> 2)
      else t.length - m := ⟨_, rfl⟩
    have hd' : 1 ≤ d ∧ m + d ≤ t.length := by
      rw [hdd]
      split
      · rename_i hgt
        rw [e32] at hgt
        rw [and_7c, e32]
        refine ⟨by omega, by omega⟩
      · rename_i hgt
        exact ⟨by omega, by omega⟩
    obtain ⟨d1, d2⟩ := hd'
    have hn' : n + (d * 4 - o) = if m + d = 0 then 0 else 4 * (m + d) - f := by
      rw [if_neg (by omega)]
      by_cases hz : m = 0
      · rw [if_pos hz] at hn ho; omega
      · rw [if_neg hz] at hn ho; omega
    have hsl : (slice data (m * 4) ((m + d) * 4)).length = 4 * d := by rw [slice_length]; omega
    obtain ⟨ds, s1, s2, s3⟩ := toDwords_spec d _ hsl (bytes_slice hb _ _)
    rw [cplLoop, if_pos hm] at hcs
    simp only [← hdd, hkk] at hcs
    rw [and_3, hmod, and_7f, show t.address + f + n + (d * 4 - o) = t.address + f + (n + (d * 4 - o)) by omega] at hcs
    unfold setData at hcs
    rw [s1] at hcs
    cases hrest : cplLoop mps completer t data fuel (m + d) (n + (d * 4 - o)) (t.address + f + (n + (d * 4 - o))) with
    | none => rw [hrest] at hcs; simp [bind, Option.bind] at hcs
    | some cs' =>
      rw [hrest] at hcs
      simp only [bind, Option.bind, pure] at hcs
      injection hcs with hcs
      rw [← hcs]
      have hst : ∀ c : Tlp, c.status = 0 → c.fmt = 2 → c.byteCount = k - n → c.length = ds.length → c.lowerAddress = (t.address + f + n) % 128 →
          stop req c = decide (m + d = t.length) := by
        intro c q1 q2 q3 q4 q5
        rw [stop_read hr q1 q2, q3, q4, q5, and_3, show (t.address + f + n) % 128 % 4 = o by omega, s2]
        rw [if_neg (by omega)] at hn'
        by_cases he : m + d = t.length
        · rw [decide_eq_true he, decide_eq_true]; omega
        · rw [decide_eq_false he, decide_eq_false]; omega
      by_cases he : m + d = t.length
      · have : cs' = [] := by
          cases fuel with
          | zero => rw [cplLoop] at hrest; cases hrest; rfl
          | succ fuel => rw [cplLoop, if_neg (by omega)] at hrest; cases hrest; rfl
        rw [this]
        refine complete_stop.2 ⟨[], _, rfl, (fun x hx => by cases hx), ?_⟩
        rw [hst _ rfl rfl rfl rfl rfl]; simpa using he
      · obtain ⟨l, c, e1, e2, e3⟩ := complete_stop.1 (ih (m + d) (n + (d * 4 - o)) cs' (by omega) (by omega) hn' hrest)
        refine complete_stop.2 ⟨_ :: l, c, by rw [e1]; rfl, ?_, e3⟩
        intro x hx
        rcases List.mem_cons.1 hx with hx | hx
        · rw [hx, hst _ rfl rfl rfl rfl rfl]; simpa using he
        · exact e2 x hx

theorem collect_recv (k : Nat) : ∀ (cs : List Tlp) (m : Nat), (∀ c ∈ cs, c.length = c.data.length) → collect k m cs = recv k m cs := by
  intro cs
  induction cs with
  | nil => intro m _; unfold collect recv; rfl
  | cons c cs ih =>
    intro m h
    unfold collect recv
    split
    · rename_i hm
      dsimp only
      rw [Nat.max_eq_left (by omega), h c (List.mem_cons_self ..), List.take_of_length_le (Nat.le_refl _)]
      have hg : (guard (c.data.length ≤ c.data.length) : Option Unit) = some () := by simp [guard]
      rw [hg]
      simp only [bind, Option.bind, ih _ fun x hx => h x (List.mem_cons_of_mem _ hx)]
    · rfl

/-- a read in the memory, whatever its byte enables -/
theorem memory_read (mps : Nat) (completer : Id) (base : Nat) (mem : List Nat) (hm : ∀ b ∈ mem, b < 256) (t : Tlp) (h : InMemory base mem.length t) (u : Nat) :
    Complete t (memory mps completer base mem (withTag t u)) ∧ (∀ c ∈ memory mps completer base mem (withTag t u), c.tag = u ∧ c.length ≤ 32 * 2 ^ mps) ∧
    collect (beByteCount t) 0 (memory mps completer base mem (withTag t u)) = some (slice mem (t.address - base + firstBeOffset t) (t.address - base + firstBeOffset t + beByteCount t)) := by
  obtain ⟨h1, h2, h3, h4, h5, h6⟩ := h
  have hsl : (slice mem (t.address - base) (t.address - base + t.length * 4)).length = 4 * t.length := by rw [slice_length]; omega
  obtain ⟨cs, c1, c2, c3⟩ := cplLoop_spec mps completer (withTag t u) (slice mem (t.address - base) (t.address - base + t.length * 4)) h3 h2
    (bytes_slice hm _ _) hsl t.length 0 0 (by show t.length - 0 ≤ _; omega) (by omega) rfl
  have hcs : memory mps completer base mem (withTag t u) = cs := by
    unfold memory rcRead handleMemRead
    rw [if_neg]
    · show (cplLoop mps completer (withTag t u) (slice mem (t.address - base) (t.address - base + t.length * 4)) t.length 0 0 ((withTag t u).address + firstBeOffset (withTag t u) + 0)).getD [] = cs
      rw [c1]; rfl
    · rw [and_fff]; show ¬ t.length * 4 > 0x1000 - t.address % 4096; omega
  rw [hcs]
  refine ⟨cplLoop_complete t h1 mps completer (withTag t u) _ h3 h2 (bytes_slice hm _ _) hsl t.length 0 0 cs (by show t.length - 0 ≤ _; omega) h3 rfl c1,
    fun c hc => ⟨(c3 c hc).ids.2.2.1, (c3 c hc).payload.2.2⟩, ?_⟩
  rw [collect_recv _ cs 0 fun c hc => (c3 c hc).payload.2.1]
  show recv (beByteCount (withTag t u)) 0 cs = _
  obtain ⟨o1, o2, o3⟩ := beOffsets t h3
  rw [c2, slice_slice]
  have : beByteCount t + firstBeOffset t + lastBeOffset t = 4 * t.length := by unfold beByteCount; omega
  show some (slice mem (t.address - base + (firstBeOffset t + 0)) (min (t.address - base + t.length * 4) (t.address - base + (firstBeOffset t + beByteCount t)))) = _
  congr 2
  omega

theorem dmaReadLen_spec (mrrs addr n : Nat) (hn : 1 ≤ n) :
    1 ≤ dmaReadLen mrrs addr n ∧ dmaReadLen mrrs addr n ≤ n ∧ addr % 4096 + dmaReadLen mrrs addr n ≤ 4096 ∧ addr % 4 + dmaReadLen mrrs addr n ≤ 128 * 2 ^ mrrs := by
  have hpow : 1 ≤ 2 ^ mrrs := Nat.two_pow_pos mrrs
  unfold dmaReadLen firstPad
  rw [Nat.shiftLeft_eq, and_7f, and_fff]
  split <;> omega

/-- every request is a read in the memory -/
theorem dmaReads_ok (mrrs : Nat) (req : Id) (zero : Bool) (base size : Nat) (hb : base % 4 = 0) (hs : size % 4 = 0) : ∀ (fuel addr n : Nat), base ≤ addr → addr + n ≤ base + size →
    ∀ r ∈ dmaReads mrrs req zero fuel addr n, InMemory base size r.2 ∧ 4 * r.2.length ≤ 128 * 2 ^ mrrs + 3 ∧ r.2.length ≤ 32 * 2 ^ mrrs ∧ r.2.requester = req ∧ (r.2.fmt = 1 ↔ r.2.address > 0xffffffff) := by
  intro fuel
  induction fuel with
  | zero => intro addr n _ _ r hr; cases hr
  | succ fuel ih =>
    intro addr n h1 h2 r hr
    rw [dmaReads] at hr
    split at hr
    · cases hr
    · rename_i hn
      obtain ⟨k1, k2, k3, k4⟩ := dmaReadLen_spec mrrs addr n (by omega)
      dsimp only at hr
      generalize dmaReadLen mrrs addr n = k at *
      rcases List.mem_cons.1 hr with hr | hr
      · have key : ∀ t : Tlp, t.fmt = (if addr > 0xffffffff then 1 else 0) → t.typ = 0 → t.requester = req → t.address = addr - addr % 4 → t.length = (setBe {} addr k).length →
            InMemory base size t ∧ 4 * t.length ≤ 128 * 2 ^ mrrs + 3 ∧ t.length ≤ 32 * 2 ^ mrrs ∧ t.requester = req ∧ (t.fmt = 1 ↔ t.address > 0xffffffff) := by
          intro t e1 e2 e3 e4 e5
          obtain ⟨l1, l2, l3⟩ := setBe_len {} addr k k1
          have hlp : lastPad addr k = 3 - (addr + k + 3) % 4 := rfl
          rw [← e5] at l1 l3
          refine ⟨⟨?_, by omega, l3, by omega, by omega, by omega⟩, by omega, by omega, e3, ?_⟩
          · unfold isRead; rw [e1, e2]; split <;> rfl
          · rw [e1, e4]; split <;> simp <;> omega
        rw [hr]
        dsimp only
        cases zero
        · exact key _ rfl rfl rfl rfl rfl
        · exact key _ rfl rfl rfl rfl rfl
      · exact ih (addr + k) (n - k) (by omega) (by omega) r hr

theorem joined_read {s : St} {count mps : Nat} {completer : Id} {base : Nat} {mem : List Nat} {answer : Tlp → List Tlp} (hm : ∀ b ∈ mem, b < 256) (hb : base % 4 = 0) (hs : mem.length % 4 = 0)
    (D : DInv count answer s) (hans : ∀ t, InMemory base mem.length t → answer t = memory mps completer base mem t) (mrrs : Nat) (req : Id) :
    ∀ (fuel addr n : Nat) (parts : List (Nat × List Tlp)), n ≤ fuel → base ≤ addr → addr + n ≤ base + mem.length → Joined s (dmaReads mrrs req false fuel addr n) parts →
    collectAll parts = some (slice mem (addr - base) (addr - base + n)) := by
  intro fuel
  induction fuel with
  | zero =>
    intro addr n parts hf h1 h2 hj
    cases parts with
    | nil => rw [collectAll, slice_nil _ _ _ (by omega)]
    | cons p ps => exact hj.elim
  | succ fuel ih =>
    intro addr n parts hf h1 h2 hj
    have hok := dmaReads_ok mrrs req false base mem.length hb hs (fuel + 1) addr n h1 h2
    rw [dmaReads] at hj hok
    by_cases hn : n = 0
    · rw [if_pos hn] at hj
      cases parts with
      | nil => rw [collectAll, slice_nil _ _ _ (by omega)]
      | cons p ps => exact hj.elim
    · rw [if_neg hn] at hj hok
      obtain ⟨k1, k2, k3, k4⟩ := dmaReadLen_spec mrrs addr n (by omega)
      dsimp only at hj hok
      generalize dmaReadLen mrrs addr n = k at *
      cases parts with
      | nil => exact hj.elim
      | cons p ps =>
        obtain ⟨m, got⟩ := p
        obtain ⟨rfl, ⟨i, tag, hi⟩, hrest⟩ := hj
        have hin := (hok _ (List.mem_cons_self ..)).1
        have e0 : (if false = true then ({ setBe { fmt := if addr > 0xffffffff then 1 else 0, requester := req } addr m with firstBe := 0 } : Tlp) else setBe { fmt := if addr > 0xffffffff then 1 else 0, requester := req } addr m) =
            setBe { fmt := if addr > 0xffffffff then 1 else 0, requester := req } addr m := rfl
        simp only [Bool.false_eq_true, if_false] at hin hi
        generalize ht0 : ({ fmt := if addr > 0xffffffff then 1 else 0, requester := req } : Tlp) = t0 at *
        have hd := (D.ops i _ hi).1
        have hg : got = answer (withTag (setBe t0 addr m) tag) := hd.2
        have hin' : InMemory base mem.length (withTag (setBe t0 addr m) tag) := hin
        rw [hans _ hin'] at hg
        have := (memory_read mps completer base mem hm _ hin tag).2.2
        rw [← hg, setBe_first t0 addr m k1, setBe_count t0 addr m k1] at this
        rw [collectAll, this, ih (addr + m) (n - m) ps (by omega) (by omega) (by omega) hrest]
        simp only [bind, Option.bind, pure]
        rw [setBe_address]
        congr 1
        have hsp := slice_split mem (addr - base) (addr - base + m) (addr - base + n) (by omega) (by omega)
        rw [show min (addr - base + m) (addr - base + n) = addr - base + m by omega] at hsp
        rw [← hsp]
        congr 2 <;> omega

end Corundum.Requester
