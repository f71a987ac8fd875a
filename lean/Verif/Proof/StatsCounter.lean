import Verif.Spec.StatsCounter
import Verif.Proof.CplWrite

namespace Corundum.StatsCounter
open Corundum.CplWrite (upd upd_same upd_ne)

theorem sumFor_drop (l : List (Option (Nat × Nat))) (m id : Nat) : sumFor (l.drop m) id = sumFor (l[m]?.toList) id + sumFor (l.drop (m + 1)) id := by
  rcases Nat.lt_or_ge m l.length with h | h
  · rw [List.drop_eq_getElem_cons h, List.getElem?_eq_getElem h, Option.toList_some]
    cases l[m] with
    | none => simp [sumFor]
    | some x => obtain ⟨k, x⟩ := x; simp [sumFor]
  · rw [List.getElem?_eq_none h, List.drop_of_length_le h, List.drop_of_length_le (by omega)]; rfl

theorem sumFor_none (l : List (Option (Nat × Nat))) (h : ∀ e ∈ l, e = none) (id : Nat) : sumFor l id = 0 := by
  induction l with
  | nil => rfl
  | cons a l ih =>
    rw [h a (by simp)]
    exact ih fun e he => h e (by simp [he])

theorem any_false {n : Nat} {f : Nat → Bool} : (List.range n).any f = false ↔ ∀ j, j < n → f j = false := by
  simp [List.any_eq_false]

theorem any_true {n : Nat} {f : Nat → Bool} : (List.range n).any f = true ↔ ∃ j, j < n ∧ f j = true := by
  simp [List.any_eq_true]

theorem write_acc {P : Params} {s : S} (h : (s.pipe (P.pl - 1)).acc = true) :
    write P s = some ((s.pipe (P.pl - 1)).addr, ((s.pipe (P.pl - 1)).data + (s.pipe (P.pl - 1)).inc) % 2 ^ P.cw) := by
  unfold write; simp only [h, if_true]

theorem write_ini {P : Params} {s : S} (h : (s.pipe (P.pl - 1)).acc = false) (hi : s.init = true) : write P s = some (s.ptr, 0) := by
  unfold write; simp [h, hi]

theorem write_idle {P : Params} {s : S} (h : (s.pipe (P.pl - 1)).acc = false) (hi : s.init = false) : write P s = none := by
  unfold write; simp [h, hi]

/-- what a stage says about the history -/
structure Ok (s : S) (g : G) (j : Nat) : Prop where
  acc : (s.pipe j).acc = true → g.hist[j]? = some (some ((s.pipe j).addr, (s.pipe j).inc)) ∧ (s.pipe j).data = s.mem (s.pipe j).addr ∧ (s.pipe j).rd = false
  idle : (s.pipe j).acc = false → ∀ x, g.hist[j]? ≠ some (some x)

/-- what is offered on the read channel -/
def shown (s : S) : List Nat := if s.rvalid then [s.rdata] else []

structure Inv (P : Params) (s : S) (g : G) : Prop where
  stage : ∀ j, j < P.pl → Ok s g j
  lt : ∀ j, j < P.pl → (s.pipe j).acc = true → (s.pipe j).addr < 2 ^ P.iw
  uniq : ∀ j k, j < k → k < P.pl → (s.pipe j).acc = true → ((s.pipe k).rd || (s.pipe k).acc) = true → (s.pipe k).addr ≠ (s.pipe j).addr
  mem : s.init = false → ∀ id, id < 2 ^ P.iw → s.mem id = counterAt P g.hist id
  ini : s.init = true → (∀ id, id < s.ptr → s.mem id = 0) ∧ s.ptr < 2 ^ P.iw ∧ (∀ e ∈ g.hist, e = none) ∧ g.asks = [] ∧ (∀ j, j < P.pl → (s.pipe j).rd = false ∧ (s.pipe j).acc = false)
  one : ∀ j k, j < P.pl → k < P.pl → (s.pipe j).rd = true → (s.pipe k).rd = true → j = k
  rdv : ∀ j, j < P.pl → (s.pipe j).rd = true → s.rvalid = false ∧ ∃ q, g.asks.map (answerOf P) = g.answers ++ [q] ∧ q = P.word (s.pipe j).data (s.pipe j).word
  nrd : (∀ j, j < P.pl → (s.pipe j).rd = false) → g.answers ++ shown s = g.asks.map (answerOf P)

theorem goRead_some {P : Params} {s : S} {i : In} {a : Nat} (h : goRead P s i = some a) :
    s.init = false ∧ (s.rvalid = true → i.rready = true) ∧ (∀ j, j < P.pl → (s.pipe j).rd = false) ∧ i.ar = some a := by
  unfold goRead at h
  split at h
  · rename_i hc
    simp only [Bool.and_eq_true, Bool.not_eq_true', Bool.or_eq_true] at hc
    refine ⟨hc.1.1, fun hv => ?_, any_false.mp hc.2, h⟩
    rcases hc.1.2 with h1 | h1
    · rw [hv] at h1; cases h1
    · exact h1
  · cases h

theorem goAcc_some {P : Params} {s : S} {i : In} {x : Nat × Nat} (h : goAcc P s i = some x) :
    s.init = false ∧ goRead P s i = none ∧ s.tready = false ∧ i.stat = some x ∧ ∀ j, j < P.pl → ((s.pipe j).rd || (s.pipe j).acc) = true → (s.pipe j).addr ≠ x.1 := by
  unfold goAcc at h
  split at h
  · rename_i hc
    simp only [Bool.and_eq_true, Bool.not_eq_true', Option.isNone_iff_eq_none] at hc
    obtain ⟨h1, h2⟩ := Option.filter_eq_some_iff.mp h
    refine ⟨hc.1.1, hc.1.2, hc.2, h1, fun j hj ha e => ?_⟩
    have h3 : hazard P s x.1 = false := by simpa using h2
    have := any_false.mp h3 j hj
    rw [ha, e] at this
    simp at this
  · cases h

theorem enter_acc {P : Params} {s : S} {i : In} (h : (enter P s i).acc = true) : ∃ x, goAcc P s i = some x ∧ (enter P s i).addr = x.1 ∧ (enter P s i).inc = x.2 ∧
    (enter P s i).data = s.mem x.1 ∧ (enter P s i).rd = false := by
  unfold enter at h ⊢
  cases hr : goRead P s i with
  | some a => rw [hr] at h; cases h
  | none =>
    rw [hr] at h
    cases ha : goAcc P s i with
    | none => rw [ha] at h; cases h
    | some x => obtain ⟨id, x⟩ := x; exact ⟨(id, x), rfl, rfl, rfl, rfl, rfl⟩

theorem enter_idle {P : Params} {s : S} {i : In} (h : (enter P s i).acc = false) : goAcc P s i = none := by
  unfold enter at h
  cases hr : goRead P s i with
  | some a => unfold goAcc; rw [hr]; simp
  | none =>
    rw [hr] at h
    cases ha : goAcc P s i with
    | none => rfl
    | some x => rw [ha] at h; cases h

theorem enter_rd {P : Params} {s : S} {i : In} : ((enter P s i).rd = true ↔ ∃ a, goRead P s i = some a) := by
  unfold enter
  cases hr : goRead P s i with
  | some a => simp
  | none =>
    cases ha : goAcc P s i with
    | none => simp
    | some x => obtain ⟨id, x⟩ := x; simp

theorem inv_step {P : Params} (hp : 2 ≤ P.pl) {s : S} {g : G} {i : In} (h : Inv P s g) (hid : ∀ x, i.stat = some x → x.1 < 2 ^ P.iw) :
    Inv P (next P s i) (watch P s g i) := by
  obtain ⟨m, hm⟩ : ∃ m, P.pl = m + 2 := ⟨P.pl - 2, by omega⟩
  have hlast : P.pl - 1 = m + 1 := by omega
  have hp0 : ∀ j, (next P s i).pipe (j + 1) = s.pipe j := fun _ => rfl
  have hpe : (next P s i).pipe 0 = enter P s i := rfl
  have hh0 : ∀ j : Nat, (watch P s g i).hist[j + 1]? = g.hist[j]? := fun _ => rfl
  have hhe : (watch P s g i).hist[0]? = some (goAcc P s i) := rfl
  -- the write does not touch what is in the earlier stages
  have hmem : ∀ j, j < m + 1 → (s.pipe j).acc = true → (next P s i).mem (s.pipe j).addr = s.mem (s.pipe j).addr := by
    intro j hj ha
    show (match write P s with | some (k, v) => upd s.mem k v | none => s.mem) _ = _
    cases hl : (s.pipe (m + 1)).acc with
    | true =>
      rw [write_acc (by rw [hlast]; exact hl), hlast]
      have := h.uniq j (m + 1) hj (by omega) ha (by rw [hl, Bool.or_true])
      exact upd_ne _ _ _ _ this.symm
    | false =>
      cases hi : s.init with
      | false => rw [write_idle (by rw [hlast]; exact hl) hi]
      | true =>
        have := ((h.ini hi).2.2.2.2 j (by omega)).2
        rw [ha] at this; cases this
  have hmem0 : ∀ x, goAcc P s i = some x → (next P s i).mem x.1 = s.mem x.1 := by
    intro x hx
    obtain ⟨h1, _, _, _, h5⟩ := goAcc_some hx
    show (match write P s with | some (k, v) => upd s.mem k v | none => s.mem) _ = _
    cases hl : (s.pipe (m + 1)).acc with
    | false => rw [write_idle (by rw [hlast]; exact hl) h1]
    | true =>
      rw [write_acc (by rw [hlast]; exact hl), hlast]
      exact upd_ne _ _ _ _ (h5 (m + 1) (by omega) (by rw [hl, Bool.or_true])).symm
  have hansl : ∀ v, answer P s = some v → (s.pipe (m + 1)).rd = true ∧ v = P.word (s.pipe (m + 1)).data (s.pipe (m + 1)).word := by
    intro v hv
    unfold answer at hv
    rw [hlast] at hv
    dsimp only at hv
    split at hv
    · rename_i hc
      simp only [Bool.and_eq_true] at hc
      exact ⟨hc.2, (Option.some.inj hv).symm⟩
    · cases hv
  have hansn : answer P s = none → (s.pipe (m + 1)).rd = false := by
    intro hv
    unfold answer at hv
    rw [hlast] at hv
    cases hr : (s.pipe (m + 1)).rd with
    | false => rfl
    | true =>
      have : (s.pipe (m + 1)).acc = false := by
        cases ha : (s.pipe (m + 1)).acc with
        | false => rfl
        | true =>
          have := ((h.stage (m + 1) (by omega)).acc ha).2.2
          rw [hr] at this; cases this
      simp [this, hr] at hv
  constructor
  case stage =>
    intro j hj
    cases j with
    | zero =>
      constructor
      · rw [hpe]
        intro ha
        obtain ⟨x, h1, h2, h3, h4, h5⟩ := enter_acc ha
        rw [hhe, h1, h2, h3, h4, h5]
        exact ⟨rfl, (hmem0 x h1).symm, rfl⟩
      · rw [hpe]
        intro ha x e
        rw [hhe, enter_idle ha] at e
        cases e
    | succ j =>
      have ho := h.stage j (by omega)
      constructor
      · rw [hp0]
        intro ha
        obtain ⟨h1, h2, h3⟩ := ho.acc ha
        rw [hh0]
        exact ⟨h1, by rw [h2, hmem j (by omega) ha], h3⟩
      · rw [hp0]
        intro ha x
        rw [hh0]
        exact ho.idle ha x
  case lt =>
    intro j hj
    cases j with
    | zero =>
      rw [hpe]
      intro ha
      obtain ⟨x, h1, h2, _⟩ := enter_acc ha
      rw [h2]
      exact hid x (goAcc_some h1).2.2.2.1
    | succ j => rw [hp0]; exact h.lt j (by omega)
  case uniq =>
    intro j k hjk hk ha hb
    cases k with
    | zero => omega
    | succ k =>
      rw [hp0] at hb ⊢
      cases j with
      | zero =>
        rw [hpe] at ha ⊢
        obtain ⟨x, h1, h2, _⟩ := enter_acc ha
        rw [h2]
        exact (goAcc_some h1).2.2.2.2 k (by omega) hb
      | succ j => rw [hp0] at ha ⊢; exact h.uniq j k (by omega) (by omega) ha hb
  case mem =>
    intro hi id hidl
    have hi : (s.init && decide (s.ptr ≠ 2 ^ P.iw - 1)) = false := hi
    cases hs : s.init with
    | true =>
      -- the last location is cleared
      rw [hs, Bool.true_and] at hi
      have hptr : s.ptr = 2 ^ P.iw - 1 := by
        have := of_decide_eq_false hi
        exact Classical.not_not.mp this
      obtain ⟨i1, i2, i3, i4, i5⟩ := h.ini hs
      have hw : write P s = some (s.ptr, 0) := write_ini (i5 _ (by omega)).2 hs
      have hc : counterAt P (watch P s g i).hist id = 0 := by
        unfold counterAt
        rw [sumFor_none, Nat.zero_mod]
        intro e he
        have he := List.mem_of_mem_drop he
        have he : e ∈ goAcc P s i :: g.hist := he
        rcases List.mem_cons.mp he with rfl | he
        · unfold goAcc; rw [hs]; simp
        · exact i3 e he
      rw [hc]
      show (match write P s with | some (k, v) => upd s.mem k v | none => s.mem) id = 0
      rw [hw]
      show upd s.mem s.ptr 0 id = 0
      by_cases e : id = s.ptr
      · rw [e, upd_same]
      · rw [upd_ne _ _ _ _ e]
        exact i1 id (by omega)
    | false =>
      have hme := h.mem hs id hidl
      have hd : counterAt P (watch P s g i).hist id = (sumFor (g.hist[m + 1]?.toList) id + counterAt P g.hist id) % 2 ^ P.cw := by
        unfold counterAt
        rw [hm]
        show sumFor (g.hist.drop (m + 1)) id % _ = _
        rw [sumFor_drop, Nat.add_mod, Nat.add_mod (sumFor g.hist[m + 1]?.toList id), Nat.mod_mod]
      rw [hd, ← hme]
      show (match write P s with | some (k, v) => upd s.mem k v | none => s.mem) id = _
      have hmlt : s.mem id < 2 ^ P.cw := by rw [hme]; exact Nat.mod_lt _ (Nat.two_pow_pos _)
      have ho := h.stage (m + 1) (by omega)
      cases hl : (s.pipe (m + 1)).acc with
      | false =>
        rw [write_idle (by rw [hlast]; exact hl) hs]
        have hn : sumFor (g.hist[m + 1]?.toList) id = 0 := by
          cases hg : g.hist[m + 1]? with
          | none => rfl
          | some e =>
            cases e with
            | none => rfl
            | some x => exact absurd hg (ho.idle hl x)
        rw [hn]
        show s.mem id = _
        rw [Nat.zero_add, Nat.mod_eq_of_lt hmlt]
      | true =>
        obtain ⟨o1, o2, o3⟩ := ho.acc hl
        rw [o1, write_acc (by rw [hlast]; exact hl), hlast]
        show upd s.mem _ _ id = (((if _ = id then _ else 0) + 0) + s.mem id) % _
        by_cases e : id = (s.pipe (m + 1)).addr
        · rw [e, upd_same, if_pos rfl, o2, Nat.add_comm, Nat.add_zero (s.pipe (m + 1)).inc]
        · rw [upd_ne _ _ _ _ e, if_neg (fun h => e h.symm), Nat.add_zero, Nat.zero_add, Nat.mod_eq_of_lt hmlt]
  case ini =>
    intro hi
    have hi : (s.init && decide (s.ptr ≠ 2 ^ P.iw - 1)) = true := hi
    rw [Bool.and_eq_true, decide_eq_true_eq] at hi
    obtain ⟨hs, hne⟩ := hi
    obtain ⟨i1, i2, i3, i4, i5⟩ := h.ini hs
    have hr : goRead P s i = none := by unfold goRead; rw [hs]; simp
    have ha : goAcc P s i = none := by unfold goAcc; rw [hs]; simp
    have hw : write P s = some (s.ptr, 0) := write_ini (i5 _ (by omega)).2 hs
    have hpn : (next P s i).ptr = s.ptr + 1 := by
      show (if s.init then (s.ptr + 1) % 2 ^ P.iw else s.ptr) = _
      rw [hs, if_pos rfl, Nat.mod_eq_of_lt (by omega)]
    refine ⟨fun id hid => ?_, by rw [hpn]; omega, fun e he => ?_, ?_, fun j hj => ?_⟩
    · rw [hpn] at hid
      show (match write P s with | some (k, v) => upd s.mem k v | none => s.mem) id = 0
      rw [hw]
      show upd s.mem s.ptr 0 id = 0
      by_cases e : id = s.ptr
      · rw [e, upd_same]
      · rw [upd_ne _ _ _ _ e]; exact i1 id (by omega)
    · have he : e ∈ goAcc P s i :: g.hist := he
      rw [ha] at he
      rcases List.mem_cons.mp he with rfl | he
      · rfl
      · exact i3 e he
    · show g.asks ++ _ = []
      rw [i4, hr]; rfl
    · cases j with
      | zero => rw [hpe]; unfold enter; rw [hr, ha]; exact ⟨rfl, rfl⟩
      | succ j => rw [hp0]; exact i5 j (by omega)
  case one =>
    intro j k hj hk h1 h2
    cases j with
    | zero =>
      cases k with
      | zero => rfl
      | succ k =>
        rw [hpe] at h1
        rw [hp0] at h2
        obtain ⟨a, ha⟩ := enter_rd.mp h1
        have := (goRead_some ha).2.2.1 k (by omega)
        rw [h2] at this; cases this
    | succ j =>
      cases k with
      | zero =>
        rw [hp0] at h1
        rw [hpe] at h2
        obtain ⟨a, ha⟩ := enter_rd.mp h2
        have := (goRead_some ha).2.2.1 j (by omega)
        rw [h1] at this; cases this
      | succ k =>
        rw [hp0] at h1 h2
        rw [h.one j k (by omega) (by omega) h1 h2]
  case rdv =>
    intro j hj h1
    cases j with
    | zero =>
      rw [hpe] at h1 ⊢
      obtain ⟨a, ha⟩ := enter_rd.mp h1
      obtain ⟨g1, g2, g3, g4⟩ := goRead_some ha
      have hn := h.nrd g3
      have han : answer P s = none := by
        cases hv : answer P s with
        | none => rfl
        | some v =>
          have := (hansl v hv).1
          rw [g3 (m + 1) (by omega)] at this; cases this
      have hrv : (next P s i).rvalid = (s.rvalid && !i.rready) := by
        show (match answer P s with | some _ => true | none => s.rvalid && !i.rready) = _
        rw [han]
      have hz : (next P s i).rvalid = false := by
        rw [hrv]
        cases hv : s.rvalid with
        | false => rfl
        | true => rw [g2 hv]; rfl
      refine ⟨hz, P.word (enter P s i).data (enter P s i).word, ?_, rfl⟩
      show (g.asks ++ _).map _ = (g.answers ++ _) ++ _
      rw [ha]
      have he : g.answers ++ (if s.rvalid && i.rready then [s.rdata] else []) = g.answers ++ shown s := by
        unfold shown
        cases hv : s.rvalid with
        | false => rfl
        | true => rw [g2 hv]; rfl
      rw [he, hn, List.map_append]
      congr 1
      have hee : enter P s i = { rd := true, addr := P.idOf a, word := P.wordOf a, data := s.mem (P.idOf a) } := by unfold enter; rw [ha]
      rw [hee, h.mem g1 _ (show P.idOf a < _ from Nat.mod_lt _ (Nat.two_pow_pos _))]
      rfl
    | succ j =>
      rw [hp0] at h1 ⊢
      obtain ⟨r1, q, r2, r3⟩ := h.rdv j (by omega) h1
      have hgr : goRead P s i = none := by
        cases hv : goRead P s i with
        | none => rfl
        | some a =>
          have := (goRead_some hv).2.2.1 j (by omega)
          rw [h1] at this; cases this
      have han : answer P s = none := by
        cases hv : answer P s with
        | none => rfl
        | some v =>
          have := h.one j (m + 1) (by omega) (by omega) h1 (hansl v hv).1
          omega
      refine ⟨?_, q, ?_, r3⟩
      · show (match answer P s with | some _ => true | none => s.rvalid && !i.rready) = false
        rw [han, r1]; rfl
      · show (g.asks ++ _).map _ = (g.answers ++ _) ++ _
        rw [hgr, r1]
        simp only [Option.map_none, Option.toList_none, List.append_nil, Bool.false_and, Bool.false_eq_true, if_false]
        exact r2
  case nrd =>
    intro hno
    have hgr : goRead P s i = none := by
      cases hv : goRead P s i with
      | none => rfl
      | some a =>
        have := hno 0 (by omega)
        rw [hpe, enter_rd.mpr ⟨a, hv⟩] at this; cases this
    show (g.answers ++ (if s.rvalid && i.rready then [s.rdata] else [])) ++ (if (next P s i).rvalid then [(next P s i).rdata] else []) = (g.asks ++ _).map _
    rw [hgr]
    simp only [Option.map_none, Option.toList_none, List.append_nil]
    have hrv : (next P s i).rvalid = (match answer P s with | some _ => true | none => s.rvalid && !i.rready) := rfl
    have hrd : (next P s i).rdata = (match answer P s with | some v => v | none => s.rdata) := rfl
    rw [hrv, hrd]
    cases hv : answer P s with
    | none =>
      have hrl := hansn hv
      have hall : ∀ j, j < P.pl → (s.pipe j).rd = false := by
        intro j hj
        rcases Nat.lt_or_ge j (m + 1) with hl | hl
        · have := hno (j + 1) (by omega); rwa [hp0] at this
        · have : j = m + 1 := by omega
          rw [this]; exact hrl
      rw [← h.nrd hall, List.append_assoc]
      congr 1
      unfold shown
      cases s.rvalid <;> cases i.rready <;> rfl
    | some v =>
      obtain ⟨v1, v2⟩ := hansl v hv
      obtain ⟨r1, q, r2, r3⟩ := h.rdv (m + 1) (by omega) v1
      rw [r1, r2, r3, v2]
      simp

theorem inv_init (P : Params) (mem : Nat → Nat) : Inv P { mem := mem } {} := by
  refine ⟨fun j _ => ⟨fun h => ?_, fun _ x => ?_⟩, fun j _ h => ?_, fun j k _ _ h => ?_, fun h => ?_, fun _ => ⟨fun id h => ?_, Nat.two_pow_pos _, fun e h => ?_, rfl, fun j _ => ⟨rfl, rfl⟩⟩,
    fun j k _ _ h => ?_, fun j _ h => ?_, fun _ => rfl⟩
  · cases h
  · simp
  · cases h
  · cases h
  · cases h
  · exact absurd h (Nat.not_lt_zero _)
  · cases h
  · cases h
  · cases h

/-- handshakes: what was accepted in the last cycle is on offer, and the rest has been handed over -/
structure Hand (P : Params) (x : Sys) (last : In) : Prop where
  tr : x.s.tready = true → ∃ e l, x.g.hist = some e :: l ∧ last.stat = some e
  eqt : x.g.handed = (if x.s.tready then x.g.hist.tail else x.g.hist).reverse.filterMap id
  ar : x.s.arready = true → ∃ a h l, x.g.asks = l ++ [(a, h)] ∧ last.ar = some a
  eqa : x.g.addrs = (if x.s.arready then x.g.asks.dropLast else x.g.asks).map (·.1)

theorem hand_step {P : Params} {x : Sys} {last i : In} (h : Hand P x last) (hl : Legal P x.s last i) : Hand P (step P x i) i := by
  have e1 : x.g.handed ++ (if x.s.tready then i.stat.toList else []) = x.g.hist.reverse.filterMap id := by
    rw [h.eqt]
    cases ht : x.s.tready with
    | false => simp
    | true =>
      obtain ⟨e, l, h1, h2⟩ := h.tr ht
      rw [hl.stat e h2 ht, h1]
      simp
  have e2 : x.g.addrs ++ (if x.s.arready then i.ar.toList else []) = x.g.asks.map (·.1) := by
    rw [h.eqa]
    cases ht : x.s.arready with
    | false => simp
    | true =>
      obtain ⟨a, hh, l, h1, h2⟩ := h.ar ht
      rw [hl.ar a h2 ht, h1]
      simp
  constructor
  · intro ht
    have ht : (goAcc P x.s i).isSome = true := ht
    obtain ⟨e, he⟩ := Option.isSome_iff_exists.mp ht
    exact ⟨e, x.g.hist, by show goAcc P x.s i :: _ = _; rw [he], (goAcc_some he).2.2.2.1⟩
  · show x.g.handed ++ _ = (if (goAcc P x.s i).isSome then (goAcc P x.s i :: x.g.hist).tail else goAcc P x.s i :: x.g.hist).reverse.filterMap id
    rw [e1]
    cases goAcc P x.s i with
    | none => simp
    | some e => simp
  · intro ht
    have ht : (goRead P x.s i).isSome = true := ht
    obtain ⟨a, ha⟩ := Option.isSome_iff_exists.mp ht
    exact ⟨a, x.g.hist, x.g.asks, by show x.g.asks ++ _ = _; rw [ha]; rfl, (goRead_some ha).2.2.2⟩
  · show x.g.addrs ++ _ = (if (goRead P x.s i).isSome then (x.g.asks ++ _).dropLast else x.g.asks ++ _).map (·.1)
    rw [e2]
    cases goRead P x.s i with
    | none => simp
    | some a => simp

theorem hand_init (P : Params) (mem : Nat → Nat) : Hand P ⟨{ mem := mem }, {}⟩ {} :=
  ⟨fun h => (by cases h), rfl, fun h => (by cases h), rfl⟩

theorem run_inv {P : Params} (hp : 2 ≤ P.pl) (is : List In) : ∀ {x : Sys} {last : In}, Inv P x.s x.g → Hand P x last → LegalRun P x last is →
    Inv P (run P x is).s (run P x is).g ∧ ∃ l, Hand P (run P x is) l := by
  induction is with
  | nil => intro x last h1 h2 _; exact ⟨h1, last, h2⟩
  | cons i is ih => rintro x last h1 h2 ⟨hl, hr⟩; exact ih (inv_step hp h1 hl.id) (hand_step h2 hl) hr

end Corundum.StatsCounter
