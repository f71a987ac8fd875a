import Verif.Proof.TxCsumInv

namespace Corundum.TxCsum

/-- the insertion registers before word `n` of a frame -/
structure Regs (P : Params) (x : Cmd × List Beat) (n : Nat) (cs : Entry) (split : Bool) : Prop where
  csum : cs.csum = field P x.1 x.2
  off : x.1.en = false → cs.en = false
  before : x.1.en = true → n ≤ x.1.offset / P.K → cs.en = true ∧ cs.offset = x.1.offset - n * P.K ∧ split = false
  half : x.1.en = true → n = x.1.offset / P.K + 1 → x.1.offset % P.K = P.K - 1 → cs.en = true ∧ cs.offset = P.K - 1 ∧ split = true
  after : x.1.en = true → n > x.1.offset / P.K → ¬ (n = x.1.offset / P.K + 1 ∧ x.1.offset % P.K = P.K - 1) → cs.en = false

theorem field_lt (P : Params) (c : Cmd) (f : List Beat) : field P c f < 65536 := by unfold field; omega

theorem beat_ext {a b : Beat} (h1 : ∀ j, a.lane j = b.lane j) (h2 : a.keep = b.keep) (h3 : a.last = b.last) (h4 : a.side = b.side) : a = b := by
  cases a; cases b
  simp only at h1 h2 h3 h4
  rw [h2, h3, h4, funext h1]

/-- word `n` of the frame as it should leave -/
def fixBeat (P : Params) (x : Cmd × List Beat) (n : Nat) (b : Beat) : Beat := if x.1.en then putBeat P x.1.offset (field P x.1 x.2) n b else b

theorem insert_spec (P : Params) (x : Cmd × List Beat) (n : Nat) (cs : Entry) (split : Bool) (b : Beat) (h : Regs P x n cs split) :
    (insert P cs split b).1 = fixBeat P x n b ∧ Regs P x (n + 1) (insert P cs split b).2.1 (insert P cs split b).2.2 := by
  have hK := K_ge P
  have hf := field_lt P x.1 x.2
  have hcs := h.csum
  have hdm := Nat.div_add_mod x.1.offset P.K
  have hml := Nat.mod_lt x.1.offset (show 0 < P.K by omega)
  unfold fixBeat
  cases hen : x.1.en with
  | false =>
    have h1 := h.off hen
    have hi : insert P cs split b = (b, cs, split) := by unfold insert; rw [h1]; rfl
    rw [hi]
    refine ⟨rfl, hcs, fun _ => h1, fun h' => ?_, fun h' => ?_, fun h' => ?_⟩
    all_goals (rw [hen] at h'; cases h')
  | true =>
    rw [if_pos rfl]
    generalize hq : x.1.offset / P.K = q at *
    generalize hr : x.1.offset % P.K = r at *
    have hoff : x.1.offset = q * P.K + r := by rw [Nat.mul_comm]; omega
    rcases Nat.lt_trichotomy n q with hlt | heq | hgt
    · -- the field comes later
      obtain ⟨e1, e2, e3⟩ := h.before hen (by omega)
      obtain ⟨t, ht⟩ : ∃ t, q = n + 1 + t := ⟨q - n - 1, by omega⟩
      have e4 : q * P.K = n * P.K + P.K + t * P.K := by rw [ht, Nat.add_mul, Nat.add_mul, Nat.one_mul]
      have hge : cs.offset ≥ P.K := by omega
      have hi : insert P cs split b = (b, { cs with offset := cs.offset - P.K }, split) := by
        unfold insert; rw [e1, if_pos rfl, if_pos hge]
      rw [hi]
      refine ⟨?_, hcs, fun h' => (by rw [hen] at h'; cases h'), fun _ _ => ⟨e1, ?_, e3⟩, fun _ h1 => ?_, fun _ h1 => ?_⟩
      · refine beat_ext (fun j => ?_) rfl rfl rfl
        show b.lane j = if _ then _ else if _ then _ else _
        rw [if_neg (by omega), if_neg (by omega)]
      · show cs.offset - P.K = _
        rw [Nat.add_mul, Nat.one_mul]; omega
      · rw [hq] at h1; omega
      · rw [hq] at h1; omega
    · -- the field begins in this word
      obtain ⟨e1, e2, e3⟩ := h.before hen (by omega)
      have ho : cs.offset = r := by rw [e2, heq]; omega
      have hng : ¬ cs.offset ≥ P.K := by omega
      subst heq
      by_cases hlastj : r = P.K - 1
      · have hi : insert P cs split b = ({ b with lane := fun j => if j = P.K - 1 then cs.csum / 256 % 256 else b.lane j }, cs, true) := by
          unfold insert; rw [e1, if_pos rfl, if_neg hng, e3, if_neg (by decide), if_pos (by omega)]
        rw [hi]
        refine ⟨?_, hcs, fun h' => (by rw [hen] at h'; cases h'), fun _ h1 => ?_, fun _ _ _ => ⟨e1, (by show cs.offset = _; omega), rfl⟩, fun _ _ h2 => ?_⟩
        · refine beat_ext (fun j => ?_) rfl rfl rfl
          show (if j = P.K - 1 then cs.csum / 256 % 256 else b.lane j) = if _ then _ else if _ then _ else _
          by_cases hj : j = P.K - 1
          · rw [if_pos hj, if_pos (by omega), hcs]; omega
          · rw [if_neg hj, if_neg (by omega), if_neg (by omega)]
        · rw [hq] at h1; omega
        · exact absurd ⟨by rw [hq], by rw [hr]; exact hlastj⟩ h2
      · have hi : insert P cs split b = ({ b with lane := fun j => if j = cs.offset + 1 then cs.csum % 256 else if j = cs.offset then cs.csum / 256 % 256 else b.lane j }, { cs with en := false }, split) := by
          unfold insert; rw [e1, if_pos rfl, if_neg hng, e3, if_neg (by decide), if_neg (by omega)]
        rw [hi]
        refine ⟨?_, hcs, fun _ => rfl, fun _ h1 => ?_, fun _ _ h2 => ?_, fun _ _ _ => rfl⟩
        · refine beat_ext (fun j => ?_) rfl rfl rfl
          show (if j = cs.offset + 1 then cs.csum % 256 else if j = cs.offset then cs.csum / 256 % 256 else b.lane j) = if _ then _ else if _ then _ else _
          by_cases hj : j = cs.offset
          · rw [if_neg (by omega), if_pos hj, if_pos (by omega), hcs]; omega
          · by_cases hj1 : j = cs.offset + 1
            · rw [if_pos hj1, if_neg (by omega), if_pos (by omega), hcs]
            · rw [if_neg hj1, if_neg hj, if_neg (by omega), if_neg (by omega)]
        · rw [hq] at h1; omega
        · rw [hr] at h2; omega
    · by_cases hh : n = q + 1 ∧ r = P.K - 1
      · -- the second half
        obtain ⟨e1, e2, e3⟩ := h.half hen (by rw [hq]; exact hh.1) (by rw [hr]; exact hh.2)
        have hi : insert P cs split b = ({ b with lane := fun j => if j = 0 then cs.csum % 256 else b.lane j }, { cs with en := false }, split) := by
          unfold insert; rw [e1, if_pos rfl, if_neg (by omega), e3, if_pos rfl]
        rw [hi]
        refine ⟨?_, hcs, fun _ => rfl, fun _ h1 => ?_, fun _ h1 => ?_, fun _ _ _ => rfl⟩
        · refine beat_ext (fun j => ?_) rfl rfl rfl
          show (if j = 0 then cs.csum % 256 else b.lane j) = if _ then _ else if _ then _ else _
          have e4 : n * P.K = q * P.K + P.K := by rw [hh.1, Nat.add_mul, Nat.one_mul]
          by_cases hj : j = 0
          · rw [if_pos hj, if_neg (by omega), if_pos (by omega), hcs]
          · rw [if_neg hj, if_neg (by omega), if_neg (by omega)]
        · rw [hq] at h1; omega
        · rw [hq] at h1; omega
      · -- the field has been written
        have e1 := h.after hen (by rw [hq]; omega) (by rw [hq, hr]; exact hh)
        have hi : insert P cs split b = (b, cs, split) := by unfold insert; rw [e1]; rfl
        rw [hi]
        obtain ⟨t, ht⟩ : ∃ t, n = q + 1 + t := ⟨n - q - 1, by omega⟩
        have e4 : n * P.K = q * P.K + P.K + t * P.K := by rw [ht, Nat.add_mul, Nat.add_mul, Nat.one_mul]
        have e5 : 0 < t → P.K ≤ t * P.K := fun h0 => Nat.le_mul_of_pos_left _ h0
        refine ⟨?_, hcs, fun h' => (by rw [hen] at h'; cases h'), fun _ h1 => ?_, fun _ h1 => ?_, fun _ _ _ => e1⟩
        · refine beat_ext (fun j => ?_) rfl rfl rfl
          show b.lane j = if _ then _ else if _ then _ else _
          by_cases ht0 : t = 0
          · rw [if_neg (by omega), if_neg (by omega)]
          · have := e5 (by omega)
            rw [if_neg (by omega), if_neg (by omega)]
        · rw [hq] at h1; omega
        · rw [hq] at h1; omega

theorem regs_start (P : Params) (x : Cmd × List Beat) : Regs P x 0 (entryOf P x) false := by
  refine ⟨rfl, fun h => h, fun h _ => ⟨h, ?_, rfl⟩, fun _ h => ?_, fun _ h => ?_⟩
  · show x.1.offset = _; omega
  · exact absurd h (by generalize x.1.offset / P.K = q; omega)
  · exact absurd h (by generalize x.1.offset / P.K = q; omega)

theorem fix_eq (P : Params) (x : Cmd × List Beat) : fix P x = x.2.mapIdx (fixBeat P x) := by
  unfold fix fixBeat
  cases x.1.en with
  | true => rfl
  | false =>
    simp only [Bool.false_eq_true, if_false]
    apply List.ext_getElem
    · simp
    · intro k h1 h2; simp

/-- the output side -/
structure InvO (P : Params) (s : S) (g : G) (h : H) : Prop where
  sums : s.cq ++ s.cin.toList = h.sums.drop h.opened
  le : h.opened ≤ h.sums.length
  shut : s.frame = false → g.out ++ s.m.toList ++ s.temp.toList = (g.done.take h.opened).flatMap (fix P) ∧ s.dq = ((g.done.drop h.opened).flatMap (·.2)) ++ g.part
  opn : s.frame = true → ∃ x k, h.opened = k + 1 ∧ g.done[k]? = some x ∧ h.pos < x.2.length ∧ Regs P x h.pos s.cs s.split ∧
    g.out ++ s.m.toList ++ s.temp.toList = (g.done.take k).flatMap (fix P) ++ (fix P x).take h.pos ∧
    s.dq = x.2.drop h.pos ++ ((g.done.drop (k + 1)).flatMap (·.2)) ++ g.part
  skid : s.oready = true → s.temp = none
  skid2 : s.m = none → s.temp = none

/-- what is sent, and what is in the output registers afterwards -/
theorem skid_next {P : Params} {s : S} {g : G} {h : H} (hv : InvO P s g h) (i : In) :
    (watch P s g i).out ++ (next P s i).m.toList ++ (next P s i).temp.toList = g.out ++ s.m.toList ++ s.temp.toList ++ (word P s i).toList ∧
    ((next P s i).oready = true → (next P s i).temp = none) ∧ ((next P s i).m = none → (next P s i).temp = none) := by
  show (g.out ++ (if i.mready then s.m.toList else [])) ++
      (if s.oready then (if i.mready || s.m.isNone then word P s i else s.m) else if i.mready then s.temp else s.m).toList ++
      (if s.oready then (if i.mready || s.m.isNone then s.temp else word P s i) else if i.mready then none else s.temp).toList = _ ∧
    ((i.mready || (s.temp.isNone && s.m.isNone)) = true → (if s.oready then (if i.mready || s.m.isNone then s.temp else word P s i) else if i.mready then none else s.temp) = none) ∧
    ((if s.oready then (if i.mready || s.m.isNone then word P s i else s.m) else if i.mready then s.temp else s.m) = none →
      (if s.oready then (if i.mready || s.m.isNone then s.temp else word P s i) else if i.mready then none else s.temp) = none)
  have hw : s.oready = false → word P s i = none := by
    intro ho; unfold word popD; rw [ho]; rfl
  have h1 := hv.skid
  have h2 := hv.skid2
  cases ho : s.oready with
  | true =>
    have ht := h1 ho
    rw [ht]
    cases hm : s.m <;> cases i.mready <;> cases word P s i <;> simp
  | false =>
    rw [hw ho]
    cases hm : s.m with
    | none => rw [h2 hm]; cases i.mready <;> simp
    | some b => cases ht : s.temp <;> cases i.mready <;> simp

theorem popD_some {s : S} {i : In} {b : Beat} (h : popD s i = some b) : s.frame = true ∧ s.dq = b :: s.dq.tail := by
  unfold popD at h
  split at h
  · rename_i hc
    simp only [Bool.and_eq_true] at hc
    refine ⟨hc.1.2, ?_⟩
    cases hq : s.dq with
    | nil => rw [hq] at h; cases h
    | cons a l => rw [hq] at h; rw [Option.some.inj h]; rfl
  · cases h

theorem popC_some {s : S} {i : In} {e : Entry} (h : popC s i = some e) : s.frame = false ∧ s.cq = e :: s.cq.tail := by
  unfold popC at h
  split at h
  · rename_i hc
    simp only [Bool.and_eq_true, Bool.not_eq_true'] at hc
    refine ⟨hc.1, ?_⟩
    cases hq : s.cq with
    | nil => rw [hq] at h; cases h
    | cons a l => rw [hq] at h; rw [Option.some.inj h]; rfl
  · cases h

/-- the words that have arrived -/
theorem arrive (P : Params) (s : S) (g : G) (i : In) : ∃ l, (watch P s g i).done = g.done ++ l ∧
    (∀ k, k ≤ g.done.length → (((watch P s g i).done.drop k).flatMap (·.2)) ++ (watch P s g i).part = ((g.done.drop k).flatMap (·.2)) ++ g.part ++ (takeBeat s i).toList) := by
  have hd : (watch P s g i).done = match takeBeat s i with
    | some b => if b.last then g.done ++ [(g.cur, g.part ++ [b])] else g.done
    | none => g.done := rfl
  have hp : (watch P s g i).part = match takeBeat s i with | some b => if b.last then [] else g.part ++ [b] | none => g.part := rfl
  rw [hd, hp]
  cases takeBeat s i with
  | none => exact ⟨[], by simp, fun k _ => by simp⟩
  | some b =>
    cases hb : b.last with
    | false => exact ⟨[], by simp [hb], fun k _ => by simp [hb]⟩
    | true =>
      refine ⟨[(g.cur, g.part ++ [b])], by simp [hb], fun k hk => ?_⟩
      simp only [hb, if_true]
      rw [List.drop_append_of_le_length hk]
      simp

theorem getElem?_drop_cons {α : Type} {l : List α} {k : Nat} {a : α} {t : List α} (h : l.drop k = a :: t) : l[k]? = some a ∧ l.drop (k + 1) = t := by
  have h1 := congrArg (fun l => l[0]?) h
  simp only [List.getElem?_drop, Nat.add_zero, List.getElem?_cons_zero] at h1
  refine ⟨h1, ?_⟩
  have := congrArg List.tail h
  rwa [List.tail_drop, List.tail_cons] at this

theorem inv_out {P : Params} (hd : P.d ≤ 14) {s : S} {g : G} {h : H} {i : In} (hv : InvO P s g h) (hi : InvI P s g h) (hl : Legal g i) :
    InvO P (next P s i) (watch P s g i) (hnext P s g h i) := by
  obtain ⟨hsk1, hsk2, hsk3⟩ := skid_next hv i
  obtain ⟨new, hnew, harr⟩ := arrive P s g i
  have hpre := sums_prefix hd hi
  have hsl : h.sums.length ≤ g.done.length := by simpa using hpre.length_le
  have hcq : (next P s i).cq = (if (popC s i).isSome then s.cq.tail else s.cq) ++ (if i.cready then s.cin.toList else []) := rfl
  have hcin : (if i.cready then s.cin.toList else []) = s.cin.toList := by
    cases hc : s.cin with
    | none => simp
    | some e => rw [hl.held (hi.held (by rw [hc]; rfl))]; rfl
  have hdq : (next P s i).dq = (if (popD s i).isSome then s.dq.tail else s.dq) ++ (takeBeat s i).toList := rfl
  have hop : (hnext P s g h i).opened = h.opened + (popC s i).isSome.toNat := rfl
  have hle := hv.le
  constructor
  case sums =>
    rw [hcq, hcin, hop]
    show _ ++ (finish P s i).toList = (h.sums ++ (finish P s i).toList).drop _
    cases hp : popC s i with
    | none =>
      simp only [Option.isSome_none, Bool.toNat_false, Nat.add_zero, Bool.false_eq_true, if_false]
      rw [List.drop_append_of_le_length hle, hv.sums]
    | some e =>
      obtain ⟨h1, h2⟩ := popC_some hp
      simp only [Option.isSome_some, Bool.toNat_true, if_true]
      have h3 := hv.sums
      rw [h2, List.cons_append] at h3
      have h4 := getElem?_drop_cons h3.symm
      have h5 : h.opened < h.sums.length := by
        rcases Nat.lt_or_ge h.opened h.sums.length with hx | hx
        · exact hx
        · rw [List.getElem?_eq_none hx] at h4; cases h4.1
      rw [List.drop_append_of_le_length (by omega), h4.2]
  case le =>
    rw [hop]
    show _ ≤ (h.sums ++ (finish P s i).toList).length
    rw [List.length_append]
    cases hp : popC s i with
    | none => simp; omega
    | some e =>
      obtain ⟨h1, h2⟩ := popC_some hp
      have h3 := hv.sums
      rw [h2, List.cons_append] at h3
      have h4 := getElem?_drop_cons h3.symm
      have h5 : h.opened < h.sums.length := by
        rcases Nat.lt_or_ge h.opened h.sums.length with hx | hx
        · exact hx
        · rw [List.getElem?_eq_none hx] at h4; cases h4.1
      simp; omega
  case shut =>
    intro hf
    have hf : (if s.frame then (match popD s i with | some b => !b.last | none => true) else (popC s i).isSome) = false := hf
    rw [hsk1, hop]
    cases hfr : s.frame with
    | false =>
      rw [hfr] at hf
      have hpc : popC s i = none := by
        cases hp : popC s i with
        | none => rfl
        | some e => rw [hp] at hf; simp at hf
      have hpd : popD s i = none := by unfold popD; rw [hfr]; simp
      have hw : word P s i = none := by unfold word; rw [hpd]; rfl
      obtain ⟨h1, h2⟩ := hv.shut hfr
      rw [hpc, hw, h1]
      simp only [Option.isSome_none, Bool.toNat_false, Nat.add_zero, Option.toList_none, List.append_nil]
      refine ⟨?_, ?_⟩
      · rw [hnew, List.take_append_of_le_length (by omega)]
      · rw [hdq, hpd, harr h.opened (by omega)]
        simp only [Option.isSome_none, Bool.false_eq_true, if_false]
        rw [h2]
    | true =>
      rw [hfr, if_pos rfl] at hf
      obtain ⟨x, k, k1, k2, k3, k4, k5, k6⟩ := hv.opn hfr
      have hpc : popC s i = none := by unfold popC; rw [hfr]; simp
      cases hpd : popD s i with
      | none => rw [hpd] at hf; cases hf
      | some b =>
        rw [hpd] at hf
        have hbl : b.last = true := by simpa using hf
        obtain ⟨_, q2⟩ := popD_some hpd
        have hdr : x.2.drop h.pos = x.2[h.pos] :: x.2.drop (h.pos + 1) := List.drop_eq_getElem_cons k3
        rw [hdr, List.cons_append, List.cons_append] at k6
        have hbe : b = x.2[h.pos] := by
          rw [k6] at q2
          exact (List.cons.inj q2).1.symm
        -- it is the last word of the frame
        obtain ⟨f0, b0, w1, w2, w3⟩ := (hi.whole x (List.mem_of_getElem? k2)).ends
        have hlen : h.pos + 1 = x.2.length := by
          have : ¬ h.pos < f0.length := by
            intro hlt
            have : x.2[h.pos]? = some f0[h.pos] := by rw [w1, List.getElem?_append_left hlt, List.getElem?_eq_getElem hlt]
            rw [List.getElem?_eq_getElem k3] at this
            have := w3 _ (List.getElem_mem hlt)
            rw [← Option.some.inj ‹some x.2[h.pos] = some f0[h.pos]›, ← hbe, hbl] at this
            cases this
          have : x.2.length = f0.length + 1 := by rw [w1]; simp
          omega
        have hw : word P s i = some (fixBeat P x h.pos b) := by
          unfold word; rw [hpd, Option.map_some, (insert_spec P x h.pos s.cs s.split b k4).1]
        have hkl : k < g.done.length := by
          rcases Nat.lt_or_ge k g.done.length with hx | hx
          · exact hx
          · rw [List.getElem?_eq_none hx] at k2; cases k2
        rw [hpc, hw, k5]
        simp only [Option.isSome_none, Bool.toNat_false, Nat.add_zero, Option.toList_some]
        refine ⟨?_, ?_⟩
        · rw [hnew, k1, List.take_append_of_le_length (by omega), List.take_add_one, k2]
          simp only [Option.toList_some, List.flatMap_append, List.flatMap_singleton]
          rw [List.append_assoc]
          congr 1
          rw [fix_eq]
          have hl2 : (x.2.mapIdx (fixBeat P x)).length = h.pos + 1 := by simp [hlen]
          have : x.2.mapIdx (fixBeat P x) = (x.2.mapIdx (fixBeat P x)).take (h.pos + 1) := by rw [← hl2, List.take_length]
          conv => rhs; rw [this, List.take_add_one]
          rw [List.getElem?_mapIdx, List.getElem?_eq_getElem k3, hbe]
          rfl
        · rw [hdq, hpd, k1, harr (k + 1) (by omega)]
          simp only [Option.isSome_some, if_true]
          rw [k6, List.tail_cons, show x.2.drop (h.pos + 1) = [] from List.drop_eq_nil_of_le (by omega), List.nil_append]
  case opn =>
    intro hf
    have hf : (if s.frame then (match popD s i with | some b => !b.last | none => true) else (popC s i).isSome) = true := hf
    rw [hsk1, hop]
    cases hfr : s.frame with
    | false =>
      rw [hfr] at hf
      have hpd : popD s i = none := by unfold popD; rw [hfr]; simp
      have hw : word P s i = none := by unfold word; rw [hpd]; rfl
      obtain ⟨h1, h2⟩ := hv.shut hfr
      cases hp : popC s i with
      | none => rw [hp] at hf; simp at hf
      | some e =>
        obtain ⟨_, p2⟩ := popC_some hp
        have h3 := hv.sums
        rw [p2, List.cons_append] at h3
        have h4 := getElem?_drop_cons h3.symm
        have h5 : h.opened < h.sums.length := by
          rcases Nat.lt_or_ge h.opened h.sums.length with hx | hx
          · exact hx
          · rw [List.getElem?_eq_none hx] at h4; cases h4.1
        have h6 : (g.done.map (entryOf P))[h.opened]? = some e := by
          obtain ⟨t, ht⟩ := hpre
          rw [← ht, List.getElem?_append_left h5]; exact h4.1
        rw [List.getElem?_map, Option.map_eq_some_iff] at h6
        obtain ⟨x, h7, h8⟩ := h6
        have hxl : h.opened < g.done.length := by omega
        have hpos : (hnext P s g h i).pos = 0 := by
          show (if s.frame then _ else 0) = 0
          rw [hfr]; rfl
        have hcs : (next P s i).cs = e := by
          show (if s.frame then _ else (popC s i).getD s.cs) = _
          rw [hfr, hp]; rfl
        have hsp : (next P s i).split = false := by
          show (if s.frame then _ else false) = _
          rw [hfr]; rfl
        obtain ⟨f0, b0, w1, w2, w3⟩ := (hi.whole x (List.mem_of_getElem? h7)).ends
        refine ⟨x, h.opened, rfl, ?_, ?_, ?_, ?_, ?_⟩
        · rw [hnew, List.getElem?_append_left hxl]; exact h7
        · rw [hpos, w1]; simp
        · rw [hpos, hcs, hsp, ← h8]; exact regs_start P x
        · rw [hpos, hw, h1, hnew, List.take_append_of_le_length (by omega)]; simp
        · rw [hdq, hpd, hpos]
          have ha := harr (h.opened + 1) (by omega)
          rw [List.drop_zero, List.append_assoc x.2, ha]
          simp only [Option.isSome_none, Bool.false_eq_true, if_false]
          rw [h2]
          have : g.done.drop h.opened = x :: g.done.drop (h.opened + 1) := by
            rw [List.drop_eq_getElem_cons hxl]
            rw [List.getElem?_eq_getElem hxl] at h7
            rw [Option.some.inj h7]
          rw [this, List.flatMap_cons]
          simp only [List.append_assoc]
    | true =>
      rw [hfr, if_pos rfl] at hf
      obtain ⟨x, k, k1, k2, k3, k4, k5, k6⟩ := hv.opn hfr
      have hpc : popC s i = none := by unfold popC; rw [hfr]; simp
      have hkl : k < g.done.length := by
        rcases Nat.lt_or_ge k g.done.length with hx | hx
        · exact hx
        · rw [List.getElem?_eq_none hx] at k2; cases k2
      rw [hpc]
      simp only [Option.isSome_none, Bool.toNat_false, Nat.add_zero]
      cases hpd : popD s i with
      | none =>
        have hw : word P s i = none := by unfold word; rw [hpd]; rfl
        have hpos : (hnext P s g h i).pos = h.pos := by
          show (if s.frame then (match popD s i with | some _ => h.pos + 1 | none => h.pos) else 0) = _
          rw [hfr, hpd]; rfl
        have hcs : (next P s i).cs = s.cs := by
          show (if s.frame then (match popD s i with | some b => (insert P s.cs s.split b).2.1 | none => s.cs) else (popC s i).getD s.cs) = _
          rw [hfr, hpd]; rfl
        have hsp : (next P s i).split = s.split := by
          show (if s.frame then (match popD s i with | some b => (insert P s.cs s.split b).2.2 | none => s.split) else false) = _
          rw [hfr, hpd]; rfl
        refine ⟨x, k, k1, ?_, ?_, ?_, ?_, ?_⟩
        · rw [hnew, List.getElem?_append_left hkl]; exact k2
        · rw [hpos]; exact k3
        · rw [hpos, hcs, hsp]; exact k4
        · rw [hpos, hw, k5, hnew, List.take_append_of_le_length (by omega)]; simp
        · rw [hdq, hpd, hpos]
          have ha := harr (k + 1) (by omega)
          rw [List.append_assoc (x.2.drop h.pos), ha]
          simp only [Option.isSome_none, Bool.false_eq_true, if_false]
          rw [k6]
          simp only [List.append_assoc]
      | some b =>
        rw [hpd] at hf
        have hbl : b.last = false := by simpa using hf
        obtain ⟨_, q2⟩ := popD_some hpd
        have hdr : x.2.drop h.pos = x.2[h.pos] :: x.2.drop (h.pos + 1) := List.drop_eq_getElem_cons k3
        rw [hdr, List.cons_append, List.cons_append] at k6
        have hbe : b = x.2[h.pos] := by
          rw [k6] at q2
          exact (List.cons.inj q2).1.symm
        obtain ⟨f0, b0, w1, w2, w3⟩ := (hi.whole x (List.mem_of_getElem? k2)).ends
        have hlen : h.pos + 1 < x.2.length := by
          have hxl : x.2.length = f0.length + 1 := by rw [w1]; simp
          have : h.pos ≠ f0.length := by
            intro he
            have h1 : x.2[h.pos]? = some b0 := by rw [w1, he, List.getElem?_append_right (by omega), Nat.sub_self]; rfl
            rw [List.getElem?_eq_getElem k3] at h1
            rw [← hbe] at h1
            rw [Option.some.inj h1, w2] at hbl
            cases hbl
          omega
        have hw : word P s i = some (fixBeat P x h.pos b) := by
          unfold word; rw [hpd, Option.map_some, (insert_spec P x h.pos s.cs s.split b k4).1]
        have hpos : (hnext P s g h i).pos = h.pos + 1 := by
          show (if s.frame then (match popD s i with | some _ => h.pos + 1 | none => h.pos) else 0) = _
          rw [hfr, hpd]; rfl
        have hcs : (next P s i).cs = (insert P s.cs s.split b).2.1 := by
          show (if s.frame then (match popD s i with | some b => (insert P s.cs s.split b).2.1 | none => s.cs) else (popC s i).getD s.cs) = _
          rw [hfr, hpd]; rfl
        have hsp : (next P s i).split = (insert P s.cs s.split b).2.2 := by
          show (if s.frame then (match popD s i with | some b => (insert P s.cs s.split b).2.2 | none => s.split) else false) = _
          rw [hfr, hpd]; rfl
        refine ⟨x, k, k1, ?_, ?_, ?_, ?_, ?_⟩
        · rw [hnew, List.getElem?_append_left hkl]; exact k2
        · rw [hpos]; exact hlen
        · rw [hpos, hcs, hsp]; exact (insert_spec P x h.pos s.cs s.split b k4).2
        · rw [hpos, hw, k5, hnew, List.take_append_of_le_length (by omega), List.take_add_one, fix_eq, List.getElem?_mapIdx, List.getElem?_eq_getElem k3, hbe]
          simp
        · rw [hdq, hpd, hpos]
          have ha := harr (k + 1) (by omega)
          rw [List.append_assoc (x.2.drop (h.pos + 1)), ha]
          simp only [Option.isSome_some, if_true]
          rw [k6, List.tail_cons]
          simp only [List.append_assoc]
  case skid => exact hsk2
  case skid2 => exact hsk3

theorem inv_init_in (P : Params) : InvI P {} {} {} := by
  have hfl : ∀ n, flight n (fun _ => none) = [] := by
    intro n
    induction n with
    | zero => rfl
    | succ n ih => rw [flight, ih]; rfl
  constructor
  case idle => exact fun _ => rfl
  case fits => exact fun l _ => trivial
  case items => rfl
  case acc =>
    refine ⟨[], ?_, rfl⟩
    show ([] : List AItem) = [] ++ flight (P.d + 1) (fun _ => none)
    rw [hfl]; rfl
  case plast => exact fun _ h => absurd h (by simp)
  case pbyte => exact fun _ h => absurd h (by simp)
  case whole => exact fun _ h => absurd h (by simp)
  case gap => exact fun _ _ h => Bool.noConfusion h
  all_goals exact fun h => Bool.noConfusion h

theorem inv_init_out (P : Params) : InvO P {} {} {} := by
  refine ⟨rfl, Nat.le_refl _, fun _ => ⟨rfl, rfl⟩, fun h => ?_, fun _ => rfl, fun _ => rfl⟩
  cases h

theorem run_inv {P : Params} (hd : P.d ≤ 14) (is : List In) : ∀ {x : Sys} {h : H}, InvI P x.s x.g h → InvO P x.s x.g h → LegalRun P x is →
    ∃ h', InvI P (run P x is).s (run P x is).g h' ∧ InvO P (run P x is).s (run P x is).g h' := by
  induction is with
  | nil => intro x h h1 h2 _; exact ⟨h, h1, h2⟩
  | cons i is ih => rintro x h h1 h2 ⟨hl, hr⟩; exact ih (inv_in hd h1 hl) (inv_out hd h2 h1 hl) hr

end Corundum.TxCsum
