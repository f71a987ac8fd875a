import Verif.Proof.StatsCounter
import Verif.Proof.StatsCollect

/-!
# C70: statistics counters
-/
namespace Corundum.StatsCounter
open Corundum.StatsCollect (le_clog2)

/-- From reset, whatever the memory held before: the answers taken so far are the answers due for the first reads accepted, in order, each the selected word of the sum, modulo
`2 ^ STAT_COUNT_WIDTH`, of all increments of that counter accepted more than `PIPELINE` cycles before the read.  At most one read is unanswered. -/
theorem C70_answers (P : Params) (hp : 2 ≤ P.pl) (mem : Nat → Nat) (is : List In) (hl : LegalRun P ⟨{ mem := mem }, {}⟩ {} is) :
    (run P ⟨{ mem := mem }, {}⟩ is).g.answers <+: (run P ⟨{ mem := mem }, {}⟩ is).g.asks.map (answerOf P) ∧
    (run P ⟨{ mem := mem }, {}⟩ is).g.asks.length ≤ (run P ⟨{ mem := mem }, {}⟩ is).g.answers.length + 1 := by
  obtain ⟨h, _⟩ := run_inv hp is (x := ⟨{ mem := mem }, {}⟩) (inv_init P mem) (hand_init P mem) hl
  revert h
  generalize run P ⟨{ mem := mem }, {}⟩ is = x
  intro h
  by_cases hr : ∃ j, j < P.pl ∧ (x.s.pipe j).rd = true
  · obtain ⟨j, hj, hr⟩ := hr
    obtain ⟨_, q, h1, _⟩ := h.rdv j hj hr
    refine ⟨⟨[q], h1.symm⟩, ?_⟩
    have := congrArg List.length h1
    simp only [List.length_map, List.length_append, List.length_cons, List.length_nil] at this
    omega
  · have hno : ∀ j, j < P.pl → (x.s.pipe j).rd = false := fun j hj => by
      cases h1 : (x.s.pipe j).rd with
      | false => rfl
      | true => exact absurd ⟨j, hj, h1⟩ hr
    have h1 := h.nrd hno
    refine ⟨⟨shown x.s, h1⟩, ?_⟩
    have := congrArg List.length h1
    have hs : (shown x.s).length ≤ 1 := by unfold shown; split <;> simp
    simp only [List.length_map, List.length_append] at this
    omega

/-- What is accepted is what is handed over: the increments handed over on the stream are, in order, those accepted, except that the one accepted in the cycle just past is handed
over in the present one; and so for the read addresses. -/
theorem C70_handed (P : Params) (hp : 2 ≤ P.pl) (mem : Nat → Nat) (is : List In) (hl : LegalRun P ⟨{ mem := mem }, {}⟩ {} is) :
    let x := run P ⟨{ mem := mem }, {}⟩ is
    x.g.handed = (if x.s.tready then x.g.hist.tail else x.g.hist).reverse.filterMap id ∧
    x.g.addrs = (if x.s.arready then x.g.asks.dropLast else x.g.asks).map (·.1) :=
  have ⟨_, _, h⟩ := run_inv hp is (x := ⟨{ mem := mem }, {}⟩) (inv_init P mem) (hand_init P mem) hl
  ⟨h.eqt, h.eqa⟩

/-- The memory is cleared in exactly `2 ^ STAT_ID_WIDTH` cycles. -/
theorem C70_clear (P : Params) (mem : Nat → Nat) (is : List In) :
    (run P ⟨{ mem := mem }, {}⟩ is).s.init = decide (is.length < 2 ^ P.iw) := by
  suffices h : ∀ (is : List In) (x : Sys), x.s.init = true → x.s.ptr < 2 ^ P.iw →
      (run P x is).s.init = decide (x.s.ptr + is.length < 2 ^ P.iw) by
    have := h is ⟨{ mem := mem }, {}⟩ rfl (Nat.two_pow_pos _)
    rwa [Nat.zero_add] at this
  have hoff : ∀ (is : List In) (x : Sys), x.s.init = false → (run P x is).s.init = false := by
    intro is
    induction is with
    | nil => intro x h; exact h
    | cons i is ih => intro x h; exact ih _ (by show (x.s.init && _) = false; rw [h]; rfl)
  intro is
  induction is with
  | nil => intro x h1 h2; show x.s.init = _; rw [h1]; simpa using h2
  | cons i is ih =>
    intro x h1 h2
    show (run P (step P x i) is).s.init = _
    by_cases e : x.s.ptr = 2 ^ P.iw - 1
    · rw [hoff is _ (by show (x.s.init && decide _) = false; simp [e])]
      symm
      simp only [List.length_cons, decide_eq_false_iff_not]
      omega
    · have hp : (step P x i).s.ptr = x.s.ptr + 1 := by
        show (if x.s.init then (x.s.ptr + 1) % 2 ^ P.iw else x.s.ptr) = _
        rw [h1, if_pos rfl, Nat.mod_eq_of_lt (by omega)]
      rw [ih _ (by show (x.s.init && decide _) = true; simp [h1, e]) (by rw [hp]; omega), hp]
      simp only [List.length_cons]
      congr 1
      apply propext
      omega

theorem pipe_shift (P : Params) (is : List In) : ∀ (x : Sys) (j : Nat), (run P x is).s.pipe (j + is.length) = x.s.pipe j := by
  induction is with
  | nil => intro x j; rfl
  | cons i is ih =>
    intro x j
    show (run P (step P x i) is).s.pipe (j + (is.length + 1)) = _
    rw [show j + (is.length + 1) = (j + 1) + is.length by omega, ih]
    rfl

/-- A read accepted now is answered `PIPELINE + 1` clock edges later, whatever else happens. -/
theorem C70_latency (P : Params) (hp : 2 ≤ P.pl) (x : Sys) (i : In) (is : List In) (a : Nat) (hg : goRead P x.s i = some a)
    (hl : is.length = P.pl) : (run P x (i :: is)).s.rvalid = true := by
  obtain ⟨m, hm⟩ : ∃ m, P.pl = m + 1 := ⟨P.pl - 1, by omega⟩
  obtain ⟨js, j, rfl⟩ : ∃ js j, is = js ++ [j] := ⟨is.dropLast, is.getLast (by intro h; subst h; simp at hl; omega), (List.dropLast_concat_getLast _).symm⟩
  have hjl : js.length = m := by simp at hl; omega
  have hr : run P x (i :: (js ++ [j])) = step P (run P (step P x i) js) j := by
    show (js ++ [j]).foldl (step P) _ = _
    rw [List.foldl_append]; rfl
  rw [hr]
  have h1 := pipe_shift P js (step P x i) 0
  rw [Nat.zero_add, hjl] at h1
  have h2 : (step P x i).s.pipe 0 = { rd := true, addr := P.idOf a, word := P.wordOf a, data := x.s.mem (P.idOf a) } := by
    show enter P x.s i = _
    unfold enter; rw [hg]
  rw [h2] at h1
  show (match answer P _ with | some _ => true | none => _) = true
  have : answer P (run P (step P x i) js).s = some (P.word (x.s.mem (P.idOf a)) (P.wordOf a)) := by
    unfold answer
    rw [show P.pl - 1 = m by omega, h1]; rfl
  rw [this]

/-- The next read is accepted within `PIPELINE + 1` cycles, if answers are taken. -/
theorem C70_reads_accepted (P : Params) (x : Sys) (hi : x.s.init = false) (i : Nat → In) (hr : ∀ k, (i k).rready = true) (ha : ∀ k, (i k).ar.isSome = true) :
    ∃ k, k ≤ P.pl ∧ (goRead P (run P x ((List.range k).map i)).s (i k)).isSome = true := by
  have hoff : ∀ (is : List In) (y : Sys), y.s.init = false → (run P y is).s.init = false := by
    intro is
    induction is with
    | nil => intro x h; exact h
    | cons i is ih => intro x h; exact ih _ (by show (x.s.init && _) = false; rw [h]; rfl)
  have hgo : ∀ k, (goRead P (run P x ((List.range k).map i)).s (i k)).isSome = false → reading P (run P x ((List.range k).map i)).s = true := by
    intro k hk
    unfold goRead at hk
    rw [hoff _ _ hi, hr k] at hk
    cases h : reading P (run P x ((List.range k).map i)).s with
    | true => rfl
    | false =>
      rw [h] at hk
      simp only [Bool.not_false, Bool.or_true, Bool.and_true, if_true] at hk
      rw [ha k] at hk; cases hk
  by_cases h : ∃ k, k ≤ P.pl ∧ (goRead P (run P x ((List.range k).map i)).s (i k)).isSome = true
  · exact h
  · exfalso
    have hno : ∀ k, k ≤ P.pl → (goRead P (run P x ((List.range k).map i)).s (i k)).isSome = false := by
      intro k hk
      cases h1 : (goRead P (run P x ((List.range k).map i)).s (i k)).isSome with
      | false => rfl
      | true => exact absurd ⟨k, hk, h1⟩ h
    obtain ⟨j, hj, hrd⟩ := any_true.mp (hgo P.pl (hno P.pl (Nat.le_refl _)))
    -- the stage `j` was entered at cycle `pl - 1 - j`
    have hsplit : (List.range P.pl).map i = (List.range (P.pl - 1 - j)).map i ++ (i (P.pl - 1 - j) :: ((List.range j).map fun t => i (P.pl - 1 - j + 1 + t))) := by
      rw [show P.pl = (P.pl - 1 - j) + 1 + j by omega]
      rw [show (P.pl - 1 - j) + 1 + j - 1 - j = P.pl - 1 - j by omega]
      rw [List.range_add, List.map_append, List.range_succ, List.map_append, List.map_map, List.append_assoc]
      rfl
    have hp2 : (run P x ((List.range P.pl).map i)).s.pipe j = enter P (run P x ((List.range (P.pl - 1 - j)).map i)).s (i (P.pl - 1 - j)) := by
      rw [hsplit]
      unfold run
      rw [List.foldl_append, List.foldl_cons]
      have := pipe_shift P ((List.range j).map fun t => i (P.pl - 1 - j + 1 + t)) (step P (run P x ((List.range (P.pl - 1 - j)).map i)) (i (P.pl - 1 - j))) 0
      rw [Nat.zero_add, List.length_map, List.length_range] at this
      exact this
    rw [hp2] at hrd
    obtain ⟨a, ha'⟩ := enter_rd.mp hrd
    have := hno (P.pl - 1 - j) (by omega)
    rw [ha'] at this; cases this

/-- Without reads an increment is accepted within `PIPELINE + 1` cycles. -/
theorem C70_increments_accepted (P : Params) (x : Sys) (hi : x.s.init = false) (ht : x.s.tready = false) (i : Nat → In) (v : Nat × Nat) (ha : ∀ k, (i k).ar = none)
    (hv : ∀ k, (i k).stat = some v) :
    ∃ k, k ≤ P.pl ∧ goAcc P (run P x ((List.range k).map i)).s (i k) = some v := by
  have hoff : ∀ (is : List In) (y : Sys), y.s.init = false → (run P y is).s.init = false := by
    intro is
    induction is with
    | nil => intro x h; exact h
    | cons i is ih => intro x h; exact ih _ (by show (x.s.init && _) = false; rw [h]; rfl)
  have hnr : ∀ k (s : S), goRead P s (i k) = none := by
    intro k s; unfold goRead; rw [ha k]; split <;> rfl
  by_cases h : ∃ k, k ≤ P.pl ∧ goAcc P (run P x ((List.range k).map i)).s (i k) = some v
  · exact h
  · exfalso
    have hno : ∀ k, k ≤ P.pl → goAcc P (run P x ((List.range k).map i)).s (i k) = none := by
      intro k hk
      cases h1 : goAcc P (run P x ((List.range k).map i)).s (i k) with
      | none => rfl
      | some w =>
        have := (goAcc_some h1).2.2.2.1
        rw [hv k] at this
        rw [← Option.some.inj this] at h1
        exact absurd ⟨k, hk, h1⟩ h
    have htr : ∀ k, k ≤ P.pl → (run P x ((List.range k).map i)).s.tready = false := by
      intro k hk
      cases k with
      | zero => exact ht
      | succ k =>
        rw [List.range_succ, List.map_append]
        unfold run
        rw [List.foldl_append]
        show (goAcc P (run P x ((List.range k).map i)).s (i k)).isSome = false
        rw [hno k (by omega)]; rfl
    have hz := hno P.pl (Nat.le_refl _)
    unfold goAcc at hz
    rw [hoff _ _ hi, hnr, htr _ (Nat.le_refl _), hv] at hz
    simp only [Bool.not_false, Option.isNone_none, Bool.and_true, if_true] at hz
    have hh : hazard P (run P x ((List.range P.pl).map i)).s v.1 = true := by
      cases h1 : hazard P (run P x ((List.range P.pl).map i)).s v.1 with
      | true => rfl
      | false => simp [Option.filter, h1] at hz
    obtain ⟨j, hj, hrd⟩ := any_true.mp hh
    have hsplit : (List.range P.pl).map i = (List.range (P.pl - 1 - j)).map i ++ (i (P.pl - 1 - j) :: ((List.range j).map fun t => i (P.pl - 1 - j + 1 + t))) := by
      rw [show P.pl = (P.pl - 1 - j) + 1 + j by omega]
      rw [show (P.pl - 1 - j) + 1 + j - 1 - j = P.pl - 1 - j by omega]
      rw [List.range_add, List.map_append, List.range_succ, List.map_append, List.map_map, List.append_assoc]
      rfl
    have hp2 : (run P x ((List.range P.pl).map i)).s.pipe j = enter P (run P x ((List.range (P.pl - 1 - j)).map i)).s (i (P.pl - 1 - j)) := by
      rw [hsplit]
      unfold run
      rw [List.foldl_append, List.foldl_cons]
      have := pipe_shift P ((List.range j).map fun t => i (P.pl - 1 - j + 1 + t)) (step P (run P x ((List.range (P.pl - 1 - j)).map i)) (i (P.pl - 1 - j))) 0
      rw [Nat.zero_add, List.length_map, List.length_range] at this
      exact this
    rw [hp2] at hrd
    have he : enter P (run P x ((List.range (P.pl - 1 - j)).map i)).s (i (P.pl - 1 - j)) = { data := (run P x ((List.range (P.pl - 1 - j)).map i)).s.mem 0 } := by
      unfold enter
      rw [hnr, hno _ (by omega)]
    rw [he] at hrd
    simp at hrd

/-- Reads starve increments: a master that polls one counter without pause, taking every answer at once, keeps out every increment of that counter, and with it everything behind it
on the stream, for as long as it goes on. -/
theorem C70_starvation (P : Params) (mem : Nat → Nat) (a x n : Nat) :
    let i : In := { stat := some (P.idOf a, x), ar := some a, rready := true }
    LegalRun P ⟨{ mem := mem }, {}⟩ {} (List.replicate n i) ∧ (run P ⟨{ mem := mem }, {}⟩ (List.replicate n i)).g.handed = [] := by
  intro i
  have key : ∀ s : S, (∀ j, j < P.pl → (s.pipe j).rd = true → (s.pipe j).addr = P.idOf a) → goAcc P s i = none := by
    intro s h
    cases hg : goAcc P s i with
    | none => rfl
    | some v =>
      exfalso
      obtain ⟨g1, g2, g3, g4, g5⟩ := goAcc_some hg
      have hv : v = (P.idOf a, x) := (Option.some.inj g4).symm
      have hr : reading P s = true := by
        cases hr : reading P s with
        | true => rfl
        | false =>
          unfold goRead at g2
          rw [g1, hr] at g2
          simp [i] at g2
      obtain ⟨j, hj, hrd⟩ := any_true.mp hr
      exact g5 j hj (by rw [hrd]; rfl) (by rw [hv]; exact h j hj hrd)
  suffices hs : ∀ n (y : Sys) (last : In), (∀ j, j < P.pl → (y.s.pipe j).rd = true → (y.s.pipe j).addr = P.idOf a) → y.s.tready = false → (last = i ∨ last = {}) → y.g.handed = [] →
      LegalRun P y last (List.replicate n i) ∧ (run P y (List.replicate n i)).g.handed = [] from
    hs n _ _ (fun _ _ h => by cases h) rfl (Or.inr rfl) rfl
  intro n
  induction n with
  | zero => intro y last _ _ _ h; exact ⟨trivial, h⟩
  | succ n ih =>
    intro y last h1 h2 h3 h4
    have hk := key y.s h1
    obtain ⟨r1, r2⟩ := ih (step P y i) i (fun j hj hrd => by
      cases j with
      | zero =>
        have hrd : (enter P y.s i).rd = true := hrd
        show (enter P y.s i).addr = _
        obtain ⟨b, hb⟩ := enter_rd.mp hrd
        have : b = a := (Option.some.inj (goRead_some hb).2.2.2).symm
        unfold enter; rw [hb, this]
      | succ j => exact h1 j (by omega) hrd) (by show (goAcc P y.s i).isSome = false; rw [hk]; rfl) (Or.inl rfl)
      (by show y.g.handed ++ _ = []; rw [h4, h2]; rfl)
    rw [List.replicate_succ]
    refine ⟨⟨⟨fun v hv => ?_, fun v hv hh => ?_, fun b hb _ => ?_⟩, r1⟩, r2⟩
    · have : v = (P.idOf a, x) := (Option.some.inj hv).symm
      rw [this]
      exact Nat.mod_lt _ (Nat.two_pow_pos _)
    · rw [h2] at hh; cases hh
    · rcases h3 with rfl | rfl
      · exact hb
      · cases hb

theorem clog2_le {a m : Nat} (h : a ≤ 2 ^ m) : RxHash.clog2 a ≤ m := by
  unfold RxHash.clog2
  split
  · omega
  · have : (a - 1).log2 < m := (Nat.log2_lt (by omega)).mpr (by omega)
    omega

/-- The address of word `w` of counter `id`, any byte of it, is decoded to these. -/
theorem C70_address (P : Params) (k id w b : Nat) (hd : P.dw = 8 * 2 ^ k) (hi : id < 2 ^ P.iw) (hw : w < 2 ^ P.wordWidth) (hb : b < 2 ^ P.wordShift) :
    P.idOf (id * 2 ^ P.idShift + w * 2 ^ P.wordShift + b) = id ∧ P.wordOf (id * 2 ^ P.idShift + w * 2 ^ P.wordShift + b) = w := by
  have hmono : ∀ a c, a ≤ c → RxHash.clog2 a ≤ RxHash.clog2 c := by
    exact fun a c h => clog2_le (Nat.le_trans h (le_clog2 c))
  have hs : P.idShift = P.wordShift + P.wordWidth := by
    unfold Params.idShift Params.wordShift Params.wordWidth
    by_cases h : P.cw > P.dw
    · rw [if_pos h, if_neg (by omega)]
      have := hmono (P.dw / 8) ((P.cw + 7) / 8) (by omega)
      omega
    · rw [if_neg h]
      by_cases h' : P.dw > P.cw
      · rw [if_pos h', Nat.add_zero]; congr 1; omega
      · rw [if_neg h', Nat.add_zero]; congr 1; omega
  unfold Params.idOf Params.wordOf
  rw [Nat.shiftRight_eq_div_pow, Nat.shiftRight_eq_div_pow, hs, Nat.pow_add]
  have hp1 : 0 < 2 ^ P.wordShift := Nat.two_pow_pos _
  have hp2 : 0 < 2 ^ P.wordWidth := Nat.two_pow_pos _
  generalize 2 ^ P.wordShift = A at *
  generalize 2 ^ P.wordWidth = B at *
  have e1 : id * (A * B) + w * A + b = A * (B * id + w) + b := by
    rw [Nat.mul_add, ← Nat.mul_assoc, ← Nat.mul_assoc, Nat.mul_comm id, Nat.mul_comm w, Nat.mul_assoc, Nat.mul_comm id, ← Nat.mul_assoc]
  have e2 : (A * (B * id + w) + b) / A = B * id + w := by
    rw [Nat.mul_add_div hp1, Nat.div_eq_of_lt hb, Nat.add_zero]
  constructor
  · rw [e1, ← Nat.div_div_eq_div_mul, e2, Nat.mul_add_div hp2, Nat.div_eq_of_lt hw, Nat.add_zero, Nat.mod_eq_of_lt hi]
  · rw [e1, e2, Nat.mul_add_mod, Nat.mod_eq_of_lt hw]

/-- the number put together from the words of a counter read at the successive addresses -/
def joinWords (P : Params) (v : Nat) : Nat → Nat
  | 0 => 0
  | n + 1 => joinWords P v n + P.word v n * 2 ^ (P.dw * n)

/-- The words of a counter make up the whole counter. -/
theorem C70_words (P : Params) (k v : Nat) (hd : P.dw = 8 * 2 ^ k) (hv : v < 2 ^ P.cw) : joinWords P v (2 ^ P.wordWidth) = v := by
  by_cases h : P.cw > P.dw
  · have hj : ∀ n, joinWords P v n = v % 2 ^ (P.dw * n) := by
      intro n
      induction n with
      | zero => simp [joinWords, Nat.mod_one]
      | succ n ih =>
        rw [joinWords, ih, Params.word, if_pos h, Nat.mul_succ, Nat.pow_add, Nat.mod_mul, Nat.shiftRight_eq_div_pow, Nat.mul_comm n, Nat.mul_comm (_ % _)]
    rw [hj]
    apply Nat.mod_eq_of_lt
    refine Nat.lt_of_lt_of_le hv (Nat.pow_le_pow_right (by omega) ?_)
    have hk : RxHash.clog2 (P.dw / 8) = k := by
      have e : P.dw / 8 = 2 ^ k := by omega
      rw [e]
      exact Nat.le_antisymm (clog2_le (Nat.le_refl _)) ((Nat.pow_le_pow_iff_right (by omega)).mp (le_clog2 (2 ^ k)))
    have hc : k ≤ RxHash.clog2 ((P.cw + 7) / 8) := by
      rw [← hk]; exact clog2_le (Nat.le_trans (by omega) (le_clog2 ((P.cw + 7) / 8)))
    have hw : P.wordWidth = RxHash.clog2 ((P.cw + 7) / 8) - k := by unfold Params.wordWidth; rw [if_pos h, hk]
    rw [hw, hd, Nat.mul_assoc, ← Nat.pow_add, show k + (RxHash.clog2 ((P.cw + 7) / 8) - k) = RxHash.clog2 ((P.cw + 7) / 8) by omega]
    have := le_clog2 ((P.cw + 7) / 8)
    omega
  · have hw : P.wordWidth = 0 := by unfold Params.wordWidth; rw [if_neg h]
    rw [hw]
    show 0 + P.word v 0 * 2 ^ (P.dw * 0) = v
    rw [Params.word, if_neg h, Nat.mod_eq_of_lt (Nat.lt_of_lt_of_le hv (Nat.pow_le_pow_right (by omega) (by omega)))]
    simp

/-- the memory of the examples -/
def ex : Params := { iw := 1, cw := 16, dw := 8, pl := 2 }

def exIn : List In := [{}, {}, { stat := some (1, 255) }, { stat := some (1, 255) }, {}, {}, {}, { ar := some 2 }, { ar := some 2 }, {}, { stat := some (1, 1), rready := true }, { stat := some (1, 1), rready := true }, {}, {},
  { ar := some 3 }, { ar := some 3 }, {}, { rready := true }]

set_option maxRecDepth 100000 in
/-- Example for the theorems above: a counter gets 255 and then 1; its two words are read before and after. -/
example : LegalRun ex ⟨{ mem := fun _ => 77 }, {}⟩ {} exIn ∧ (run ex ⟨{ mem := fun _ => 77 }, {}⟩ exIn).g.handed = [(1, 255), (1, 1)] ∧
    (run ex ⟨{ mem := fun _ => 77 }, {}⟩ exIn).g.asks.map (answerOf ex) = [255, 1] := by decide

set_option maxRecDepth 100000 in
/-- A counter wider than the bus is not read as a whole: the two words read from a counter which held 0, 255 and 256 make up 511. -/
theorem C70_torn : LegalRun ex ⟨{ mem := fun _ => 77 }, {}⟩ {} exIn ∧ (run ex ⟨{ mem := fun _ => 77 }, {}⟩ exIn).g.answers = [255, 1] ∧
    255 + 1 * 2 ^ ex.dw = 511 ∧ ∀ k < 19, sumFor ((run ex ⟨{ mem := fun _ => 77 }, {}⟩ exIn).g.hist.drop k) 1 ∈ [0, 255, 256] := by decide

/-- Example for the addresses: counters of 64 bits on a bus of 32. -/
example : ({ iw := 8, cw := 64, dw := 32, pl := 2 } : Params).idOf 0x14 = 2 ∧ ({ iw := 8, cw := 64, dw := 32, pl := 2 } : Params).wordOf 0x14 = 1 := by decide

set_option maxRecDepth 100000 in
/-- Example for the latency and the acceptance: after the memory is cleared a read is accepted. -/
example : goRead ex (run ex ⟨{ mem := fun _ => 77 }, {}⟩ [{}, {}]).s { ar := some 2 } = some 2 ∧ (run ex ⟨{ mem := fun _ => 77 }, {}⟩ [{}, {}]).s.init = false := by decide

end Corundum.StatsCounter
