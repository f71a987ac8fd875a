import Verif.Spec.Cobs
import Verif.Props.AxisRegister
/-!
Decoder: untimed view, inversion of the encoding, clocked model.
-/
namespace Corundum.Cobs
open Corundum.AxisRegister (Skid)

/-! ### untimed view -/

/-- final word waiting in IDLE -/
def pendD (c : DCtl) : List Beat := if c.st = .idle ∧ c.tvalid = true then [⟨c.tdata, true, false⟩] else []

def flushD (c : DCtl) : DCtl := if c.st = .idle then { c with tvalid := false } else c

/-- one accepted byte -/
def decB (c : DCtl) (b : Beat) : DCtl × List Beat :=
  let r := decCtl c true (some b)
  (flushD r.1, r.2.1.toList ++ pendD r.1)

def decRun (c : DCtl) : List Beat → DCtl × List Beat
  | [] => (c, [])
  | b :: bs => ((decRun (decB c b).1 bs).1, (decB c b).2 ++ (decRun (decB c b).1 bs).2)

theorem decRun_append (c : DCtl) (a b : List Beat) :
    decRun c (a ++ b) = ((decRun (decRun c a).1 b).1, (decRun c a).2 ++ (decRun (decRun c a).1 b).2) := by
  induction a generalizing c with
  | nil => simp [decRun]
  | cons x a ih => rw [List.cons_append, decRun, ih]; simp [decRun]

/-- byte held back -/
def T (c : DCtl) : List Nat := if c.tvalid then [c.tdata] else []

/-- implicit zero between the previous block and the next -/
def Z (c : DCtl) : List Nat := if c.st = .idle then [] else if c.supp then [] else [0]

/-- state in which a code byte is expected -/
def Start (c : DCtl) : Prop := (c.st = .idle ∧ c.tvalid = false) ∨ c.st = .next

theorem plain_T (c : DCtl) : (if c.tvalid then some (⟨c.tdata, false, false⟩ : Beat) else none).toList = plain (T c) := by
  unfold T
  cases c.tvalid <;> rfl

theorem code_step (c : DCtl) (h : Start c) (n : Nat) : ∃ c', decB c ⟨n + 1, false, false⟩ = (c', plain (T c)) ∧
    c'.st = (if n = 0 then .next else .segment) ∧ c'.count = n ∧ c'.supp = (n == 254) ∧ T c' = Z c := by
  obtain ⟨st, cnt, sp, td, tv⟩ := c
  have hne : ∀ x : Nat, (if x = 0 then DS.next else DS.segment) ≠ DS.idle := by intro x; split <;> simp
  rcases h with ⟨h1, h2⟩ | h1
  · simp only at h1 h2
    subst h1 h2
    refine ⟨⟨if n = 0 then .next else .segment, n, n == 254, td, false⟩, ?_, rfl, rfl, rfl, ?_⟩
    · simp [decB, decCtl, flushD, pendD, hne, T, plain]
    · simp [T, Z]
  · simp only at h1
    subst h1
    refine ⟨⟨if n = 0 then .next else .segment, n, n == 254, 0, !sp⟩, ?_, rfl, rfl, rfl, ?_⟩
    · simp only [decB, decCtl, flushD, pendD, Nat.add_eq_zero_iff, Nat.one_ne_zero, and_false, if_false, Bool.false_eq_true, Nat.add_sub_cancel,
        show (n + 1 = 1) = (n = 0) by simp, show (n + 1 == 255) = (n == 254) by simp, hne, false_and, List.append_nil]
      rw [← plain_T]
    · cases sp <;> simp [T, Z]

theorem seg_run : ∀ (run : List Nat) (c : DCtl), c.st = .segment → c.count = run.length → run.length ≤ 255 → run ≠ [] → (∀ x ∈ run, x ≠ 0) →
    ∃ c' O, decRun c (plain run) = (c', plain O) ∧ c'.st = .next ∧ c'.supp = c.supp ∧ c'.tvalid = true ∧ O ++ T c' = T c ++ run := by
  intro run
  induction run with
  | nil => intro c _ _ _ h; exact absurd rfl h
  | cons x run ih =>
    intro c hst hcnt hle _ hnz
    have hx := hnz x (by simp)
    cases run with
    | nil =>
      simp only [List.length_cons, List.length_nil, Nat.zero_add] at hcnt
      refine ⟨⟨.next, (c.count + 255) % 256, c.supp, x, true⟩, T c, ?_, rfl, rfl, rfl, rfl⟩
      simp only [plain, List.map_cons, List.map_nil, decRun, decB, decCtl, hst, hx, if_false, Bool.false_eq_true, hcnt, if_true, flushD, pendD, List.append_nil]
      rw [plain_T]
      simp [plain]
    | cons y run =>
      simp only [List.length_cons] at hcnt hle
      have hc1 : c.count ≠ 1 := by omega
      have e : decB c ⟨x, false, false⟩ = (⟨.segment, (c.count + 255) % 256, c.supp, x, true⟩, plain (T c)) := by
        simp only [decB, decCtl, hst, hx, if_false, Bool.false_eq_true, hc1, flushD, pendD]
        rw [plain_T]
        simp
      obtain ⟨c', O, a1, a2, a3, a4, a5⟩ := ih ⟨.segment, (c.count + 255) % 256, c.supp, x, true⟩ rfl (by simp only [List.length_cons]; omega)
        (by simp only [List.length_cons]; omega) (by simp) (fun z hz => hnz z (by simp [hz]))
      refine ⟨c', T c ++ O, ?_, a2, a3, a4, ?_⟩
      · have : plain (x :: y :: run) = ⟨x, false, false⟩ :: plain (y :: run) := rfl
        rw [this, decRun, e, a1, plain_append]
      · rw [List.append_assoc, a5]
        simp [T]

theorem seg_last : ∀ (run : List Nat) (c : DCtl), c.st = .segment → c.count = run.length → run.length ≤ 255 → run ≠ [] → (∀ x ∈ run, x ≠ 0) →
    ∃ c', decRun c (mark run) = (c', mark (T c ++ run)) ∧ c'.st = .idle ∧ c'.tvalid = false := by
  intro run
  induction run with
  | nil => intro c _ _ _ h; exact absurd rfl h
  | cons x run ih =>
    intro c hst hcnt hle _ hnz
    have hx := hnz x (by simp)
    cases run with
    | nil =>
      simp only [List.length_cons, List.length_nil, Nat.zero_add] at hcnt
      refine ⟨⟨.idle, (c.count + 255) % 256, c.supp, x, false⟩, ?_, rfl, rfl⟩
      rw [mark, frame_append _ _ _ (by simp)]
      simp only [frame, decRun, decB, decCtl, hst, hx, if_false, hcnt, if_true, and_self, flushD, pendD, List.append_nil]
      rw [plain_T]
    | cons y run =>
      simp only [List.length_cons] at hcnt hle
      have hc1 : c.count ≠ 1 := by omega
      have e : decB c ⟨x, false, false⟩ = (⟨.segment, (c.count + 255) % 256, c.supp, x, true⟩, plain (T c)) := by
        simp only [decB, decCtl, hst, hx, if_false, Bool.false_eq_true, hc1, flushD, pendD]
        rw [plain_T]
        simp
      obtain ⟨c', a1, a2, a3⟩ := ih ⟨.segment, (c.count + 255) % 256, c.supp, x, true⟩ rfl (by simp only [List.length_cons]; omega)
        (by simp only [List.length_cons]; omega) (by simp) (fun z hz => hnz z (by simp [hz]))
      refine ⟨c', ?_, a2, a3⟩
      rw [mark, frame, decRun, e]
      rw [mark] at a1
      rw [a1, frame_append _ _ (x :: y :: run) (by simp)]
      simp [T]

/-- a block that is not the last one -/
theorem block_step (c : DCtl) (h : Start c) (run : List Nat) (hle : run.length ≤ 254) (hnz : ∀ x ∈ run, x ≠ 0) :
    ∃ c' O, decRun c (plain ((run.length + 1) :: run)) = (c', plain O) ∧ c'.st = .next ∧ c'.supp = (run.length == 254) ∧
      (Z c ++ run ≠ [] → c'.tvalid = true) ∧ O ++ T c' = T c ++ Z c ++ run := by
  obtain ⟨c1, e1, e2, e3, e4, e5⟩ := code_step c h run.length
  have e : plain ((run.length + 1) :: run) = ⟨run.length + 1, false, false⟩ :: plain run := rfl
  by_cases hr : run = []
  · subst hr
    refine ⟨c1, T c, ?_, by rw [e2]; rfl, e4, ?_, ?_⟩
    · rw [e, decRun, e1]; simp [decRun, plain]
    · intro hz
      rw [List.append_nil, ← e5] at hz
      unfold T at hz
      cases ht : c1.tvalid
      · rw [ht] at hz; simp at hz
      · rfl
    · rw [e5]; simp
  · have hl : run.length ≠ 0 := by simp [hr]
    rw [if_neg hl] at e2
    obtain ⟨c', O, a1, a2, a3, a4, a5⟩ := seg_run run c1 e2 e3 (by omega) hr hnz
    refine ⟨c', T c ++ O, ?_, a2, by rw [a3, e4], fun _ => a4, ?_⟩
    · rw [e, decRun, e1, a1, plain_append]
    · rw [List.append_assoc, a5, e5]; simp

/-- the last block -/
theorem last_block (az : Bool) (c : DCtl) (h : Start c) (run : List Nat) (hle : run.length ≤ 254) (hnz : ∀ x ∈ run, x ≠ 0) (hne : Z c ++ run ≠ []) :
    ∃ c', decRun c (wire az ((run.length + 1) :: run)) = (c', mark (T c ++ Z c ++ run)) ∧ c'.st = .idle ∧ c'.tvalid = false := by
  cases az
  · unfold wire
    simp only [Bool.false_eq_true, if_false]
    by_cases hr : run = []
    · subst hr
      rw [List.append_nil] at hne
      rcases h with ⟨h1, h2⟩ | h1
      · simp [Z, h1] at hne
      · have hs : c.supp = false := by
          cases hs : c.supp
          · rfl
          · simp [Z, h1, hs] at hne
        refine ⟨⟨.idle, c.count, c.supp, 0, false⟩, ?_, rfl, rfl⟩
        simp only [mark, List.append_nil, Z, h1, hs, Bool.false_eq_true, if_false, reduceCtorEq]
        rw [frame_append _ _ _ (by simp)]
        simp only [frame, decRun, decB, decCtl, h1, List.length_nil, Nat.zero_add, Nat.one_ne_zero, if_false, if_true, and_self, flushD, pendD, hs,
          Bool.not_false, List.append_nil]
        rw [plain_T]
    · obtain ⟨c1, e1, e2, e3, e4, e5⟩ := code_step c h run.length
      have hl : run.length ≠ 0 := by simp [hr]
      rw [if_neg hl] at e2
      obtain ⟨c', a1, a2, a3⟩ := seg_last run c1 e2 e3 (by omega) hr hnz
      refine ⟨c', ?_, a2, a3⟩
      have : (run.length + 1) :: run = [run.length + 1] ++ run := rfl
      rw [this, mark, frame_append _ _ _ hr]
      rw [show plain [run.length + 1] = [⟨run.length + 1, false, false⟩] from rfl, List.singleton_append, decRun, e1]
      rw [mark] at a1
      rw [a1, e5, List.append_assoc, frame_append _ (T c) _ hne]
  · unfold wire
    simp only [if_true]
    obtain ⟨c1, O, e1, e2, _, e3, e4⟩ := block_step c h run hle hnz
    have e3 := e3 hne
    rw [decRun_append, e1]
    refine ⟨⟨.idle, c1.count, c1.supp, 0, false⟩, ?_, rfl, rfl⟩
    simp only [decRun, decB, decCtl, e2, e3, if_true, flushD, pendD, Bool.false_eq_true, and_false, if_false, List.append_nil, Option.toList_some]
    rw [← e4]
    have ht : T c1 = [c1.tdata] := by simp [T, e3]
    rw [ht, mark, frame_append _ _ _ (by simp)]
    rfl

/-- the decoder inverts the encoding -/
theorem dec_enc (az : Bool) : ∀ (xs run : List Nat) (c : DCtl), Start c → run.length ≤ 253 → (∀ x ∈ run, x ≠ 0) → Z c ++ run ++ xs ≠ [] →
    ∃ c', decRun c (wire az (enc run xs)) = (c', mark (T c ++ Z c ++ run ++ xs)) ∧ c'.st = .idle ∧ c'.tvalid = false := by
  intro xs
  induction xs with
  | nil =>
    intro run c h hle hnz hne
    rw [List.append_nil] at hne ⊢
    exact last_block az c h run (by omega) hnz hne
  | cons x xs ih =>
    intro run c h hle hnz hne
    rw [enc]
    by_cases hx : x = 0
    · rw [if_pos hx, wire_append _ _ _ (enc_ne _ _), decRun_append]
      obtain ⟨c1, O, e1, e2, e3, _, e4⟩ := block_step c h run (by omega) hnz
      have hs : c1.supp = false := by rw [e3]; simp; omega
      have hz : Z c1 = [0] := by simp [Z, e2, hs]
      obtain ⟨c', a1, a2, a3⟩ := ih [] c1 (Or.inr e2) (by simp) (by simp) (by simp [hz])
      refine ⟨c', ?_, a2, a3⟩
      rw [e1, a1]
      simp only
      rw [mark, ← frame_append _ _ _ (by simp [hz])]
      congr 1
      rw [hz, List.append_nil, ← List.append_assoc, ← List.append_assoc, e4, hx]
      simp
    · rw [if_neg hx]
      by_cases h253 : run.length = 253
      · rw [if_pos h253]
        have hnz' : ∀ y ∈ run ++ [x], y ≠ 0 := by
          intro y hy
          simp only [List.mem_append, List.mem_singleton] at hy
          rcases hy with hy | hy
          · exact hnz y hy
          · rw [hy]; exact hx
        have hl : (run ++ [x]).length = 254 := by simp [h253]
        by_cases hxs : xs = []
        · rw [if_pos hxs, List.append_nil, hxs]
          have := last_block az c h (run ++ [x]) (by omega) hnz' (by simp)
          rw [hl] at this
          simpa [List.append_assoc] using this
        · rw [if_neg hxs, wire_append _ _ _ (enc_ne _ _), decRun_append]
          obtain ⟨c1, O, e1, e2, e3, _, e4⟩ := block_step c h (run ++ [x]) (by omega) hnz'
          rw [hl] at e1 e3
          have hs : c1.supp = true := by rw [e3]; rfl
          have hz : Z c1 = [] := by simp [Z, e2, hs]
          obtain ⟨c', a1, a2, a3⟩ := ih [] c1 (Or.inr e2) (by simp) (by simp) (by simp [hz, hxs])
          refine ⟨c', ?_, a2, a3⟩
          rw [e1, a1]
          simp only
          rw [mark, ← frame_append _ _ _ (by simp [hxs])]
          congr 1
          rw [hz, List.append_nil, List.append_nil, ← List.append_assoc, e4]
          simp
      · rw [if_neg h253]
        have := ih (run ++ [x]) c h (by simp; omega) (by
          intro y hy
          simp only [List.mem_append, List.mem_singleton] at hy
          rcases hy with hy | hy
          · exact hnz y hy
          · rw [hy]; exact hx) (by simp)
        simpa [List.append_assoc] using this

/-- a bad frame is reported: some data, then one beat with `last` and the error flag -/
theorem dec_bad (az : Bool) : ∀ (xs run : List Nat) (c : DCtl), Start c → run.length ≤ 253 → (∀ x ∈ run, x ≠ 0) →
    ∃ c' O d, decRun c (wireBad az (encBad run xs)) = (c', plain O ++ [⟨d, true, true⟩]) ∧ c'.st = .idle ∧ c'.tvalid = false := by
  have fin : ∀ (run : List Nat) (c : DCtl), Start c → run.length ≤ 253 → (∀ x ∈ run, x ≠ 0) →
      ∃ c' O d, decRun c (wireBad az ((run.length + 1) :: run)) = (c', plain O ++ [⟨d, true, true⟩]) ∧ c'.st = .idle ∧ c'.tvalid = false := by
    intro run c h hle hnz
    obtain ⟨c1, O, e1, e2, _, _, _⟩ := block_step c h run (by omega) hnz
    unfold wireBad
    rw [decRun_append, e1]
    cases az
    · refine ⟨⟨.idle, c1.count, c1.supp, 0, false⟩, O, c1.tdata, ?_, rfl, rfl⟩
      simp [decRun, decB, decCtl, e2, flushD, pendD]
    · refine ⟨⟨.idle, 0, false, 0, false⟩, O ++ T c1, if c1.supp then 0 else 0, ?_, rfl, rfl⟩
      simp only [if_true, decRun]
      have e : decB c1 ⟨2, false, false⟩ = (⟨.segment, 1, false, 0, !c1.supp⟩, plain (T c1)) := by
        simp only [decB, decCtl, e2, flushD, pendD, show ¬ (2 = 0) by decide, show ¬ (2 = 1) by decide, if_false, Bool.false_eq_true, reduceCtorEq, false_and]
        rw [plain_T]
        simp
      rw [e]
      simp [decB, decCtl, flushD, pendD, plain_append]
  intro xs
  induction xs with
  | nil => intro run c h hle hnz; exact fin run c h hle hnz
  | cons x xs ih =>
    intro run c h hle hnz
    cases xs with
    | nil => exact fin run c h hle hnz
    | cons y ys =>
      rw [encBad]
      by_cases hx : x = 0
      · rw [if_pos hx, wireBad_append, decRun_append]
        obtain ⟨c1, O, e1, e2, _, _, _⟩ := block_step c h run (by omega) hnz
        obtain ⟨c', O', d, a1, a2, a3⟩ := ih [] c1 (Or.inr e2) (by simp) (by simp)
        refine ⟨c', O ++ O', d, ?_, a2, a3⟩
        rw [e1, a1, plain_append]; simp
      · rw [if_neg hx]
        have hnz' : ∀ z ∈ run ++ [x], z ≠ 0 := by
          intro z hz
          simp only [List.mem_append, List.mem_singleton] at hz
          rcases hz with hz | hz
          · exact hnz z hz
          · rw [hz]; exact hx
        by_cases h253 : run.length = 253
        · rw [if_pos h253, wireBad_append, decRun_append]
          have hl : (run ++ [x]).length = 254 := by simp [h253]
          obtain ⟨c1, O, e1, e2, _, _, _⟩ := block_step c h (run ++ [x]) (by omega) hnz'
          rw [hl] at e1
          obtain ⟨c', O', d, a1, a2, a3⟩ := ih [] c1 (Or.inr e2) (by simp) (by simp)
          refine ⟨c', O ++ O', d, ?_, a2, a3⟩
          rw [e1, a1, plain_append]; simp
        · rw [if_neg h253]
          exact ih (run ++ [x]) c h (by simp; omega) hnz'

/-! ### clocked decoder -/

def Dec.accepted : Dec → List DecInp → List Beat
  | _, [] => []
  | s, i :: is => (s.acc i).toList ++ Dec.accepted (s.step i) is

def Dec.delivered : Dec → List DecInp → List Beat
  | _, [] => []
  | s, i :: is => (if i.mready then s.out.m.toList else []) ++ Dec.delivered (s.step i) is

def Dec.run (s : Dec) (is : List DecInp) : Dec := is.foldl Dec.step s

structure DInv (s : Dec) : Prop where
  sk : s.out.ready = true → s.out.temp = none
  rd : s.sready = true → s.out.ready = true ∨ (s.c.st = .idle ∧ s.c.tvalid = false)

/-- one cycle: control state and outputs advance as in the untimed view -/
theorem decCtl_spec (c : DCtl) (rdy : Bool) (acc : Option Beat) (h : acc ≠ none → rdy = true ∨ (c.st = .idle ∧ c.tvalid = false)) :
    pendD c ++ (decRun (flushD c) acc.toList).2 = (if rdy then (decCtl c rdy acc).2.1.toList else []) ++ pendD (decCtl c rdy acc).1 ∧
    flushD (decCtl c rdy acc).1 = (decRun (flushD c) acc.toList).1 ∧
    ((decCtl c rdy acc).2.2 = true → (decCtl c rdy acc).1.st = .idle ∧ ((decCtl c rdy acc).1.tvalid = false)) := by
  obtain ⟨st, cnt, sp, td, tv⟩ := c
  cases acc with
  | none =>
    cases st <;> cases rdy <;> cases tv <;> simp [decRun, decCtl, pendD, flushD]
  | some b =>
    obtain ⟨d, l, us⟩ := b
    have h := h (by simp)
    simp only [Option.toList_some, decRun, List.append_nil]
    cases st
    · simp only at h
      by_cases hd : d = 0
      · cases rdy <;> cases tv <;> simp_all [decB, decCtl, pendD, flushD]
      · have hne : (if d = 1 then DS.next else DS.segment) ≠ DS.idle := by split <;> simp
        cases rdy <;> cases tv <;> simp_all [decB, decCtl, pendD, flushD]
    · simp only [reduceCtorEq, false_and, or_false] at h
      subst h
      refine ⟨?_, rfl, ?_⟩
      · simp only [pendD, flushD, decB, reduceCtorEq, false_and, if_false, List.nil_append, if_true]
      · simp only [decCtl]
        split
        · simp
        · split
          · split <;> simp
          · simp
    · simp only [reduceCtorEq, false_and, or_false] at h
      subst h
      refine ⟨?_, rfl, ?_⟩
      · simp only [pendD, flushD, decB, reduceCtorEq, false_and, if_false, List.nil_append, if_true]
      · simp only [decCtl]
        split
        · simp
        · split
          · split <;> simp
          · simp

theorem DInv.step {s : Dec} (h : DInv s) (i : DecInp) : DInv (s.step i) := by
  refine ⟨AxisRegister.Skid.step_inv s.out _ h.sk, ?_⟩
  have hacc : s.acc i ≠ none → s.out.ready = true ∨ (s.c.st = .idle ∧ s.c.tvalid = false) := by
    intro ha
    cases hs : s.sready
    · simp [Dec.acc, hs] at ha
    · exact h.rd hs
  obtain ⟨_, _, k⟩ := decCtl_spec s.c s.out.ready (s.acc i) hacc
  intro hr
  simp only [Dec.step] at hr ⊢
  rw [Bool.or_eq_true] at hr
  rcases hr with hr | hr
  · left
    have hsk : ∀ (sk : Skid Beat) (o : Option Beat) (m : Bool), (sk.step ⟨o, m, false⟩).ready = (m || (sk.temp.isNone && (sk.m.isNone || o.isNone))) := by
      intro sk o m
      obtain ⟨r, a, b⟩ := sk
      cases r <;> cases m <;> simp [Skid.step] <;> split <;> rfl
    rw [hsk]; exact hr
  · exact Or.inr (k hr)

theorem Dec.run_spec : ∀ (is : List DecInp) (s : Dec), DInv s →
    DInv (s.run is) ∧ flushD (s.run is).c = (decRun (flushD s.c) (s.accepted is)).1 ∧
    s.delivered is ++ (((s.run is).out.m.toList ++ (s.run is).out.temp.toList) ++ pendD (s.run is).c) =
      ((s.out.m.toList ++ s.out.temp.toList) ++ pendD s.c) ++ (decRun (flushD s.c) (s.accepted is)).2 := by
  intro is
  induction is with
  | nil => intro s h; exact ⟨h, rfl, by simp [Dec.delivered, Dec.run, Dec.accepted, decRun]⟩
  | cons i is ih =>
    intro s h
    obtain ⟨a, b, c⟩ := ih (s.step i) (h.step i)
    have hacc : s.acc i ≠ none → s.out.ready = true ∨ (s.c.st = .idle ∧ s.c.tvalid = false) := by
      intro ha
      cases hs : s.sready
      · simp [Dec.acc, hs] at ha
      · exact h.rd hs
    obtain ⟨k1, k2, _⟩ := decCtl_spec s.c s.out.ready (s.acc i) hacc
    have e : s.run (i :: is) = (s.step i).run is := rfl
    have ec : (s.step i).c = (decCtl s.c s.out.ready (s.acc i)).1 := rfl
    rw [e, Dec.accepted, decRun_append, Dec.delivered]
    rw [ec, k2] at b c
    refine ⟨a, b, ?_⟩
    rw [List.append_assoc, c]
    have k := AxisRegister.Skid.step_key s.out ⟨(decCtl s.c s.out.ready (s.acc i)).2.1, i.mready, false⟩ h.sk rfl
    simp only at k
    have eo : (s.step i).out = s.out.step ⟨(decCtl s.c s.out.ready (s.acc i)).2.1, i.mready, false⟩ := rfl
    rw [eo, ← List.append_assoc, ← List.append_assoc, k, List.append_assoc (s.out.m.toList ++ s.out.temp.toList), ← k1]
    simp only [List.append_assoc]

end Corundum.Cobs
