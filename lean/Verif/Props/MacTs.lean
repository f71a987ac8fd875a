import Verif.Model.MacTs
/-!
C149: frames pass unchanged and carry the time at which their first transfer was taken.
-/
namespace Corundum.MacTs

/-- a transfer: data, last, user; with the time of the cycle, or with the timestamp put out -/
structure Tr where
  data : Nat
  last : Bool
  user : Nat
  ts : Nat
deriving DecidableEq, Repr

/-- transfers taken from the input with the time of the cycle, and transfers taken by the output -/
structure Mon where
  ins : List Tr
  outs : List Tr
deriving DecidableEq, Repr

def run : St × Mon → List In → St × Mon
  | x, [] => x
  | x, i :: is =>
    run (x.1.step i,
      { ins := if i.valid && i.ready then x.2.ins ++ [⟨i.data, i.last, i.user, i.ts⟩] else x.2.ins
        outs := if x.1.valid && i.ready then x.2.outs ++ [⟨x.1.data, x.1.last, x.1.user, x.1.ts⟩] else x.2.outs }) is

/-- place of the first transfer of the frame of transfer `n`: after the last transfer before `n` with `last` -/
def start (l : List Tr) : Nat → Nat
  | 0 => 0
  | n + 1 => if ((l[n]?).map (·.last)) = some true then n + 1 else start l n

/-- what is to come out: each transfer with the time of the first of its frame -/
def stamped (l : List Tr) : List Tr :=
  l.zipIdx.map fun p => { p.1 with ts := ((l[start l p.2]?).map (·.ts)).getD 0 }

theorem start_le (l : List Tr) : ∀ n, start l n ≤ n
  | 0 => Nat.le_refl _
  | n + 1 => by
    rw [start]
    split
    · exact Nat.le_refl _
    · exact Nat.le_succ_of_le (start_le l n)

theorem start_append (l : List Tr) (x : Tr) : ∀ n, n ≤ l.length → start (l ++ [x]) n = start l n
  | 0, _ => rfl
  | n + 1, h => by
    rw [start, start, List.getElem?_append_left (by omega), start_append l x n (by omega)]

theorem stamped_append (l : List Tr) (x : Tr) :
    stamped (l ++ [x]) = stamped l ++ [{ x with ts := (((l ++ [x])[start l l.length]?).map (·.ts)).getD 0 }] := by
  unfold stamped
  rw [List.zipIdx_append, List.map_append]
  congr 1
  · apply List.map_congr_left
    intro p hp
    have hlt : p.2 < l.length := by
      have := List.snd_lt_of_mem_zipIdx hp
      simpa using this
    have hs := start_le l p.2
    rw [start_append l x p.2 (by omega), List.getElem?_append_left (by omega)]
  · simp [start_append l x l.length (Nat.le_refl _)]

structure Inv (s : St) (m : Mon) : Prop where
  outs : stamped m.ins = m.outs ++ (if s.valid then [⟨s.data, s.last, s.user, s.ts⟩] else [])
  idle : s.frame = false → start m.ins m.ins.length = m.ins.length
  busy : s.frame = true → ((m.ins[start m.ins m.ins.length]?).map (·.ts)) = some s.ts

theorem Inv_step {s : St} {m : Mon} (h : Inv s m) (i : In) :
    Inv (s.step i) { ins := if i.valid && i.ready then m.ins ++ [⟨i.data, i.last, i.user, i.ts⟩] else m.ins
                     outs := if s.valid && i.ready then m.outs ++ [⟨s.data, s.last, s.user, s.ts⟩] else m.outs } := by
  obtain ⟨h1, h2, h3⟩ := h
  cases hr : i.ready
  · have e : s.step i = s := by simp [St.step, hr]
    rw [e]
    exact ⟨by simpa using h1, by simpa using h2, by simpa using h3⟩
  · have e : s.step i = ⟨i.data, i.valid, i.last, i.user, if !s.frame then i.ts else s.ts,
        if i.valid then !i.last else s.frame⟩ := by simp [St.step, hr]
    rw [e]
    cases hv : i.valid
    · refine ⟨?_, ?_, ?_⟩
      · dsimp only
        simp only [Bool.false_and, Bool.false_eq_true, if_false, Bool.and_true, List.append_nil]
        rw [h1]
        cases s.valid <;> simp
      · simpa using h2
      · intro hf
        have hf' : s.frame = true := by simpa using hf
        have := h3 hf'
        simpa [hf'] using this
    · -- the time of the first transfer of the frame
      have hts : ((((m.ins ++ [⟨i.data, i.last, i.user, i.ts⟩])[start m.ins m.ins.length]?).map (·.ts))) =
          some (if !s.frame then i.ts else s.ts) := by
        cases hf : s.frame
        · rw [h2 hf]
          simp
        · have h3' := h3 hf
          have hlt : start m.ins m.ins.length < m.ins.length := by
            refine Nat.lt_of_not_le fun hge => ?_
            rw [List.getElem?_eq_none hge] at h3'
            cases h3'
          rw [List.getElem?_append_left hlt, h3']
          rfl
      refine ⟨?_, ?_, ?_⟩
      · dsimp only
        simp only [Bool.and_true, if_true]
        rw [stamped_append, hts, h1]
        cases s.valid <;> simp
      · intro hl
        have hl' : i.last = true := by simpa using hl
        simp [start, hl']
      · intro hl
        have hl' : i.last = false := by simpa using hl
        dsimp only
        simp only [Bool.and_true, if_true]
        rw [List.length_append, List.length_singleton, start]
        simp only [List.getElem?_concat_length, Option.map_some, hl', Option.some.injEq, Bool.false_eq_true, if_false]
        rw [start_append _ _ _ (Nat.le_refl _), ← hl']
        exact hts

theorem Inv_run : ∀ (is : List In) (x : St × Mon), Inv x.1 x.2 → Inv (run x is).1 (run x is).2
  | [], _, h => h
  | i :: is, _, h => Inv_run is _ (Inv_step h i)

/-- C149. Whatever the stalls of either side: the transfers put out, and the one held, are those taken in, in order and each
once, with data, `tlast` and user field unchanged, and every transfer of a frame carries the time of the cycle in which the first
transfer of that frame was taken. -/
theorem C149_stamped (is : List In) :
    let x := run (.init, ⟨[], []⟩) is
    stamped x.2.ins = x.2.outs ++ (if x.1.valid then [⟨x.1.data, x.1.last, x.1.user, x.1.ts⟩] else []) :=
  (Inv_run is (.init, ⟨[], []⟩) ⟨rfl, fun _ => rfl, fun h => by cases h⟩).outs

theorem stamped_get (l : List Tr) (n : Nat) (t : Tr) (h : (stamped l)[n]? = some t) :
    ∃ u v, l[n]? = some u ∧ l[start l n]? = some v ∧ t = { u with ts := v.ts } := by
  unfold stamped at h
  rw [List.getElem?_map, List.getElem?_zipIdx] at h
  cases hu : l[n]? with
  | none => rw [hu] at h; cases h
  | some u =>
    rw [hu] at h
    have hn : n < l.length := by
      refine Nat.lt_of_not_le fun hge => ?_
      rw [List.getElem?_eq_none hge] at hu
      cases hu
    have hs : start l n < l.length := Nat.lt_of_le_of_lt (start_le l n) hn
    refine ⟨u, l[start l n], rfl, List.getElem?_eq_getElem hs, ?_⟩
    simp only [Option.map_some, Option.some.injEq, Nat.zero_add] at h
    rw [← h, List.getElem?_eq_getElem hs]
    rfl

/-- C149. Two transfers of the same frame carry the same timestamp: between them no `tlast`. -/
theorem C149_same (is : List In) (n : Nat) (t t' : Tr)
    (h : (run (.init, ⟨[], []⟩) is).2.outs[n]? = some t) (h' : (run (.init, ⟨[], []⟩) is).2.outs[n + 1]? = some t') (hl : t.last = false) :
    t'.ts = t.ts := by
  have hs := C149_stamped is
  dsimp only at hs
  generalize run (.init, ⟨[], []⟩) is = x at *
  have g : ∀ (k : Nat) (u : Tr), x.2.outs[k]? = some u → (stamped x.2.ins)[k]? = some u := by
    intro k u hk
    have hlt : k < x.2.outs.length := by
      refine Nat.lt_of_not_le fun hge => ?_
      rw [List.getElem?_eq_none hge] at hk
      cases hk
    rw [hs, List.getElem?_append_left hlt, hk]
  obtain ⟨u, v, a1, a2, a3⟩ := stamped_get _ _ _ (g _ _ h)
  obtain ⟨u', v', b1, b2, b3⟩ := stamped_get _ _ _ (g _ _ h')
  rw [a3] at hl
  have hl' : u.last = false := hl
  rw [start, a1] at b2
  simp only [Option.map_some, hl', Option.some.injEq, Bool.false_eq_true, if_false] at b2
  rw [a2] at b2
  rw [a3, b3, Option.some.inj b2]

/-- a case: two frames, with a pause in the first and a stall -/
example : (run (.init, ⟨[], []⟩) [⟨10, false, 0, false, 0, true⟩, ⟨11, true, 1, false, 0, true⟩, ⟨12, false, 0, false, 0, true⟩,
    ⟨13, true, 2, true, 1, true⟩, ⟨14, true, 3, true, 0, false⟩, ⟨15, true, 3, true, 0, true⟩, ⟨16, false, 0, false, 0, true⟩]).2.outs =
    [⟨1, false, 0, 11⟩, ⟨2, true, 1, 11⟩, ⟨3, true, 0, 15⟩] := by decide +kernel

end Corundum.MacTs
