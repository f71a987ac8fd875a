import Verif.Model.LinuxTx
import Verif.Proof.Driver
/-! Invariants of the two-thread transmit ring. -/
namespace Corundum.LinuxTx
open Corundum.Driver (and_mask mod_inj_of_window)

theorem mask_eq (s : St) (x : Nat) : x &&& s.mask = x % s.size := and_mask x s.k

theorem fullSize_lt (s : St) : s.fullSize + 1 ≤ s.size ∧ s.fullSize = s.size / 2 := by
  have h : s.fullSize = s.size / 2 := by unfold St.fullSize; rw [Nat.shiftRight_eq_div_pow]
  have : 0 < s.size := by unfold St.size; exact Nat.pow_pos (by omega)
  omega

def isWake : PPc → Bool
  | .wake => true | _ => false

def isFW : PPc → Bool
  | .wake => true | .full? => true | _ => false

/-- condition attached to X's program counter; `D` outstanding descriptors, `F` the full threshold, `eq` = the device has
the current producer pointer -/
def xCond (F D : Nat) (st : Bool) (p : PPc) (eq : Prop) : XPc → Prop
  | .idle => (st = false → D ≤ F ∧ (isWake p = true → D < F)) ∧ (st = true → eq)
  | .mapped _ => D ≤ F ∧ st = false ∧ (isWake p = true → D < F)
  | .check _ | .stop _ => st = false
  | .bell _ false => st = false ∧ D < F
  | .bell _ true => st = false → isFW p = false ∧ D ≤ F
  | .recheck => (st = false → isFW p = false ∧ D ≤ F) ∧ eq
  | .wake => D < F ∧ eq

/-- moving P between program points that do not matter to X -/
theorem xCond_mono {F D D' st p p' eq x} (h : xCond F D st p eq x) (hD : D' ≤ D)
    (h1 : isWake p' = true → isWake p = true) (h2 : isFW p' = true → isFW p = true) :
    xCond F D' st p' eq x := by
  have h3 : isFW p = false → isFW p' = false := by
    intro h
    cases h' : isFW p' with
    | false => rfl
    | true => rw [h2 h'] at h; simp at h
  rcases x with _ | _ | _ | _ | ⟨m, _ | _⟩ | _ | _ <;> simp only [xCond] at h ⊢
  · exact ⟨fun hs => ⟨by have := (h.1 hs).1; omega, fun hp => by have := (h.1 hs).2 (h1 hp); omega⟩, h.2⟩
  · exact ⟨by omega, h.2.1, fun hp => by have := h.2.2 (h1 hp); omega⟩
  · exact h
  · exact h
  · exact ⟨h.1, by omega⟩
  · exact fun hs => ⟨h3 (h hs).1, by have := (h hs).2; omega⟩
  · exact ⟨fun hs => ⟨h3 (h.1 hs).1, by have := (h.1 hs).2; omega⟩, h.2⟩
  · exact ⟨by omega, h.2⟩

/-- X will still re-examine the ring -/
def xLate : XPc → Bool
  | .bell _ true => true | .recheck => true | .wake => true | _ => false

/-- P will still re-examine the ring or wake the queue -/
def pLate : PPc → Bool
  | .stopped? => true | .full? => true | .wake => true | _ => false

def pCond (prod cons : Nat) : PPc → Prop
  | .scan c => cons ≤ c ∧ c ≤ prod
  | .write c => cons ≤ c ∧ c ≤ prod
  | _ => True

/-- flow-control invariant -/
def FInv (s : St) : Prop :=
  s.cons ≤ s.prod ∧ s.hw ≤ s.prod ∧ s.prod - s.cons ≤ s.fullSize + 1 ∧
  xCond s.fullSize (s.prod - s.cons) s.stopped s.p (s.hw = s.prod) s.x ∧
  (isWake s.p = true → s.prod - s.cons ≤ s.fullSize) ∧
  (s.stopped = true → s.fullSize ≤ s.prod - s.cons ∨ xLate s.x = true ∨ pLate s.p = true) ∧
  pCond s.prod s.cons s.p

theorem finv_init (k : Nat) : FInv (init k) := by
  simp [init, FInv, xCond, pCond, isWake]

theorem finv_step {s : St} (h : FInv s) (op : Op) : FInv (step s op) := by
  obtain ⟨k, skb, prod, cons, hw, st, x, p, sent, done, freed⟩ := s
  simp only [FInv, St.fullSize, St.size] at h
  generalize hF : (2 ^ k >>> 1) = F at h
  obtain ⟨h1, h2, h3, h4, h5, h6, h7⟩ := h
  cases op with
  | xmit b more drop =>
    simp only [step]
    split
    · rename_i hx
      obtain ⟨rfl, rfl⟩ := hx
      split
      · simp only [FInv, St.fullSize, St.size, hF]; exact ⟨h1, h2, h3, h4, h5, h6, h7⟩
      · simp only [FInv, St.fullSize, St.size, hF, xCond]
        simp only [xCond] at h4
        exact ⟨h1, h2, h3, ⟨(h4.1 trivial).1, by simp, (h4.1 trivial).2⟩, h5, by simp, h7⟩
    · simp only [FInv, St.fullSize, St.size, hF]; exact ⟨h1, h2, h3, h4, h5, h6, h7⟩
  | poll =>
    simp only [step]
    split
    · rename_i hp
      subst hp
      simp only [FInv, St.fullSize, St.size, hF]
      refine ⟨h1, h2, h3, xCond_mono h4 (by omega) (by simp [isWake]) (by simp [isFW]), by simp [isWake], by simpa [pLate] using h6, trivial⟩
    · simp only [FInv, St.fullSize, St.size, hF]; exact ⟨h1, h2, h3, h4, h5, h6, h7⟩
  | cpl pos =>
    simp only [step]
    split
    · simp only [FInv, St.fullSize, St.size, hF]; exact ⟨h1, h2, h3, h4, h5, h6, h7⟩
    · simp only [FInv, St.fullSize, St.size, hF]; exact ⟨h1, h2, h3, h4, h5, h6, h7⟩
  | x =>
    have hpc : pCond (prod + 1) cons p := by
      cases p <;> simp only [pCond] at h7 ⊢ <;> omega
    cases x with
    | idle => simp only [step, FInv, St.fullSize, St.size, hF]; exact ⟨h1, h2, h3, h4, h5, h6, h7⟩
    | mapped m =>
      simp only [xCond] at h4
      simp only [step, FInv, St.fullSize, St.size, hF, xCond]
      obtain ⟨a, rfl, b⟩ := h4
      refine ⟨by omega, by omega, by omega, rfl, ?_, by simp, hpc⟩
      intro hp; have := b hp; omega
    | check m =>
      simp only [xCond] at h4
      subst h4
      simp only [step, St.full, St.fullSize, St.size, hF]
      split
      · simp only [FInv, St.fullSize, St.size, hF, xCond]; exact ⟨h1, h2, h3, trivial, h5, by simp, h7⟩
      · rename_i hf
        simp only [decide_eq_true_eq] at hf
        simp only [FInv, St.fullSize, St.size, hF, xCond]
        exact ⟨h1, h2, h3, ⟨by trivial, by omega⟩, h5, by simp, h7⟩
    | stop m =>
      simp only [xCond] at h4
      simp only [step, FInv, St.fullSize, St.size, hF, xCond]
      exact ⟨h1, h2, h3, by simp, h5, by simp [xLate], h7⟩
    | bell m sq =>
      cases sq with
      | false =>
        simp only [xCond] at h4
        obtain ⟨rfl, hD⟩ := h4
        simp only [step, FInv, St.fullSize, St.size, hF, Bool.false_eq_true, if_false, xCond]
        refine ⟨h1, by split <;> omega, h3, ⟨fun _ => ⟨by omega, fun _ => hD⟩, by simp⟩, h5, by simp, h7⟩
      | true =>
        simp only [xCond] at h4
        simp only [step, FInv, St.fullSize, St.size, hF, Bool.or_true, if_true, xCond]
        exact ⟨h1, by omega, h3, ⟨h4, by simp⟩, h5, by simp [xLate], h7⟩
    | recheck =>
      simp only [xCond] at h4
      simp only [step, St.full, St.fullSize, St.size, hF]
      split
      · rename_i hf
        simp only [decide_eq_true_eq] at hf
        simp only [FInv, St.fullSize, St.size, hF, xCond]
        refine ⟨h1, h2, h3, ⟨fun hst => ⟨(h4.1 hst).2, fun hp => ?_⟩, fun _ => h4.2⟩, h5, fun _ => Or.inl hf, h7⟩
        have := (h4.1 hst).1
        cases p <;> simp [isWake, isFW] at hp this
      · rename_i hf
        simp only [decide_eq_true_eq] at hf
        simp only [FInv, St.fullSize, St.size, hF, xCond]
        exact ⟨h1, h2, h3, ⟨by omega, h4.2⟩, h5, by simp [xLate], h7⟩
    | wake =>
      simp only [xCond] at h4
      simp only [step, FInv, St.fullSize, St.size, hF, xCond]
      exact ⟨h1, h2, h3, ⟨fun _ => ⟨by omega, fun _ => h4.1⟩, by simp⟩, h5, by simp, h7⟩
  | p =>
    cases p with
    | idle => simp only [step, FInv, St.fullSize, St.size, hF]; exact ⟨h1, h2, h3, h4, h5, h6, h7⟩
    | cpl =>
      simp only [step, FInv, St.fullSize, St.size, hF, pCond]
      exact ⟨h1, h2, h3, xCond_mono h4 (by omega) (by simp [isWake]) (by simp [isFW]), by simp [isWake], by simpa [pLate] using h6, by omega⟩
    | scan c =>
      simp only [pCond] at h7
      simp only [step]
      split
      · simp only [FInv, St.fullSize, St.size, hF, pCond]
        exact ⟨h1, h2, h3, xCond_mono h4 (by omega) (by simp [isWake]) (by simp [isFW]), by simp [isWake], by simpa [pLate] using h6, by omega⟩
      · split
        · simp only [FInv, St.fullSize, St.size, hF, pCond]
          exact ⟨h1, h2, h3, xCond_mono h4 (by omega) (by simp [isWake]) (by simp [isFW]), by simp [isWake], by simpa [pLate] using h6, by omega⟩
        · simp only [FInv, St.fullSize, St.size, hF, pCond]
          exact ⟨h1, h2, h3, xCond_mono h4 (by omega) (by simp [isWake]) (by simp [isFW]), by simp [isWake], by simpa [pLate] using h6, by omega⟩
    | write c =>
      simp only [pCond] at h7
      simp only [step, FInv, St.fullSize, St.size, hF, pCond]
      exact ⟨by omega, h2, by omega, xCond_mono h4 (by omega) (by simp [isWake]) (by simp [isFW]), by simp [isWake],
        by simp [pLate], trivial⟩
    | stopped? =>
      simp only [step]
      split
      · rename_i hst
        subst hst
        simp only [FInv, St.fullSize, St.size, hF, pCond]
        refine ⟨h1, h2, h3, ?_, by simp [isWake], by simp [pLate], trivial⟩
        rcases x with _ | _ | _ | _ | ⟨m, _ | _⟩ | _ | _ <;> simp only [xCond] at h4 ⊢
        · exact ⟨by simp, h4.2⟩
        · simp at h4
        · simp at h4
        · simp at h4
        · simp at h4
        · simp
        · exact ⟨by simp, h4.2⟩
        · exact h4
      · rename_i hst
        simp only [FInv, St.fullSize, St.size, hF, pCond]
        exact ⟨h1, h2, h3, xCond_mono h4 (by omega) (by simp [isWake]) (by simp [isFW]), by simp [isWake], fun h => absurd h hst, trivial⟩
    | full? =>
      simp only [step, St.full, St.fullSize, St.size, hF]
      split
      · rename_i hf
        simp only [decide_eq_true_eq] at hf
        simp only [FInv, St.fullSize, St.size, hF, pCond]
        exact ⟨h1, h2, h3, xCond_mono h4 (by omega) (by simp [isWake]) (by simp [isFW]), by simp [isWake], fun _ => Or.inl hf, trivial⟩
      · rename_i hf
        simp only [decide_eq_true_eq] at hf
        simp only [FInv, St.fullSize, St.size, hF, pCond]
        refine ⟨h1, h2, h3, ?_, fun _ => by omega, by simp [pLate], trivial⟩
        rcases x with _ | _ | _ | _ | ⟨m, _ | _⟩ | _ | _ <;> simp only [xCond] at h4 ⊢
        · exact ⟨fun h => ⟨by omega, fun _ => by omega⟩, h4.2⟩
        · exact ⟨by omega, h4.2.1, fun _ => by omega⟩
        · exact h4
        · exact h4
        · exact ⟨h4.1, by omega⟩
        · simpa [isFW] using h4
        · simpa [isFW] using h4
        · exact ⟨by omega, h4.2⟩
    | wake =>
      have h5 := h5 rfl
      simp only [step, FInv, St.fullSize, St.size, hF, pCond]
      refine ⟨h1, h2, h3, ?_, by simp [isWake], by simp, trivial⟩
      rcases x with _ | _ | _ | _ | ⟨m, _ | _⟩ | _ | _ <;> simp only [xCond] at h4 ⊢
      · exact ⟨fun h => ⟨by omega, by simp [isWake]⟩, by simp⟩
      · exact ⟨by omega, by trivial, by simp [isWake]⟩
      · exact ⟨by trivial, by omega⟩
      · exact fun h => ⟨rfl, by omega⟩
      · exact ⟨fun h => ⟨rfl, by omega⟩, h4.2⟩
      · exact ⟨by omega, h4.2⟩

def isMapped : XPc → Bool
  | .mapped _ => true | _ => false

def pRing (prod cons : Nat) (done : List Nat) : PPc → Prop
  | .cpl => True
  | .scan c => ∀ q, q < c → q ∈ done
  | .write c => (∀ q, q < c → q ∈ done) ∧ (c < prod → c ∉ done)
  | _ => cons < prod → cons ∉ done

/-- ring-contents invariant -/
structure RI (s : St) : Prop where
  len : s.sent.length = s.prod + (if isMapped s.x then 1 else 0)
  slots : ∀ p, s.cons ≤ p → p < s.prod → s.skb (p % s.size) = if p ∈ s.done then none else s.sent[p]?
  mp : isMapped s.x = true → s.skb (s.prod % s.size) = s.sent[s.prod]?
  free : ∀ p, s.prod ≤ p → p < s.cons + s.size → (isMapped s.x = true ∧ p = s.prod) ∨ s.skb (p % s.size) = none
  donelt : ∀ p ∈ s.done, p < s.prod
  past : ∀ p, p < s.cons → p ∈ s.done
  nodup : s.done.Nodup
  pr : pRing s.prod s.cons s.done s.p
  freed : s.freed = s.done.map (fun p => (p, s.sent[p]?))

theorem ri_init (k : Nat) : RI (init k) := by
  constructor <;> simp [init, isMapped, pRing]

/-- a step of X that touches neither the slots nor the pointers -/
theorem ri_x {s : St} (h : RI s) (x' : XPc) (hw : Nat) (st : Bool) (h1 : isMapped s.x = false) (h2 : isMapped x' = false) :
    RI { s with x := x', hw := hw, stopped := st } := by
  obtain ⟨len, slots, mp, free, donelt, past, nodup, pr, freed⟩ := h
  refine ⟨by simpa [h1, h2] using len, slots, by simp [h2], ?_, donelt, past, nodup, pr, freed⟩
  intro p a b
  rcases free p a b with h | h
  · rw [h1] at h; simp at h
  · exact Or.inr h

theorem ri_p {s : St} (h : RI s) (p' : PPc) (st : Bool) (h1 : pRing s.prod s.cons s.done p') :
    RI { s with p := p', stopped := st } := by
  obtain ⟨len, slots, mp, free, donelt, past, nodup, pr, freed⟩ := h
  exact ⟨len, slots, mp, free, donelt, past, nodup, h1, freed⟩

theorem ri_step {s : St} (hF : FInv s) (h : RI s) (op : Op) : RI (step s op) := by
  have hsz := fullSize_lt s
  obtain ⟨f1, f2, f3, f4, f5, f6, f7⟩ := hF
  cases op with
  | xmit b more drop =>
    simp only [step]
    split
    · rename_i hx
      split
      · exact h
      · obtain ⟨len, slots, mp, free, donelt, past, nodup, pr, freed⟩ := h
        rw [hx.1, hx.2] at f4
        simp only [xCond] at f4
        have hD := (f4.1 trivial).1
        rw [hx.1] at len
        simp only [isMapped, Bool.false_eq_true, if_false, Nat.add_zero] at len
        have hget : ∀ p, p < s.prod → (s.sent ++ [b])[p]? = s.sent[p]? := by
          intro p hp; rw [List.getElem?_append_left (by omega)]
        constructor
        · simp [len, isMapped]
        · intro p hp1 hp2
          have hp1 : s.cons ≤ p := hp1
          have hp2 : p < s.prod := hp2
          show (if p % s.size = s.prod &&& s.mask then some b else s.skb (p % s.size)) = if p ∈ s.done then none else (s.sent ++ [b])[p]?
          rw [mask_eq, if_neg, slots p hp1 hp2, hget p hp2]
          intro e
          have := mod_inj_of_window (a := s.cons) (n := s.size) (b := p) (c := s.prod) (by omega) (by omega)
              (by omega) (by omega) e
          omega
        · intro _
          show (if s.prod % s.size = s.prod &&& s.mask then some b else s.skb (s.prod % s.size)) = (s.sent ++ [b])[s.prod]?
          rw [mask_eq, if_pos rfl, ← len]
          simp
        · intro p hp1 hp2
          have hp1 : s.prod ≤ p := hp1
          have hp2 : p < s.cons + s.size := hp2
          by_cases hp : p = s.prod
          · exact Or.inl ⟨rfl, hp⟩
          · right
            show (if p % s.size = s.prod &&& s.mask then some b else s.skb (p % s.size)) = none
            rw [mask_eq, if_neg]
            · rcases free p hp1 hp2 with h | h
              · exact absurd h.2 hp
              · exact h
            · intro e
              have := mod_inj_of_window (a := s.cons) (n := s.size) (b := p) (c := s.prod) (by omega) (by omega)
                (by omega) (by omega) e
              omega
        · exact donelt
        · exact past
        · exact nodup
        · exact pr
        · show s.freed = s.done.map (fun p => (p, (s.sent ++ [b])[p]?))
          rw [freed]
          apply List.map_congr_left
          intro p hp
          rw [hget p (donelt p hp)]
    · exact h
  | poll =>
    simp only [step]
    split
    · have := ri_p h .cpl s.stopped trivial
      exact this
    · exact h
  | cpl pos =>
    simp only [step]
    split
    · rename_i hc
      obtain ⟨hc1, hc2, hc3⟩ := hc
      obtain ⟨len, slots, mp, free, donelt, past, nodup, pr, freed⟩ := h
      have hge : s.cons ≤ pos := by
        rcases Nat.lt_or_ge pos s.cons with h | h
        · exact absurd (past pos h) hc3
        · exact h
      have hslot := slots pos hge (by omega)
      rw [if_neg hc3] at hslot
      have hmD : isMapped s.x = true → s.prod - s.cons < s.size := by
        intro hm
        cases hx : s.x <;> rw [hx] at hm <;> simp [isMapped] at hm
        rw [hx] at f4
        simp only [xCond] at f4
        omega
      constructor
      · exact len
      · intro p hp1 hp2
        have hp1 : s.cons ≤ p := hp1
        have hp2 : p < s.prod := hp2
        show (if p % s.size = pos &&& s.mask then none else s.skb (p % s.size)) = if p ∈ s.done ++ [pos] then none else s.sent[p]?
        rw [mask_eq]
        by_cases hp : p = pos
        · subst hp; simp
        · rw [if_neg, slots p hp1 hp2]
          · simp [hp]
          · intro e
            have := mod_inj_of_window (a := s.cons) (n := s.size) (b := p) (c := pos) (by omega) (by omega)
              (by omega) (by omega) e
            omega
      · intro hm
        have := hmD hm
        show (if s.prod % s.size = pos &&& s.mask then none else s.skb (s.prod % s.size)) = s.sent[s.prod]?
        rw [mask_eq, if_neg, mp hm]
        intro e
        have := mod_inj_of_window (a := s.cons) (n := s.size) (b := s.prod) (c := pos) (by omega) (by omega)
          (by omega) (by omega) e
        omega
      · intro p hp1 hp2
        rcases free p hp1 hp2 with h | h
        · exact Or.inl h
        · right
          show (if p % s.size = pos &&& s.mask then none else s.skb (p % s.size)) = none
          split
          · rfl
          · exact h
      · intro p hp
        show p < s.prod
        have hp : p ∈ s.done ++ [pos] := hp
        rcases List.mem_append.mp hp with h | h
        · exact donelt p h
        · simp at h; omega
      · intro p hp
        show p ∈ s.done ++ [pos]
        exact List.mem_append.mpr (Or.inl (past p hp))
      · show (s.done ++ [pos]).Nodup
        rw [List.nodup_append]
        refine ⟨nodup, by simp, ?_⟩
        intro a ha b hb e
        simp at hb
        rw [e, hb] at ha
        exact hc3 ha
      · show pRing s.prod s.cons _ s.p
        rw [hc1]; trivial
      · show s.freed ++ [(pos, s.skb (pos &&& s.mask))] = (s.done ++ [pos]).map (fun p => (p, s.sent[p]?))
        rw [List.map_append, mask_eq, hslot, freed]
        rfl
    · exact h
  | x =>
    cases hx : s.x with
    | idle => simp only [step, hx]; exact h
    | mapped m =>
      simp only [step, hx]
      obtain ⟨len, slots, mp, free, donelt, past, nodup, pr, freed⟩ := h
      rw [hx] at len mp f4
      simp only [xCond] at f4
      simp only [isMapped, if_true] at len mp
      constructor
      · simpa [isMapped] using len
      · intro p hp1 hp2
        have hp1 : s.cons ≤ p := hp1
        have hp2 : p < s.prod + 1 := hp2
        by_cases hp : p = s.prod
        · have : p ∉ s.done := fun hd => by have := donelt p hd; omega
          show s.skb (p % s.size) = if p ∈ s.done then none else s.sent[p]?
          rw [if_neg this, hp, mp trivial]
        · exact slots p hp1 (by omega)
      · simp [isMapped]
      · intro p hp1 hp2
        have hp1 : s.prod + 1 ≤ p := hp1
        have hp2 : p < s.cons + s.size := hp2
        rcases free p (by omega) hp2 with h | h
        · omega
        · exact Or.inr h
      · intro p hp
        show p < s.prod + 1
        have := donelt p hp; omega
      · exact past
      · exact nodup
      · show pRing (s.prod + 1) s.cons s.done s.p
        have hlast : s.prod ∉ s.done := fun hd => by have := donelt _ hd; omega
        have aux : ∀ c, (c < s.prod → c ∉ s.done) → c < s.prod + 1 → c ∉ s.done := by
          intro c h1 h2
          by_cases hc : c = s.prod
          · rw [hc]; exact hlast
          · exact h1 (by omega)
        cases hp : s.p <;> rw [hp] at pr <;> simp only [pRing] at pr ⊢
        · exact aux _ pr
        · exact pr
        · exact ⟨pr.1, aux _ pr.2⟩
        · exact aux _ pr
        · exact aux _ pr
        · exact aux _ pr
      · exact freed
    | check m =>
      simp only [step, hx]
      split
      · exact ri_x h (.stop m) s.hw s.stopped (by rw [hx]; rfl) rfl
      · exact ri_x h (.bell m false) s.hw s.stopped (by rw [hx]; rfl) rfl
    | stop m =>
      simp only [step, hx]
      exact ri_x h (.bell m true) s.hw true (by rw [hx]; rfl) rfl
    | bell m sq =>
      simp only [step, hx]
      exact ri_x h _ _ s.stopped (by rw [hx]; rfl) (by cases sq <;> rfl)
    | recheck =>
      simp only [step, hx]
      split
      · exact ri_x h .idle s.hw s.stopped (by rw [hx]; rfl) rfl
      · exact ri_x h .wake s.hw s.stopped (by rw [hx]; rfl) rfl
    | wake =>
      simp only [step, hx]
      exact ri_x h .idle s.hw false (by rw [hx]; rfl) rfl
  | p =>
    have hpr := h.pr
    cases hp : s.p with
    | idle => simp only [step, hp]; exact h
    | cpl =>
      simp only [step, hp]
      exact ri_p h (.scan s.cons) s.stopped h.past
    | scan c =>
      simp only [step, hp]
      rw [hp] at hpr f7
      simp only [pRing] at hpr
      simp only [pCond] at f7
      split
      · exact ri_p h (.write c) s.stopped ⟨hpr, fun h => by omega⟩
      · rename_i hne
        have hs := h.slots c f7.1 (by omega)
        rw [mask_eq, hs]
        by_cases hd : c ∈ s.done
        · rw [if_pos hd]
          simp only [Option.isSome_none, Bool.false_eq_true, if_false]
          refine ri_p h (.scan (c+1)) s.stopped ?_
          intro q hq
          by_cases hqc : q = c
          · rw [hqc]; exact hd
          · exact hpr q (by omega)
        · rw [if_neg hd]
          have hlt : c < s.sent.length := by rw [h.len]; omega
          rw [List.getElem?_eq_getElem hlt]
          simp only [Option.isSome_some, if_true]
          exact ri_p h (.write c) s.stopped ⟨hpr, fun _ => hd⟩
    | write c =>
      simp only [step, hp]
      rw [hp] at hpr f7
      simp only [pRing] at hpr
      simp only [pCond] at f7
      obtain ⟨len, slots, mp, free, donelt, past, nodup, pr, freed⟩ := h
      refine ⟨len, fun p h1 h2 => slots p (Nat.le_trans f7.1 h1) h2, mp, ?_, donelt, hpr.1, nodup, hpr.2, freed⟩
      intro p hp1 hp2
      have hp1 : s.prod ≤ p := hp1
      have hp2 : p < c + s.size := hp2
      rcases Nat.lt_or_ge p (s.cons + s.size) with hlt | hge
      · exact free p hp1 hlt
      · right
        show s.skb (p % s.size) = none
        obtain ⟨q, hq⟩ : ∃ q, p = q + s.size := ⟨p - s.size, by omega⟩
        rw [hq, Nat.add_mod_right, slots q (by omega) (by omega), if_pos (hpr.1 q (by omega))]
    | stopped? =>
      rw [hp] at hpr
      simp only [step, hp]
      split
      · exact ri_p h .full? s.stopped hpr
      · exact ri_p h .idle s.stopped hpr
    | full? =>
      rw [hp] at hpr
      simp only [step, hp]
      split
      · exact ri_p h .idle s.stopped hpr
      · exact ri_p h .wake s.stopped hpr
    | wake =>
      rw [hp] at hpr
      simp only [step, hp]
      exact ri_p h .idle false hpr

theorem inv_run (ops : List Op) : ∀ s, FInv s → RI s → FInv (run s ops) ∧ RI (run s ops) := by
  induction ops with
  | nil => intro s h1 h2; exact ⟨h1, h2⟩
  | cons o os ih => intro s h1 h2; exact ih _ (finv_step h1 o) (ri_step h1 h2 o)

theorem k_step (s : St) (o : Op) : (step s o).k = s.k := by
  cases o <;> simp only [step] <;> repeat' split
  all_goals rfl

theorem k_run (ops : List Op) : ∀ s, (run s ops).k = s.k := by
  induction ops with
  | nil => intro s; rfl
  | cons o os ih => intro s; exact (ih _).trans (k_step s o)

end Corundum.LinuxTx
