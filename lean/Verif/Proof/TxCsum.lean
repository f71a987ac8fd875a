import Verif.Spec.TxCsum
import Verif.Proof.RxCsum
import Verif.Proof.Checksum

namespace Corundum.TxCsum
open RxCsum (W wt W_zero W_succ W_add W_congr W_null words_W Oc accumulate_oc accumulate_one Rel rel0 relN W_lt W_bound)

/-! ### The accumulator -/

/-- an item as a number -/
structure AItem where
  v : Nat
  last : Bool
  first : Bool
  ctl : Ctl

def ctlOf (c : Cmd) : Ctl := ⟨c.start % 2 == 1, c.en, c.offset, c.init⟩

/-- the bytes of word `n` that count -/
def part (P : Params) (c : Cmd) (n : Nat) (b : Beat) (j : Nat) : Nat := if b.keep j && decide (c.start ≤ n * P.K + j) then b.lane j else 0

def itemOf (P : Params) (c : Cmd) (n : Nat) (b : Beat) : AItem := ⟨W (part P c n b) P.K, b.last, n == 0, ctlOf c⟩

def itemsOf (P : Params) (c : Cmd) (f : List Beat) : List AItem := f.mapIdx (itemOf P c)

def accStep (P : Params) (st : List Entry × Nat) (a : AItem) : List Entry × Nat :=
  let t := RxCsum.accumulate P.cfg (if a.first && P.useInit then a.ctl.init else st.2) [a.v]
  if a.last then (st.1 ++ [⟨invert a.ctl.odd t, a.ctl.offset, a.ctl.en⟩], 0) else (st.1, t % 2 ^ 16)

def accRun (P : Params) (st : List Entry × Nat) (l : List AItem) : List Entry × Nat := l.foldl (accStep P) st

theorem accRun_append (P : Params) (st : List Entry × Nat) (l m : List AItem) : accRun P st (l ++ m) = accRun P (accRun P st l) m := List.foldl_append

theorem accStep_prefix (P : Params) (st : List Entry × Nat) (a : AItem) : st.1 <+: (accStep P st a).1 := by
  unfold accStep
  dsimp only
  split
  · exact List.prefix_append _ _
  · exact List.prefix_refl _

theorem accRun_prefix (P : Params) (l : List AItem) : ∀ st, st.1 <+: (accRun P st l).1 := by
  induction l with
  | nil => intro st; exact List.prefix_refl _
  | cons a l ih => intro st; exact (accStep_prefix P st a).trans (ih _)

theorem K_even (P : Params) : P.K % 2 = 0 := by unfold Params.K; omega

theorem K_ge (P : Params) : 4 ≤ P.K := by unfold Params.K; have := Nat.two_pow_pos P.d; omega

theorem part_lt {P : Params} {c : Cmd} {n : Nat} {b : Beat} (hb : ∀ j, b.lane j < 256) (j : Nat) : part P c n b j < 256 := by
  unfold part; split
  · exact hb j
  · decide

theorem item_lt {P : Params} {c : Cmd} {n : Nat} {b : Beat} (hb : ∀ j, b.lane j < 256) : (itemOf P c n b).v < 2 ^ (17 + P.d) :=
  W_bound P.cfg _ (part_lt hb)

theorem itemsOf_append (P : Params) (c : Cmd) (f : List Beat) (b : Beat) : itemsOf P c (f ++ [b]) = itemsOf P c f ++ [itemOf P c f.length b] := by
  unfold itemsOf; rw [List.mapIdx_append]; simp

/-- the initial value that counts -/
def base (P : Params) (c : Cmd) : Nat := if P.useInit then c.init else 0

theorem oc_zero : Oc 0 0 := ⟨by decide, rfl, Iff.rfl⟩

theorem oc_self {a : Nat} (h : a < 65536) : Oc a a := ⟨h, rfl, Iff.rfl⟩

def total (P : Params) (c : Cmd) (f : List Beat) : Nat := ((itemsOf P c f).map (·.v)).sum

theorem total_append (P : Params) (c : Cmd) (f : List Beat) (b : Beat) : total P c (f ++ [b]) = total P c f + (itemOf P c f.length b).v := by
  unfold total; rw [itemsOf_append]; simp

/-- the accumulator before a word -/
theorem acc_open (P : Params) (hd : P.d ≤ 14) (c : Cmd) (hc : c.init < 65536) (o : List Entry) (f : List Beat) (hb : ∀ b ∈ f, ∀ j, b.lane j < 256) (hl : ∀ b ∈ f, b.last = false) :
    ∃ a, accRun P (o, 0) (itemsOf P c f) = (o, a) ∧ Oc (if (f.length == 0) && P.useInit then c.init else a) (base P c + total P c f) := by
  have hind : ∀ n, ∀ f : List Beat, f.length = n → (∀ b ∈ f, ∀ j, b.lane j < 256) → (∀ b ∈ f, b.last = false) →
      ∃ a, accRun P (o, 0) (itemsOf P c f) = (o, a) ∧ Oc (if (f.length == 0) && P.useInit then c.init else a) (base P c + total P c f) := by
    intro n
    induction n with
    | zero =>
      intro f hf _ _
      have : f = [] := List.eq_nil_of_length_eq_zero hf
      subst this
      refine ⟨0, rfl, ?_⟩
      show Oc _ (base P c + 0)
      unfold base
      cases P.useInit with
      | false => exact oc_zero
      | true => exact oc_self hc
    | succ n ih =>
      intro f hf hb hl
      obtain ⟨g, b, rfl⟩ : ∃ g b, f = g ++ [b] := ⟨f.dropLast, f.getLast (by intro h; subst h; cases hf), (List.dropLast_concat_getLast _).symm⟩
      have hg : g.length = n := by simpa using hf
      obtain ⟨a, h1, h2⟩ := ih g hg (fun x hx => hb x (by simp [hx])) (fun x hx => hl x (by simp [hx]))
      have hbb := hb b (by simp)
      have hlb := hl b (by simp)
      refine ⟨RxCsum.accumulate P.cfg (if (g.length == 0) && P.useInit then c.init else a) [(itemOf P c g.length b).v] % 2 ^ 16, ?_, ?_⟩
      · rw [itemsOf_append, accRun_append, h1]
        show accStep P (o, a) (itemOf P c g.length b) = _
        unfold accStep
        have : (itemOf P c g.length b).last = false := hlb
        rw [this]
        rfl
      · have hz : ((g ++ [b]).length == 0) = false := by simp
        rw [hz, Bool.false_and, total_append, ← Nat.add_assoc]
        exact accumulate_oc P.cfg hd h2 (item_lt hbb)
  exact hind f.length f rfl hb hl

theorem mod_swap (x : Nat) : swap (x % 65536) % 65535 = 256 * (x % 65536) % 65535 := by unfold swap; omega

theorem invert_eq (odd : Bool) (t : Nat) : invert odd t = 65535 - (if odd then swap (t % 65536) else t % 65536) := by
  unfold invert swap
  cases odd <;> simp <;> omega

/-! ### The sum over the bytes -/

/-- a byte of the frame by position -/
def at_ (P : Params) (f : List Beat) (o : Nat) : Nat := (bytesOf P f).getD o 0

theorem bytes_length (P : Params) (f : List Beat) : (bytesOf P f).length = f.length * P.K := by
  unfold bytesOf
  induction f with
  | nil => simp
  | cons b f ih => simp only [List.flatMap_cons, List.length_append, List.length_map, List.length_range, ih, List.length_cons, Nat.add_mul]; omega

theorem bytes_append (P : Params) (f : List Beat) (b : Beat) :
    bytesOf P (f ++ [b]) = bytesOf P f ++ (List.range P.K).map fun j => if b.keep j then b.lane j else 0 := by
  unfold bytesOf; simp

theorem bytes_lt {P : Params} {f : List Beat} (hb : ∀ b ∈ f, ∀ j, b.lane j < 256) : ∀ x ∈ bytesOf P f, x < 256 := by
  intro x hx
  unfold bytesOf at hx
  obtain ⟨b, h1, h2⟩ := List.mem_flatMap.mp hx
  obtain ⟨j, _, h3⟩ := List.mem_map.mp h2
  rw [← h3]
  split
  · exact hb b h1 j
  · decide

theorem mulK_even (P : Params) (n : Nat) : n * P.K % 2 = 0 := by
  rw [Nat.mul_mod, K_even]; simp

theorem total_W (P : Params) (c : Cmd) : ∀ n (f : List Beat), f.length = n →
    total P c f = W (fun o => if c.start ≤ o then (bytesOf P f).getD o 0 else 0) (f.length * P.K) := by
  intro n
  induction n with
  | zero =>
    intro f hf
    have : f = [] := List.eq_nil_of_length_eq_zero hf
    subst this
    simp [total, itemsOf, W_zero]
  | succ n ih =>
    intro f hf
    obtain ⟨g, b, rfl⟩ : ∃ g b, f = g ++ [b] := ⟨f.dropLast, f.getLast (by intro h; subst h; cases hf), (List.dropLast_concat_getLast _).symm⟩
    have hg : g.length = n := by simpa using hf
    rw [total_append, ih g hg, List.length_append, List.length_singleton, Nat.add_mul, Nat.one_mul, W_add _ _ _ (mulK_even P _), bytes_append]
    congr 1
    · apply W_congr
      intro o ho
      rw [List.getD_eq_getElem?_getD, List.getD_eq_getElem?_getD, List.getElem?_append_left (by rw [bytes_length]; exact ho)]
    · apply W_congr
      intro o ho
      rw [List.getD_eq_getElem?_getD, List.getElem?_append_right (by rw [bytes_length]; omega), bytes_length]
      unfold part
      rw [show g.length * P.K + o - g.length * P.K = o by omega]
      simp only [List.getElem?_map, List.getElem?_range ho, Option.map_some, Option.getD_some]
      cases b.keep o <;> by_cases h : c.start ≤ g.length * P.K + o <;> simp [h]

theorem W_odd (g : Nat → Nat) (n : Nat) : 256 * ((List.range n).map fun o => wt (o + 1) * g o).sum % 65535 = W g n % 65535 ∧
    (((List.range n).map fun o => wt (o + 1) * g o).sum = 0 ↔ W g n = 0) := by
  induction n with
  | zero => exact ⟨rfl, Iff.rfl⟩
  | succ n ih =>
    rw [W_succ, List.range_succ, List.map_append, List.sum_append, List.map_singleton, List.sum_singleton]
    have h : 256 * (wt (n + 1) * g n) % 65535 = wt n * g n % 65535 ∧ (wt (n + 1) * g n = 0 ↔ wt n * g n = 0) := by
      unfold wt
      by_cases e : n % 2 = 0
      · rw [if_neg (show ¬ (n + 1) % 2 = 0 by omega), if_pos e]; omega
      · rw [if_pos (show (n + 1) % 2 = 0 by omega), if_neg e]; omega
    obtain ⟨i1, i2⟩ := ih
    obtain ⟨h1, h2⟩ := h
    generalize ((List.range n).map fun o => wt (o + 1) * g o).sum = A at *
    generalize wt (n + 1) * g n = B at *
    generalize wt n * g n = C at *
    omega

theorem W_split (s : Nat) (g : Nat → Nat) (n : Nat) : W (fun o => if s ≤ o then g o else 0) (s + n) = ((List.range n).map fun o => wt (s + o) * g (s + o)).sum := by
  induction n with
  | zero =>
    apply W_null
    intro o ho
    exact if_neg (by omega)
  | succ n ih =>
    rw [← Nat.add_assoc, W_succ, ih, List.range_succ, List.map_append, List.sum_append]
    simp

/-- the sum over absolute positions against that over positions from the start -/
theorem total_words (P : Params) (c : Cmd) (f : List Beat) :
    if c.start % 2 = 1 then 256 * total P c f % 65535 = (Spec.words ((bytesOf P f).drop c.start)).sum % 65535 ∧
      (total P c f = 0 ↔ (Spec.words ((bytesOf P f).drop c.start)).sum = 0)
    else total P c f = (Spec.words ((bytesOf P f).drop c.start)).sum := by
  rw [words_W, total_W P c _ f rfl, List.length_drop, bytes_length]
  have hg : ∀ o, ((bytesOf P f).drop c.start).getD o 0 = (bytesOf P f).getD (c.start + o) 0 := by
    intro o; simp only [List.getD_eq_getElem?_getD, List.getElem?_drop]
  simp only [hg]
  rcases Nat.lt_or_ge (f.length * P.K) c.start with hlt | hge
  · rw [show f.length * P.K - c.start = 0 by omega, W_zero, W_null]
    · split
      · exact ⟨rfl, Iff.rfl⟩
      · rfl
    · intro o ho
      exact if_neg (by omega)
  · obtain ⟨n, hn⟩ : ∃ n, f.length * P.K = c.start + n := ⟨f.length * P.K - c.start, by omega⟩
    rw [hn, W_split c.start (fun o => (bytesOf P f).getD o 0), show c.start + n - c.start = n by omega]
    split
    · rename_i h
      have e : (fun o => wt (c.start + o) * (bytesOf P f).getD (c.start + o) 0) = fun o => wt (o + 1) * (bytesOf P f).getD (c.start + o) 0 := by
        funext o
        congr 1
        unfold wt
        rw [show (c.start + o) % 2 = (o + 1) % 2 by omega]
      rw [e]
      exact W_odd (fun o => (bytesOf P f).getD (c.start + o) 0) n
    · rename_i h
      unfold W
      congr 1
      apply List.map_congr_left
      intro o _
      rw [RxCsum.wt_add _ _ (by omega)]

theorem ocAdd_oc {a b S : Nat} (h : Oc a S) (hb : b < 65536) : Oc (Spec.ocAdd a b) (S + b) := by
  obtain ⟨h1, h2, h3⟩ := h
  unfold Spec.ocAdd Oc
  split
  · omega
  · omega

theorem oc_congr {a S T : Nat} (h : Oc a S) (h1 : S % 65535 = T % 65535) (h2 : S = 0 ↔ T = 0) : Oc a T := by
  obtain ⟨a1, a2, a3⟩ := h
  exact ⟨a1, by omega, a3.trans h2⟩

theorem swap_oc {a S : Nat} (h : Oc a S) : Oc (swap a) (256 * S) := by
  obtain ⟨h1, h2, h3⟩ := h
  unfold swap Oc
  omega

theorem swap_lt {a : Nat} (h : a < 65536) : swap a < 65536 := by unfold swap; omega

/-- the field computed is the field that should be -/
theorem field_eq {P : Params} {c : Cmd} (hc : c.init < 65536) {f : List Beat} (hb : ∀ b ∈ f, ∀ j, b.lane j < 256) {t : Nat} (h : Oc (t % 65536) (base P c + total P c f)) :
    invert (ctlOf c).odd t = field P c f := by
  rw [invert_eq]
  show 65535 - (if (c.start % 2 == 1) = true then _ else _) = 65535 - sumOf P c f
  congr 1
  have hs := Spec.ocSum_spec _ (fun x hx => bytes_lt (P := P) hb x (List.mem_of_mem_drop (i := c.start) hx))
  have hs : Oc (Spec.ocSum ((bytesOf P f).drop c.start)) (Spec.words ((bytesOf P f).drop c.start)).sum := hs
  have ht := total_words P c f
  unfold sumOf
  dsimp only
  by_cases ho : c.start % 2 = 1
  · rw [if_pos ho] at ht
    rw [if_pos (by simpa using ho), if_pos ho]
    have h1 := swap_oc h
    have h2 : Oc (if P.useInit then Spec.ocAdd (Spec.ocSum ((bytesOf P f).drop c.start)) (swap c.init) else Spec.ocSum ((bytesOf P f).drop c.start)) (256 * (base P c + total P c f)) := by
      cases hu : P.useInit with
      | true =>
        rw [if_pos rfl]
        refine oc_congr (ocAdd_oc hs (swap_lt hc)) ?_ ?_
        · unfold base; rw [hu, if_pos rfl]; unfold swap; omega
        · unfold base; rw [hu, if_pos rfl]; unfold swap; omega
      | false =>
        rw [if_neg (by decide)]
        refine oc_congr hs ?_ ?_
        · unfold base; rw [hu, if_neg (by decide)]; omega
        · unfold base; rw [hu, if_neg (by decide)]; omega
    exact h1.unique h2
  · rw [if_neg ho] at ht
    rw [if_neg (by simpa using ho), if_neg ho]
    have h2 : Oc (if P.useInit then Spec.ocAdd (Spec.ocSum ((bytesOf P f).drop c.start)) c.init else Spec.ocSum ((bytesOf P f).drop c.start)) (base P c + total P c f) := by
      cases hu : P.useInit with
      | true =>
        rw [if_pos rfl]
        have := ocAdd_oc hs hc
        unfold base; rw [hu, if_pos rfl, Nat.add_comm, ht]; exact this
      | false =>
        rw [if_neg (by decide)]
        unfold base; rw [hu, if_neg (by decide), Nat.zero_add, ht]; exact hs
    exact h.unique h2

def entryOf (P : Params) (x : Cmd × List Beat) : Entry := ⟨field P x.1 x.2, x.1.offset, x.1.en⟩

/-- a frame whose words are all there -/
structure Whole (x : Cmd × List Beat) : Prop where
  init : x.1.init < 65536
  byte : ∀ b ∈ x.2, ∀ j, b.lane j < 256
  ends : ∃ f b, x.2 = f ++ [b] ∧ b.last = true ∧ ∀ y ∈ f, y.last = false

theorem acc_frame (P : Params) (hd : P.d ≤ 14) (x : Cmd × List Beat) (hx : Whole x) (o : List Entry) :
    accRun P (o, 0) (itemsOf P x.1 x.2) = (o ++ [entryOf P x], 0) := by
  obtain ⟨c, f⟩ := x
  obtain ⟨g, b, he, hl, hn⟩ := hx.ends
  have he : f = g ++ [b] := he
  subst he
  have hby : ∀ b' ∈ g ++ [b], ∀ j, b'.lane j < 256 := hx.byte
  obtain ⟨a, h1, h2⟩ := acc_open P hd c hx.init o g (fun y hy => hby y (by simp [hy])) hn
  show accRun P (o, 0) (itemsOf P c (g ++ [b])) = _
  rw [itemsOf_append, accRun_append, h1]
  show accStep P (o, a) (itemOf P c g.length b) = _
  unfold accStep
  have h3 := accumulate_oc P.cfg hd h2 (item_lt (P := P) (c := c) (n := g.length) (hby b (by simp)))
  rw [Nat.add_assoc, ← total_append] at h3
  have h4 := field_eq hx.init hby h3
  have : (itemOf P c g.length b).last = true := hl
  rw [this, if_pos rfl]
  show (o ++ [(⟨invert (ctlOf c).odd _, c.offset, c.en⟩ : Entry)], 0) = _
  rw [show ((itemOf P c g.length b).first && P.useInit) = ((g.length == 0) && P.useInit) from rfl]
  rw [show (itemOf P c g.length b).ctl.init = c.init from rfl]
  rw [h4]
  rfl

theorem acc_all (P : Params) (hd : P.d ≤ 14) (l : List (Cmd × List Beat)) (hl : ∀ x ∈ l, Whole x) : ∀ o, accRun P (o, 0) (l.flatMap fun x => itemsOf P x.1 x.2) = (o ++ l.map (entryOf P), 0) := by
  induction l with
  | nil => intro o; simp [accRun]
  | cons x l ih =>
    intro o
    rw [List.flatMap_cons, accRun_append, acc_frame P hd x (hl x (by simp)), ih (fun y hy => hl y (by simp [hy]))]
    simp

end Corundum.TxCsum
