import Verif.Proof.TxCsumLive
import Verif.Proof.Checksum
/-!
C71: transmit checksum offload, for every bus width up to 65536 lanes, FIFO depth and latency, traffic and handshake schedule.
-/
namespace Corundum.TxCsum

/-- **C71.** What leaves is the frames that arrived, in order and word for word, with the checksum of its own frame in each frame that asked for one. -/
theorem C71_stream (P : Params) (hd : P.d ≤ 14) (is : List In) (h : LegalRun P {} is) :
    (run P {} is).g.out <+: (run P {} is).g.done.flatMap (fix P) := by
  obtain ⟨h', _, ho⟩ := run_inv hd is (inv_init_in P) (inv_init_out P) h
  generalize run P {} is = x at *
  have hpre : x.g.out <+: x.g.out ++ x.s.m.toList ++ x.s.temp.toList := by rw [List.append_assoc]; exact List.prefix_append _ _
  have htk : ∀ k, (x.g.done.take k).flatMap (fix P) <+: x.g.done.flatMap (fix P) := by
    intro k
    conv => rhs; rw [← List.take_append_drop k x.g.done, List.flatMap_append]
    exact List.prefix_append _ _
  cases hf : x.s.frame with
  | false =>
    rw [(ho.shut hf).1] at hpre
    exact hpre.trans (htk _)
  | true =>
    obtain ⟨y, k, _, k2, _, _, k5, _⟩ := ho.opn hf
    rw [k5] at hpre
    refine hpre.trans (List.IsPrefix.trans ?_ (htk (k + 1)))
    rw [List.take_add_one, k2, Option.toList_some, List.flatMap_append, List.flatMap_singleton]
    exact (List.prefix_append_right_inj _).2 (List.take_prefix _ _)

/-- **C71.** No frame, word or checksum is lost: once the input pauses and everybody is ready, every complete frame has left after a bounded number of cycles. -/
theorem C71_drain (P : Params) (hd : P.d ≤ 14) (is : List In) (h : LegalRun P {} is) (n : Nat)
    (hn : P.d + 3 + (run P {} is).g.done.length + (run P {} is).s.dq.length ≤ n) :
    (run P (run P {} is) (List.replicate n idle)).g.out = (run P {} is).g.done.flatMap (fix P) := by
  obtain ⟨h', hi, ho⟩ := run_inv hd is (inv_init_in P) (inv_init_out P) h
  exact drain hd hi ho n hn

/-! ### The checksum verifies -/

/-- byte `p` of the frame is there -/
def kept (P : Params) (f : List Beat) (p : Nat) : Prop := ∃ b, f[p / P.K]? = some b ∧ b.keep (p % P.K) = true

theorem byte_at (P : Params) (f : List Beat) : ∀ (n j : Nat), j < P.K → (bytesOf P f)[n * P.K + j]? = f[n]?.map (fun b => if b.keep j then b.lane j else 0) := by
  induction f with
  | nil => intro n j _; simp [bytesOf]
  | cons b f ih =>
    intro n j hj
    have e : bytesOf P (b :: f) = ((List.range P.K).map fun j => if b.keep j then b.lane j else 0) ++ bytesOf P f := by unfold bytesOf; rw [List.flatMap_cons]
    rw [e]
    cases n with
    | zero =>
      rw [List.getElem?_append_left (by simp; omega)]
      simp [hj]
    | succ n =>
      have h1 : (n + 1) * P.K + j = P.K + (n * P.K + j) := by rw [Nat.add_mul, Nat.one_mul]; omega
      rw [List.getElem?_append_right (by simp; omega), h1]
      simp only [List.length_map, List.length_range, Nat.add_sub_cancel_left, List.getElem?_cons_succ]
      exact ih n j hj

theorem byte_at' (P : Params) (f : List Beat) (p : Nat) : (bytesOf P f)[p]? = f[p / P.K]?.map (fun b => if b.keep (p % P.K) then b.lane (p % P.K) else 0) := by
  have hK := K_ge P
  have h := byte_at P f (p / P.K) (p % P.K) (Nat.mod_lt _ (by omega))
  rw [show p / P.K * P.K + p % P.K = p by rw [Nat.mul_comm]; exact Nat.div_add_mod _ _] at h
  exact h

/-- **C71.** In a frame that asked for a checksum, the two bytes at the offset are the checksum, most significant byte first, and no other byte changes. -/
theorem C71_bytes (P : Params) (x : Cmd × List Beat) (he : x.1.en = true) (p : Nat) (hk : kept P x.2 p) :
    (bytesOf P (fix P x))[p]? =
      if p = x.1.offset then some (field P x.1 x.2 / 256) else if p = x.1.offset + 1 then some (field P x.1 x.2 % 256) else (bytesOf P x.2)[p]? := by
  obtain ⟨b, h1, h2⟩ := hk
  have hK := K_ge P
  have hm := Nat.mod_lt p (show 0 < P.K by omega)
  have hp : p / P.K * P.K + p % P.K = p := by rw [Nat.mul_comm]; exact Nat.div_add_mod _ _
  rw [byte_at', byte_at']
  unfold fix
  rw [if_pos he, List.getElem?_mapIdx, h1]
  show some (if (putBeat P x.1.offset (field P x.1 x.2) (p / P.K) b).keep (p % P.K) then _ else _) = _
  rw [show (putBeat P x.1.offset (field P x.1 x.2) (p / P.K) b).keep = b.keep from rfl, h2, if_pos rfl]
  show some (if _ then _ else if _ then _ else _) = _
  rw [hp]
  by_cases e1 : p = x.1.offset
  · rw [if_pos ⟨hm, e1⟩, if_pos e1]
  · rw [if_neg (fun h => e1 h.2), if_neg e1]
    by_cases e2 : p = x.1.offset + 1
    · rw [if_pos ⟨hm, e2⟩, if_pos e2]
    · rw [if_neg (fun h => e2 h.2), if_neg e2, Option.map_some, h2, if_pos rfl]

/-- a byte that is not kept counts as zero before and after -/
theorem fix_unkept (P : Params) (x : Cmd × List Beat) (p : Nat) (hk : ¬ kept P x.2 p) : (bytesOf P (fix P x))[p]? = (bytesOf P x.2)[p]? := by
  rw [byte_at', byte_at']
  unfold fix
  split
  · rw [List.getElem?_mapIdx]
    cases h1 : x.2[p / P.K]? with
    | none => rfl
    | some b =>
      have h2 : b.keep (p % P.K) = false := by
        cases hb : b.keep (p % P.K) with
        | false => rfl
        | true => exact absurd ⟨b, h1, hb⟩ hk
      simp only [Option.map_some]
      rw [show (putBeat P x.1.offset (field P x.1 x.2) (p / P.K) b).keep = b.keep from rfl, h2]
      rfl
  · rfl

theorem fix_bytes (P : Params) (x : Cmd × List Beat) (he : x.1.en = true) (h0 : kept P x.2 x.1.offset) (h1 : kept P x.2 (x.1.offset + 1)) :
    bytesOf P (fix P x) = (bytesOf P x.2).take x.1.offset ++ (field P x.1 x.2 / 256 :: field P x.1 x.2 % 256 :: (bytesOf P x.2).drop (x.1.offset + 2)) := by
  have hlen : x.1.offset + 1 < (bytesOf P x.2).length := by
    obtain ⟨b, h2, h3⟩ := h1
    rcases Nat.lt_or_ge (x.1.offset + 1) (bytesOf P x.2).length with h | h
    · exact h
    · have := byte_at' P x.2 (x.1.offset + 1)
      rw [List.getElem?_eq_none h, h2] at this
      cases this
  apply List.ext_getElem?
  intro p
  have hval : (bytesOf P (fix P x))[p]? = if p = x.1.offset then some (field P x.1 x.2 / 256) else if p = x.1.offset + 1 then some (field P x.1 x.2 % 256) else (bytesOf P x.2)[p]? := by
    rcases Classical.em (kept P x.2 p) with hk | hk
    · exact C71_bytes P x he p hk
    · rw [fix_unkept P x p hk, if_neg (by intro h; rw [h] at hk; exact hk h0), if_neg (by intro h; rw [h] at hk; exact hk h1)]
  rw [hval]
  have htl : ((bytesOf P x.2).take x.1.offset).length = x.1.offset := by rw [List.length_take]; omega
  rcases Nat.lt_or_ge p x.1.offset with h | h
  · rw [if_neg (by omega), if_neg (by omega), List.getElem?_append_left (by omega), List.getElem?_take, if_pos h]
  · obtain ⟨t, rfl⟩ : ∃ t, p = x.1.offset + t := ⟨p - x.1.offset, by omega⟩
    rw [List.getElem?_append_right (by omega), htl, Nat.add_sub_cancel_left]
    match t with
    | 0 => simp
    | 1 => simp
    | t + 2 =>
      rw [if_neg (by omega), if_neg (by omega)]
      simp only [List.getElem?_cons_succ, List.getElem?_drop]
      congr 1; omega

/-- **C71.** The receiver accepts: if the stack left the sum of the pseudo header in the checksum field, the words of the frame that leaves, together with that pseudo header, sum to `0xffff`. -/
theorem C71_verifies (P : Params) (hu : P.useInit = false) (x : Cmd × List Beat) (hb : ∀ b ∈ x.2, ∀ j, b.lane j < 256) (he : x.1.en = true)
    (hs : x.1.start ≤ x.1.offset) (h2 : (x.1.offset - x.1.start) % 2 = 0) (k0 : kept P x.2 x.1.offset) (k1 : kept P x.2 (x.1.offset + 1))
    (pseudo : Nat) (hp : pseudo = (bytesOf P x.2).getD x.1.offset 0 * 256 + (bytesOf P x.2).getD (x.1.offset + 1) 0) :
    Spec.ocAdd (Spec.ocSum ((bytesOf P (fix P x)).drop x.1.start)) pseudo = 65535 := by
  have hfix := fix_bytes P x he k0 k1
  have hlen : x.1.offset + 1 < (bytesOf P x.2).length := by
    obtain ⟨b, h2, h3⟩ := k1
    rcases Nat.lt_or_ge (x.1.offset + 1) (bytesOf P x.2).length with h | h
    · exact h
    · have := byte_at' P x.2 (x.1.offset + 1)
      rw [List.getElem?_eq_none h, h2] at this
      cases this
  have hlt := bytes_lt (P := P) hb
  generalize hl : bytesOf P x.2 = l at *
  have hold : l = l.take x.1.offset ++ (l.getD x.1.offset 0 :: l.getD (x.1.offset + 1) 0 :: l.drop (x.1.offset + 2)) := by
    conv => lhs; rw [← List.take_append_drop x.1.offset l]
    congr 1
    rw [List.drop_eq_getElem_cons (by omega), List.drop_eq_getElem_cons (by omega)]
    simp [List.getD_eq_getElem?_getD, List.getElem?_eq_getElem hlen, List.getElem?_eq_getElem (show x.1.offset < l.length by omega)]
  have hdrop : ∀ t : List Nat, (l.take x.1.offset ++ t).drop x.1.start = (l.take x.1.offset).drop x.1.start ++ t := by
    intro t; rw [List.drop_append_of_le_length]; rw [List.length_take]; omega
  have hev : ((l.take x.1.offset).drop x.1.start).length % 2 = 0 := by
    rw [List.length_drop, List.length_take]
    rw [Nat.min_eq_left (by omega)]; exact h2
  -- the field
  have hfd : field P x.1 x.2 = 65535 - Spec.ocSum (l.drop x.1.start) := by
    unfold field sumOf
    rw [hl, hu]; rfl
  have hlt1 : ∀ b ∈ l.drop x.1.start, b < 256 := fun b h => hlt b (List.mem_of_mem_drop h)
  obtain ⟨o1, o2, o3⟩ := Spec.ocSum_spec _ hlt1
  have hf := field_lt P x.1 x.2
  generalize hv : field P x.1 x.2 = v at *
  have hlt2 : ∀ b ∈ (bytesOf P (fix P x)).drop x.1.start, b < 256 := by
    intro b hm
    have hm := List.mem_of_mem_drop hm
    rw [hfix] at hm
    rcases List.mem_append.1 hm with h | h
    · exact hlt b (List.mem_of_mem_take h)
    · rcases List.mem_cons.1 h with h | h
      · omega
      · rcases List.mem_cons.1 h with h | h
        · omega
        · exact hlt b (List.mem_of_mem_drop h)
  obtain ⟨n1, n2, n3⟩ := Spec.ocSum_spec _ hlt2
  have wnew : (Spec.words ((bytesOf P (fix P x)).drop x.1.start)).sum =
      (Spec.words ((l.take x.1.offset).drop x.1.start)).sum + (v + (Spec.words (l.drop (x.1.offset + 2))).sum) := by
    rw [hfix, hdrop, Spec.words_append_even _ _ hev, List.sum_append]
    simp only [Spec.words, List.sum_cons]
    omega
  have wold : (Spec.words (l.drop x.1.start)).sum =
      (Spec.words ((l.take x.1.offset).drop x.1.start)).sum + (pseudo + (Spec.words (l.drop (x.1.offset + 2))).sum) := by
    conv => lhs; rw [hold, hdrop, Spec.words_append_even _ _ hev, List.sum_append]
    simp only [Spec.words, List.sum_cons]
    omega
  have hps : pseudo < 65536 := by
    have a1 : l.getD x.1.offset 0 < 256 := by
      rw [List.getD_eq_getElem?_getD, List.getElem?_eq_getElem (by omega)]; exact hlt _ (List.getElem_mem _)
    have a2 : l.getD (x.1.offset + 1) 0 < 256 := by
      rw [List.getD_eq_getElem?_getD, List.getElem?_eq_getElem (by omega)]; exact hlt _ (List.getElem_mem _)
    omega
  rw [wold] at o2 o3
  rw [wnew] at n2 n3
  generalize (Spec.words ((l.take x.1.offset).drop x.1.start)).sum = A at *
  generalize (Spec.words (l.drop (x.1.offset + 2))).sum = B at *
  generalize Spec.ocSum (l.drop x.1.start) = u at *
  generalize Spec.ocSum ((bytesOf P (fix P x)).drop x.1.start) = w at *
  unfold Spec.ocAdd
  split <;> omega

/-! ### Frames longer than the data FIFO -/

theorem part_le {P : Params} {s : S} {g : G} {h : H} (ho : InvO P s g h) : g.part.length ≤ s.dq.length := by
  cases hf : s.frame with
  | false => rw [(ho.shut hf).2, List.length_append]; omega
  | true =>
    obtain ⟨_, _, _, _, _, _, _, k6⟩ := ho.opn hf
    rw [k6, List.length_append]; omega

/-- the data FIFO takes a word only while fewer than `N` are inside -/
def Bounded (P : Params) (N : Nat) : Sys → List In → Prop
  | _, [] => True
  | x, i :: is => (i.dready = true → x.s.dq.length < N) ∧ Bounded P N (step P x i) is

/-- **C71.** A frame passes only if it fits into the data FIFO as a whole: its first word leaves after its last word has arrived. -/
theorem C71_fits (P : Params) (hd : P.d ≤ 14) (N : Nat) (is : List In) (h : LegalRun P {} is) (hb : Bounded P N {} is) :
    (∀ y ∈ (run P {} is).g.done, y.2.length ≤ N) ∧ (run P {} is).g.part.length ≤ N := by
  have hind : ∀ (is : List In) (x : Sys) (h : H), InvI P x.s x.g h → InvO P x.s x.g h → LegalRun P x is → Bounded P N x is →
      ((∀ y ∈ x.g.done, y.2.length ≤ N) ∧ x.g.part.length ≤ N) → (∀ y ∈ (run P x is).g.done, y.2.length ≤ N) ∧ (run P x is).g.part.length ≤ N := by
    intro is
    induction is with
    | nil => intro x h _ _ _ _ hx; exact hx
    | cons i is ih =>
      intro x h hi ho hl hb hx
      refine ih (step P x i) (hnext P x.s x.g h i) (inv_in hd hi hl.1) (inv_out hd ho hi hl.1) hl.2 hb.2 ?_
      have hdn : (step P x i).g.done = match takeBeat x.s i with
        | some b => if b.last then x.g.done ++ [(x.g.cur, x.g.part ++ [b])] else x.g.done
        | none => x.g.done := rfl
      have hpt : (step P x i).g.part = match takeBeat x.s i with | some b => if b.last then [] else x.g.part ++ [b] | none => x.g.part := rfl
      rw [hdn, hpt]
      cases ht : takeBeat x.s i with
      | none => exact hx
      | some b =>
        have hdr : i.dready = true := by
          unfold takeBeat at ht
          split at ht
          · rename_i hc; simp only [Bool.and_eq_true] at hc; exact hc.1.1
          · cases ht
        have h1 := hb.1 hdr
        have h2 := part_le ho
        cases hbl : b.last with
        | true =>
          simp only [hbl, if_true]
          refine ⟨fun y hy => ?_, by simp⟩
          rcases List.mem_append.1 hy with hy | hy
          · exact hx.1 y hy
          · rw [List.mem_singleton.1 hy]; simp; omega
        | false =>
          simp only [hbl, Bool.false_eq_true, if_false]
          exact ⟨hx.1, by simp; omega⟩
  exact hind is {} {} (inv_init_in P) (inv_init_out P) h hb ⟨by simp, by simp⟩

/-- **C71.** A frame that fills the data FIFO without being complete blocks the module for ever: no further word or command is taken, whatever the rest of the system does. -/
theorem C71_stuck (P : Params) (hd : P.d ≤ 14) (N : Nat) (is : List In) (h : LegalRun P {} is) (hfull : (run P {} is).g.part.length = N) (hN : 0 < N)
    (js : List In) (hj : LegalRun P (run P {} is) js) (hb : Bounded P N (run P {} is) js) :
    (run P (run P {} is) js).g.done = (run P {} is).g.done ∧ (run P (run P {} is) js).g.part = (run P {} is).g.part ∧ (run P (run P {} is) js).g.cur = (run P {} is).g.cur := by
  obtain ⟨h0, hi0, ho0⟩ := run_inv hd is (inv_init_in P) (inv_init_out P) h
  have hind : ∀ (js : List In) (x : Sys) (h : H), InvI P x.s x.g h → InvO P x.s x.g h → LegalRun P x js → Bounded P N x js → x.g.part.length = N →
      (run P x js).g.done = x.g.done ∧ (run P x js).g.part = x.g.part ∧ (run P x js).g.cur = x.g.cur := by
    intro js
    induction js with
    | nil => intro x h _ _ _ _ _; exact ⟨rfl, rfl, rfl⟩
    | cons i js ih =>
      intro x h hi ho hl hb hx
      have htr : x.s.transfer = true := by
        cases ht : x.s.transfer with
        | true => rfl
        | false => rw [hi.idle ht] at hx; simp at hx; omega
      have hdr : i.dready = false := by
        cases hr : i.dready with
        | false => rfl
        | true => have := hb.1 hr; have := part_le ho; omega
      have h1 : takeBeat x.s i = none := by unfold takeBeat; rw [hdr]; rfl
      have h2 : takeCmd x.s i = none := by unfold takeCmd; rw [htr]; simp
      have e1 : (step P x i).g.done = x.g.done := by
        show (match takeBeat x.s i with
          | some b => if b.last then x.g.done ++ [(x.g.cur, x.g.part ++ [b])] else x.g.done
          | none => x.g.done) = _
        rw [h1]
      have e2 : (step P x i).g.part = x.g.part := by
        show (match takeBeat x.s i with | some b => if b.last then [] else x.g.part ++ [b] | none => x.g.part) = _
        rw [h1]
      have e3 : (step P x i).g.cur = x.g.cur := by
        show (takeCmd x.s i).getD x.g.cur = _
        rw [h2]; rfl
      obtain ⟨f1, f2, f3⟩ := ih (step P x i) (hnext P x.s x.g h i) (inv_in hd hi hl.1) (inv_out hd ho hi hl.1) hl.2 hb.2 (by rw [e2]; exact hx)
      exact ⟨f1.trans e1, f2.trans e2, f3.trans e3⟩
  exact hind js _ h0 hi0 ho0 hj hb hfull

/-! ### A concrete run -/

/-- the smallest bus: four lanes -/
def exP : Params := ⟨0, false⟩
def mk (a b c d : Nat) (l : Bool) : Beat := { lane := fun j => [a, b, c, d].getD j 0, keep := fun j => decide (j < 4), last := l, side := 7 }
def rdy (c : Option Cmd) (b : Option Beat) : In := { idle with cmd := c, beat := b }
/-- a frame of eight bytes with the checksum from byte 1 at byte 3, across the words; the same without checksum; then the stream pauses -/
def exIn : List In :=
  [rdy (some ⟨true, 1, 3, 0⟩) none, rdy none (some (mk 1 2 3 0 false)), rdy none (some (mk 0 5 6 7 true)),
   rdy (some ⟨false, 1, 3, 0⟩) none, rdy none (some (mk 1 2 3 0 false)), rdy none (some (mk 0 5 6 7 true))]
def show4 (l : List Beat) : List (List Nat × Bool) := l.map fun b => ((List.range 4).map b.lane, b.last)

theorem ex_legal : LegalRun exP {} exIn := by
  have hb : ∀ a b c d l, a < 256 → b < 256 → c < 256 → d < 256 → ∀ j, (mk a b c d l).lane j < 256 := by
    intro a b c d l ha hb hc hd j
    show [a, b, c, d].getD j 0 < 256
    match j with
    | 0 => exact ha
    | 1 => exact hb
    | 2 => exact hc
    | 3 => exact hd
    | j + 4 => simp
  have hl : ∀ g c b, (∀ x ∈ b, ∀ j, x.lane j < 256) → (∀ x ∈ c, x.init < 65536) → Legal g (rdy c b) := fun g c b h1 h2 => ⟨h1, h2, fun _ => rfl⟩
  have hn : ∀ x ∈ (none : Option Beat), ∀ j, x.lane j < 256 := by intro x h; cases h
  have hn' : ∀ x ∈ (none : Option Cmd), x.init < 65536 := by intro x h; cases h
  refine ⟨hl _ _ _ hn ?_, hl _ _ _ ?_ hn', hl _ _ _ ?_ hn', hl _ _ _ hn ?_, hl _ _ _ ?_ hn', hl _ _ _ ?_ hn', trivial⟩
  all_goals (intro x h; cases h)
  · decide
  · exact hb _ _ _ _ _ (by decide) (by decide) (by decide) (by decide)
  · exact hb _ _ _ _ _ (by decide) (by decide) (by decide) (by decide)
  · decide
  · exact hb _ _ _ _ _ (by decide) (by decide) (by decide) (by decide)
  · exact hb _ _ _ _ _ (by decide) (by decide) (by decide) (by decide)

example : (run exP {} exIn).g.done.length = 2 ∧ show4 (run exP (run exP {} exIn) (List.replicate 12 idle)).g.out =
    [([1, 2, 3, 241], false), ([246, 5, 6, 7], true), ([1, 2, 3, 0], false), ([0, 5, 6, 7], true)] := by
  set_option maxRecDepth 100000 in decide

/-- the hypotheses of `C71_verifies` for the first frame of the run; the field held a pseudo header sum of zero -/
example : (run exP {} exIn).g.done.head?.map (fun x => Spec.ocAdd (Spec.ocSum ((bytesOf exP (fix exP x)).drop 1)) 0) = some 65535 := by
  set_option maxRecDepth 100000 in decide

/-- `C71_stuck`: a data FIFO of two words and a frame of three -/
def exLong : List In := [rdy (some ⟨true, 1, 3, 0⟩) none, rdy none (some (mk 1 2 3 0 false)), rdy none (some (mk 0 5 6 7 false))]
example : (run exP {} exLong).g.part.length = 2 ∧ (run exP {} exLong).s.dq.length = 2 ∧
    (run exP (run exP {} exLong) (List.replicate 20 { rdy none (some (mk 1 1 1 1 true)) with dready := false })).g.done.length = 0 := by
  set_option maxRecDepth 100000 in decide

/-- **C71.** `USE_INIT_VALUE` with an odd start position: the initial value is added with its bytes exchanged, so the field differs from the checksum of the words and that value. -/
theorem C71_init_odd_counterexample : ∃ (P : Params) (c : Cmd) (f : List Beat), P.useInit = true ∧ c.start % 2 = 1 ∧
    field P c f ≠ 65535 - Spec.ocAdd (Spec.ocSum ((bytesOf P f).drop c.start)) c.init := by
  refine ⟨⟨0, true⟩, ⟨true, 1, 3, 0x0102⟩, [mk 0 0 0 0 true], rfl, rfl, ?_⟩
  decide

end Corundum.TxCsum
