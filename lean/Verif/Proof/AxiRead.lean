import Verif.Proof.AxiWrite

/-! The read side. -/

namespace Corundum.Axi

open Corundum.Spec

theorem flatRead_append (ms : Nat) (m : Mem) (a x y : Nat) :
    flatRead ms m a x ++ flatRead ms m (a + x) y = flatRead ms m a (x + y) := by
  unfold flatRead
  rw [List.range_add, List.map_append, List.map_map]
  congr 1
  apply List.map_congr_left
  intro i _
  simp only [Function.comp, Nat.add_assoc]

theorem flatRead_take (ms : Nat) (m : Mem) (a x y : Nat) (h : y ≤ x) :
    (flatRead ms m a x).take y = flatRead ms m a y := by
  unfold flatRead
  rw [← List.map_take, List.take_range, Nat.min_eq_left h]

theorem word_byte (f : Nat → Nat) (hf : ∀ i, f i < 256) : ∀ (n v i : Nat),
    ((List.range n).reverse.foldl (fun v i => (v <<< 8) + f i) v >>> (8 * i)) % 256 =
      if i < n then f i else (v >>> (8 * (i - n))) % 256
  | 0, v, i => by simp
  | n + 1, v, i => by
    rw [List.range_succ, List.reverse_append, List.reverse_singleton, List.singleton_append,
      List.foldl_cons, word_byte f hf n _ i]
    by_cases h : i < n
    · rw [if_pos h, if_pos (by omega)]
    · rw [if_neg h]
      have hfn := hf n
      by_cases h2 : i = n
      · subst h2
        rw [if_pos (by omega), Nat.sub_self, Nat.mul_zero, Nat.shiftRight_zero, Nat.shiftLeft_eq,
          Nat.mul_comm, Nat.mul_add_mod, Nat.mod_eq_of_lt hfn]
      · rw [if_neg (by omega)]
        obtain ⟨d, rfl⟩ : ∃ d, i = n + 1 + d := ⟨i - n - 1, by omega⟩
        rw [show n + 1 + d - n = d + 1 by omega, show n + 1 + d - (n + 1) = d by omega,
          show 8 * (d + 1) = 8 + 8 * d by omega, Nat.shiftRight_add, Nat.shiftLeft_eq,
          Nat.shiftRight_eq_div_pow _ 8, Nat.mul_comm v, Nat.mul_add_div (by omega),
          Nat.div_eq_of_lt hfn, Nat.add_zero]

/-- The lanes taken from a word read at `cur` are memory bytes. -/
theorem getLanes_ramWord {bw ms : Nat} (hd : bw ∣ ms) (hms : 0 < ms) (m : Mem) (hm : ∀ x, m x < 256)
    (cur start stop : Nat) (hs : stop ≤ bw) :
    getLanes (ramWord bw ms m cur) start stop =
      flatRead ms m (cur / bw * bw + start) (stop - start) := by
  unfold getLanes flatRead ramWord
  apply List.map_congr_left
  intro i hi
  rw [List.mem_range] at hi
  rw [Nat.mul_comm _ 8, word_byte (fun i => m (cur / bw * bw % ms + i)) (fun _ => hm _), if_pos (by omega),
    Nat.add_assoc, (word_mod (j := start + i) hd hms (Nat.dvd_mul_left _ _) (by omega)).2]

theorem popId_head (rid : Nat) (x : RBeat) (xs : List RBeat) (h : x.id = rid) :
    popId rid (x :: xs) = some (x, xs) := by
  rw [popId, if_pos h]

/-- Where the next beat continues. -/
def pos (addr cur : Nat) (first : Bool) : Nat := if first then addr else cur

theorem read_spec (c : Cfg) (ms size : Nat) (hb : 0 < c.bw) (hd : 2 ^ size ∣ c.bw) (h4 : 2 ^ size ∣ 4096)
    (hms : 0 < ms) (hbm : c.bw ∣ ms) (m : Mem) (hm : ∀ x, m x < 256) (addr : Nat) :
    ∀ (r cur n bl id : Nat) (b : Addr) (s : RS) (rest : List RBeat),
      2 ^ size ∣ cur → s.co = cur % c.bw → (s.first = true → cur = addr / 2 ^ size * 2 ^ size) →
      (n < bl → bl - (n + 1) ≤ r) → b.size = size → b.burst = INCR →
      ∀ t, t = readLoop c (2 ^ size) size INCR r cur n bl id →
      (∀ x ∈ t.1, Legal (2 ^ size) size x ∧ x.len + 1 ≤ max c.maxBurst 1) ∧
      ∃ pre post, ramReadBeats c.bw ms m b (bl - (n + 1)) cur = some pre ∧
        ramReads c.bw ms m t.1 = some post ∧ pre.length + post.length = r ∧
        ∃ s' q, respBeats c.bw (2 ^ size) (addr % c.bw) b.id (bl - (n + 1)) s (pre ++ post ++ rest) = some (s', q) ∧
          ∃ s'', respBursts c.bw (2 ^ size) (addr % c.bw) t.2.1 s' q = some (s'', rest) ∧
            s''.resp = s.resp ∧
            s''.data = s.data ++ flatRead ms m (pos addr cur s.first)
              (cur + r * 2 ^ size - pos addr cur s.first) := by
  have hnb : 0 < 2 ^ size := Nat.two_pow_pos _
  intro r
  induction r with
  | zero =>
    intro cur n bl id b s rest hcd hco hfst hn _ _ t ht
    have hz : bl - (n + 1) = 0 := by
      rcases Nat.lt_or_ge n bl with h | h
      · have := hn h; omega
      · omega
    subst ht
    refine ⟨by simp [readLoop], [], [], by rw [hz]; rfl, rfl, rfl, s, rest, by rw [hz]; rfl, s, rfl, rfl, ?_⟩
    have : cur + 0 * 2 ^ size - pos addr cur s.first = 0 := by
      unfold pos
      cases hf : s.first with
      | false => simp
      | true =>
        have := hfst hf
        have h1 := Nat.div_mul_le_self addr (2 ^ size)
        simp; omega
    rw [this]
    simp [flatRead]
  | succ r ih =>
    intro cur n bl id b s rest hcd hco hfst hn hbs hbb t ht
    have hfit : cur / c.bw * c.bw % ms + c.bw ≤ ms :=
      (word_mod (j := 0) hbm hms (Nat.dvd_mul_left _ _) hb).1
    have hfw := fits_word hb hcd hd
    have hcd' : 2 ^ size ∣ cur + 2 ^ size := Nat.dvd_add hcd (Nat.dvd_refl _)
    have hw : cur / c.bw * c.bw + cur % c.bw = cur := by
      rw [Nat.mul_comm]; exact Nat.div_add_mod cur c.bw
    -- bytes of this beat
    let s1 : RS := ⟨(s.co + 2 ^ size) % c.bw, s.resp, s.data ++ getLanes (ramWord c.bw ms m cur)
        (if s.first then addr % c.bw else s.co) (s.co + 2 ^ size), false⟩
    have hpos : cur ≤ pos addr cur s.first ∧ pos addr cur s.first < cur + 2 ^ size ∧
        cur / c.bw * c.bw + (if s.first then addr % c.bw else s.co) = pos addr cur s.first := by
      unfold pos
      cases hf : s.first with
      | false =>
        rw [if_neg (by simp), if_neg (by simp), hco]
        exact ⟨by omega, by omega, hw⟩
      | true =>
        rw [if_pos rfl, if_pos rfl]
        have h0 := hfst hf
        have h1 := Nat.div_add_mod addr (2 ^ size)
        have h2 := Nat.mod_lt addr hnb
        rw [Nat.mul_comm] at h1
        refine ⟨by omega, by omega, ?_⟩
        have e : addr / c.bw = cur / c.bw := same_word hnb hcd hd (by omega) (by omega)
        have := Nat.div_add_mod addr c.bw
        rw [e, Nat.mul_comm] at this
        exact this
    have hdata : s1.data = s.data ++ flatRead ms m (pos addr cur s.first) (cur + 2 ^ size - pos addr cur s.first) := by
      show s.data ++ getLanes _ _ _ = _
      rw [getLanes_ramWord hbm hms m hm _ _ _ (by rw [hco]; exact hfw), hpos.2.2]
      congr 2
      have := hpos.2.2
      omega
    have hfin : s1.data ++ flatRead ms m (pos addr (cur + 2 ^ size) s1.first)
        (cur + 2 ^ size + r * 2 ^ size - pos addr (cur + 2 ^ size) s1.first) =
        s.data ++ flatRead ms m (pos addr cur s.first) (cur + (r + 1) * 2 ^ size - pos addr cur s.first) := by
      rw [hdata]
      have e1 : pos addr (cur + 2 ^ size) s1.first = cur + 2 ^ size := rfl
      rw [e1, List.append_assoc]
      congr 1
      have e2 : cur + 2 ^ size = pos addr cur s.first + (cur + 2 ^ size - pos addr cur s.first) := by omega
      have e3 : cur + (r + 1) * 2 ^ size - pos addr cur s.first =
          (cur + 2 ^ size - pos addr cur s.first) + r * 2 ^ size := by
        rw [Nat.add_mul, Nat.one_mul]; omega
      rw [e3, Nat.add_sub_cancel_left, ← flatRead_append, ← e2]
    have hco1 : s1.co = (cur + 2 ^ size) % c.bw := by
      show (s.co + 2 ^ size) % c.bw = _
      rw [hco, Nat.mod_add_mod]
    -- one response beat
    have hstep : ∀ (rid k : Nat) (q : List RBeat),
        respBeats c.bw (2 ^ size) (addr % c.bw) rid (k + 1) s
          (⟨rid, ramWord c.bw ms m cur, 0, decide (k = 0)⟩ :: q) =
        respBeats c.bw (2 ^ size) (addr % c.bw) rid k s1 q := by
      intro rid k q
      rw [respBeats, popId_head rid ⟨rid, ramWord c.bw ms m cur, 0, decide (k = 0)⟩ q rfl]
      simp only [if_true, ne_eq, not_true_eq_false, if_false]
      rfl
    have hmemstep : ∀ (b : Addr) (k : Nat) (tl : List RBeat), b.size = size → b.burst = INCR →
        ramReadBeats c.bw ms m b k (cur + 2 ^ size) = some tl →
        ramReadBeats c.bw ms m b (k + 1) cur =
          some (⟨b.id, ramWord c.bw ms m cur, 0, decide (k = 0)⟩ :: tl) := by
      intro b k tl e1 e2 e3
      rw [ramReadBeats, if_pos hfit, e1, e2, nextAddr_incr, e3]
    by_cases hnew : n + 1 ≥ bl
    · obtain ⟨q1, q2, q3, q4, q5⟩ := burstLen_spec c (rem := r + 1) hnb h4 hcd (by omega)
      generalize hB : burstLen c (2 ^ size) (r + 1) cur = bl' at *
      let b' : Addr := ⟨cur, id, bl' - 1, size, INCR⟩
      have hleg : Legal (2 ^ size) size b' := by
        refine ⟨rfl, rfl, ?_, hcd, ?_⟩
        · show bl' - 1 + 1 ≤ 256
          omega
        · show cur % 4096 + 2 ^ size * (bl' - 1 + 1) ≤ 4096
          rw [show bl' - 1 + 1 = bl' by omega]; exact q5
      have hT : t = (b' :: (readLoop c (2 ^ size) size INCR r (cur + 2 ^ size) 0 bl' (nextId c id)).1,
          (id, bl') :: (readLoop c (2 ^ size) size INCR r (cur + 2 ^ size) 0 bl' (nextId c id)).2.1,
          (readLoop c (2 ^ size) size INCR r (cur + 2 ^ size) 0 bl' (nextId c id)).2.2) := by
        rw [ht, readLoop, if_pos hnew]
        simp only [hB]
        rfl
      have := ih (cur + 2 ^ size) 0 bl' (nextId c id) b' s1 rest hcd' hco1 (by intro h; exact absurd h (by simp [s1]))
        (by omega) rfl rfl _ rfl
      generalize readLoop c (2 ^ size) size INCR r (cur + 2 ^ size) 0 bl' (nextId c id) = t' at this hT
      subst hT
      obtain ⟨g0, pre, post, g1, g2, g3, s', q, g4, s'', g5, g6, g7⟩ := this
      rw [Nat.zero_add] at g1 g4
      refine ⟨?_, [], ⟨id, ramWord c.bw ms m cur, 0, decide (bl' - 1 = 0)⟩ :: (pre ++ post), ?_, ?_, ?_, s,
        [] ++ (⟨id, ramWord c.bw ms m cur, 0, decide (bl' - 1 = 0)⟩ :: (pre ++ post)) ++ rest, ?_, s'', ?_, ?_, ?_⟩
      · intro x hx
        rcases List.mem_cons.mp hx with rfl | hx
        · exact ⟨hleg, by show bl' - 1 + 1 ≤ _; omega⟩
        · exact g0 x hx
      · rw [show bl - (n + 1) = 0 by omega]; rfl
      · show ramReads c.bw ms m (b' :: t'.1) = _
        rw [ramReads, if_pos (hleg.ok rfl (Nat.le_of_dvd hb hd)).1, (hleg.ok rfl (Nat.le_of_dvd hb hd)).2]
        have : ramReadBeats c.bw ms m b' (b'.len + 1) b'.addr =
            some (⟨id, ramWord c.bw ms m cur, 0, decide (bl' - 1 = 0)⟩ :: pre) := hmemstep b' (bl' - 1) pre rfl rfl g1
        rw [this]
        simp only [g2, List.cons_append]
      · simp only [List.length_nil, List.length_cons, List.length_append]; omega
      · rw [show bl - (n + 1) = 0 by omega]; rfl
      · show respBursts c.bw (2 ^ size) (addr % c.bw) ((id, bl') :: t'.2.1) s _ = _
        rw [respBursts]
        have : respBeats c.bw (2 ^ size) (addr % c.bw) id bl' s
            ([] ++ (⟨id, ramWord c.bw ms m cur, 0, decide (bl' - 1 = 0)⟩ :: (pre ++ post)) ++ rest) = some (s', q) := by
          have e : bl' = bl' - 1 + 1 := by omega
          conv => lhs; rw [e]
          rw [List.nil_append, List.cons_append, Nat.add_sub_cancel, hstep]
          exact g4
        rw [this]
        exact g5
      · exact g6
      · rw [g7, hfin]
    · have hlt : n < bl := by omega
      have hrem := hn hlt
      have hT : t = readLoop c (2 ^ size) size INCR r (cur + 2 ^ size) (n + 1) bl id := by
        rw [ht, readLoop, if_neg hnew]
      obtain ⟨g0, pre, post, g1, g2, g3, s', q, g4, s'', g5, g6, g7⟩ :=
        ih (cur + 2 ^ size) (n + 1) bl id b s1 rest hcd' hco1 (by intro h; exact absurd h (by simp [s1]))
        (by omega) hbs hbb _ rfl
      rw [← hT] at g0 g2 g5
      obtain ⟨d, hdd⟩ : ∃ d, bl - (n + 1) = d + 1 := ⟨bl - (n + 1) - 1, by omega⟩
      rw [show bl - (n + 1 + 1) = d by omega] at g1 g4
      refine ⟨g0, ⟨b.id, ramWord c.bw ms m cur, 0, decide (d = 0)⟩ :: pre, post, ?_, g2, ?_, s', q, ?_, s'', g5, g6, ?_⟩
      · rw [hdd]; exact hmemstep b d pre hbs hbb g1
      · simp only [List.length_cons]; omega
      · rw [hdd, List.cons_append, List.cons_append, hstep]; exact g4
      · rw [g7, hfin]

theorem ramReads_append (bw ms : Nat) (m : Mem) : ∀ (as bs : List Addr) (x y : List RBeat),
    ramReads bw ms m as = some x → ramReads bw ms m bs = some y →
    ramReads bw ms m (as ++ bs) = some (x ++ y)
  | [], bs, x, y, h1, h2 => by
    simp only [ramReads, Option.some.injEq] at h1
    subst h1
    exact h2
  | a :: as, bs, x, y, h1, h2 => by
    rw [ramReads] at h1
    rw [List.cons_append, ramReads]
    split at h1
    · rename_i hb
      rw [if_pos hb]
      cases e : ramReadBeats bw ms m a (a.len + 1) (a.addr / 2 ^ a.size * 2 ^ a.size) with
      | none => rw [e] at h1; exact absurd h1 (by simp)
      | some p =>
        rw [e] at h1
        simp only at h1 ⊢
        cases e2 : ramReads bw ms m as with
        | none => rw [e2] at h1; exact absurd h1 (by simp)
        | some q =>
          rw [e2] at h1
          simp only [Option.some.injEq] at h1
          subst h1
          rw [ramReads_append bw ms m as bs q y e2 h2]
          simp
    · exact absurd h1 (by simp)

theorem masterReads_spec {c : Cfg} (hc : c.Ok) {ms : Nat} (hms : 0 < ms) (hbm : c.bw ∣ ms) (m : Mem)
    (hm : ∀ x, m x < 256) :
    ∀ (cmds : List RCmd) (id : Nat), (∀ q ∈ cmds, q.burst = INCR ∧ sizeFits c q.size) →
      ∃ as cs beats, masterReads c id cmds = some (as, cs) ∧
        (∀ x ∈ as, ∃ s, 2 ^ s ≤ c.bw ∧ Legal (2 ^ s) s x ∧ x.len + 1 ≤ max c.maxBurst 1) ∧
        ramReads c.bw ms m as = some beats ∧
        ∀ rest, masterData c cs (beats ++ rest) =
          some (cmds.map fun q => (q.addr, flatRead ms m q.addr q.len, 0), rest)
  | [], _, _ => ⟨[], [], [], rfl, by simp, rfl, fun _ => rfl⟩
  | q :: cmds, id, h => by
    obtain ⟨h1, h2⟩ := h q (by simp)
    obtain ⟨s1, s2, s3, s4⟩ := size_ok hc h2
    have hmr : masterRead c id q = some (readLoop c (2 ^ sizeOf c q.size) (sizeOf c q.size) INCR
        (cyclesOf (2 ^ sizeOf c q.size) q.addr q.len)
        (q.addr / 2 ^ sizeOf c q.size * 2 ^ sizeOf c q.size) 0 0 id) := by
      unfold masterRead
      simp only [s2, if_true, h1]
    have hinv := inv_start (addr := q.addr) (len := q.len) (Nat.two_pow_pos (sizeOf c q.size)) s1 s3
    have key := fun rest => read_spec c ms (sizeOf c q.size) s1 s3 s4 hms hbm m hm q.addr
      (cyclesOf (2 ^ sizeOf c q.size) q.addr q.len)
      (q.addr / 2 ^ sizeOf c q.size * 2 ^ sizeOf c q.size) 0 0 id ⟨0, 0, 0, sizeOf c q.size, INCR⟩
      { co := q.addr / 2 ^ sizeOf c q.size * 2 ^ sizeOf c q.size - q.addr / c.bw * c.bw, resp := 0,
        data := [], first := true } rest (Nat.dvd_mul_left _ _) hinv.hco (fun _ => rfl) (by simp)
      rfl rfl _ rfl
    generalize readLoop c (2 ^ sizeOf c q.size) (sizeOf c q.size) INCR _ _ _ _ _ = t at key hmr
    obtain ⟨as', cs, beats, g1, g2, g3, g4⟩ :=
      masterReads_spec hc hms hbm m hm cmds t.2.2 (fun x hx => h x (by simp [hx]))
    obtain ⟨k0, pre, post, k1, k2, -⟩ := key []
    refine ⟨t.1 ++ as', (q, t.2.1) :: cs, post ++ beats, ?_, ?_, ramReads_append _ _ _ _ _ _ _ k2 g3, ?_⟩
    · rw [masterReads, hmr]; simp only [g1]
    · intro x hx
      rcases List.mem_append.mp hx with hx | hx
      · exact ⟨_, s2, k0 x hx⟩
      · exact g2 x hx
    · intro rest
      obtain ⟨_, pre', post', e1, e2, _, s', q', e4, s'', e5, e6, e7⟩ := key (beats ++ rest)
      rw [k2, Option.some.injEq] at e2
      subst e2
      simp only [Nat.zero_sub, ramReadBeats, Option.some.injEq] at e1
      subst e1
      simp only [Nat.zero_sub, respBeats, List.nil_append, Option.some.injEq, Prod.mk.injEq] at e4
      obtain ⟨rfl, rfl⟩ := e4
      rw [masterData, List.append_assoc]
      simp only [e5, g4, List.map_cons, e6, Option.some.injEq, Prod.mk.injEq, and_true]
      rw [e7, List.nil_append, flatRead_take]
      · rfl
      show q.len ≤ _ + _ - q.addr
      -- the beats cover the whole range
      have a1 := Nat.div_add_mod q.addr (2 ^ sizeOf c q.size)
      have a2 := Nat.lt_div_mul_add (a := q.len + 2 ^ sizeOf c q.size - 1 + q.addr % 2 ^ sizeOf c q.size)
        (Nat.two_pow_pos (sizeOf c q.size))
      rw [Nat.mul_comm] at a1
      unfold cyclesOf
      omega

end Corundum.Axi
