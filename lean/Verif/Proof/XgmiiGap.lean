import Verif.Proof.XgmiiRun
/-! The gaps between frames. -/
namespace Corundum.Xgmii

abbrev GSt := Option Nat × List Nat

/-- balance of some gaps with `x` characters more: above or below what is required -/
def bal (I : Nat) (t : List Nat) (x : Int) : Int := t.sum + x - I * t.length

def Suf (P : Int → Prop) (I : Nat) (gs : List Nat) (x : Int) : Prop := ∀ t, t <:+ gs → P (bal I t x)

def Pending (P : Int → Prop) (I : Nat) (st : GSt) (x : Int) : Prop := (st.1 = none ∧ st.2 = []) ∨ ∃ n : Nat, st.1 = some n ∧ ∀ t, t <:+ st.2 → P (bal I t (n + x) - I)

def All (P : Int → Prop) (I : Nat) (slack : Int) (gs : List Nat) : Prop := ∀ t, t <:+: gs → ∃ d : Int, 0 ≤ d ∧ d ≤ slack ∧ P (bal I t d)

theorem bal_snoc (I : Nat) (t : List Nat) (n : Nat) (x : Int) : bal I (t ++ [n]) x = bal I t (n + x) - I := by
  unfold bal
  simp only [List.sum_append, List.sum_cons, List.sum_nil, List.length_append, List.length_cons, List.length_nil]
  have : ((I : Int) * ((t.length + (0 + 1) : Nat) : Int)) = I * t.length + I := by
    push_cast
    rw [Int.mul_add]; omega
  rw [this]; push_cast; omega

theorem bal_add (I : Nat) (t : List Nat) (x y : Int) : bal I t (x + y) = bal I t x + y := by unfold bal; omega

theorem suf_snoc {P : Int → Prop} {I : Nat} {gs : List Nat} {n : Nat} {x : Int} (h : ∀ t, t <:+ gs → P (bal I t (n + x) - I)) (h0 : P x) : Suf P I (gs ++ [n]) x := by
  intro t ht
  rcases List.suffix_concat_iff.1 ht with e | ⟨u, e, hu⟩
  · rw [e]; simpa [bal] using h0
  · rw [e, bal_snoc]; exact h u hu

theorem all_snoc {P : Int → Prop} {I : Nat} {slack : Int} {gs : List Nat} {n : Nat} {x : Int} (A : All P I slack gs) (hs : Suf P I (gs ++ [n]) x) (h0 : 0 ≤ x) (h3 : x ≤ slack) : All P I slack (gs ++ [n]) := by
  intro t ht
  rcases List.infix_concat_iff.1 ht with h | h
  · exact ⟨x, h0, h3, hs t h⟩
  · exact A t h

/-! ### counting -/

theorem gap_idle (m : Nat) : ∀ (st : GSt), (List.replicate m IDLE).foldl gapStep st = (st.1.map (· + m), st.2) := by
  induction m with
  | zero => intro st; simp
  | succ m ih =>
    intro st
    rw [List.replicate_succ, List.foldl_cons, ih]
    unfold gapStep
    rw [if_neg (by decide)]
    rcases st with ⟨_ | n, gs⟩
    · rfl
    · simp only [Option.map_some]
      rw [if_neg (by decide)]
      simp; omega

theorem gap_data {st : GSt} (h : st.1 = none) : ∀ {l : List Ch}, (∀ x ∈ l, x.1 = false ∨ x = ERROR) → l.foldl gapStep st = st
  | [], _ => rfl
  | x :: l, hl => by
    rw [List.foldl_cons]
    have : gapStep st x = st := by
      unfold gapStep
      rw [if_neg, h]
      rcases hl x List.mem_cons_self with e | e
      · intro e'; rw [e'] at e; cases e
      · rw [e]; decide
    rw [this]
    exact gap_data h fun y hy => hl y (List.mem_cons_of_mem _ hy)

/-- the word `fill n` of a frame under way -/
theorem gap_rest {st : GSt} (h : st.1 = none) {rest : List Ch} (hr : Rest rest) (n : Nat) : (fill n (rest ++ [TERM])).foldl gapStep st = if n ≤ rest.length then st else (some (n - rest.length), st.2) := by
  by_cases hn : n ≤ rest.length
  · rw [if_pos hn]
    have : fill n (rest ++ [TERM]) = rest.take n := by
      unfold fill
      rw [List.take_append_of_le_length hn, show n - (rest ++ [TERM]).length = 0 by simp; omega]; simp
    rw [this]
    exact gap_data h fun x hx => (hr x (List.mem_of_mem_take hx)).1
  · rw [if_neg hn]
    have : fill n (rest ++ [TERM]) = rest ++ [TERM] ++ List.replicate (n - rest.length - 1) IDLE := by
      unfold fill
      rw [List.take_of_length_le (by simp; omega), show n - (rest ++ [TERM]).length = n - rest.length - 1 by simp; omega]
    rw [this, List.foldl_append, List.foldl_append, gap_data h fun x hx => (hr x hx).1]
    simp only [List.foldl_cons, List.foldl_nil]
    rw [gap_idle]
    show (some (1 + (n - rest.length - 1)), st.2) = _
    rw [show 1 + (n - rest.length - 1) = n - rest.length by omega]

theorem gap_start (st : GSt) : gapStep st START = (none, st.2 ++ st.1.toList) := by
  unfold gapStep
  rw [if_neg (by decide)]
  rcases st with ⟨_ | n, gs⟩
  · simp
  · simp [START]

/-! ### phases -/

inductive GP (P : Int → Prop) (I : Nat) (st : GSt) (ifg df : Int) : List Ch → Prop
  | idle (h : Pending P I st ifg) : GP P I st ifg df []
  | body (rest : List Ch) (hr : Rest rest) (h : st.1 = none) (hs : Suf P I st.2 df) (h0 : ifg = 0) : GP P I st ifg df (rest ++ [TERM])
  | head (rest : List Ch) (hr : Rest rest) (h : Pending P I st df) (h0 : ifg = 0) : GP P I st ifg df (START :: (rest ++ [TERM]))

variable {P : Int → Prop} {I : Nat} {slack : Int}

theorem gp_body {st : GSt} {df : Int} (h : st.1 = none) (hs : Suf P I st.2 df) {rest : List Ch} (hr : Rest rest) (n : Nat) :
    GP P I ((fill n (rest ++ [TERM])).foldl gapStep st) (if rest.length < n then (I : Int) - (n - rest.length : Int) + df else 0) df ((rest ++ [TERM]).drop n) ∧ ((fill n (rest ++ [TERM])).foldl gapStep st).2 = st.2 := by
  rw [gap_rest h hr]
  by_cases hn : n ≤ rest.length
  · rw [if_pos hn, if_neg (by omega), List.drop_append_of_le_length hn]
    exact ⟨.body _ (hr.drop n) h hs rfl, rfl⟩
  · rw [if_neg hn, if_pos (by omega), List.drop_eq_nil_of_le (by simp; omega)]
    refine ⟨.idle (Or.inr ⟨_, rfl, ?_⟩), rfl⟩
    intro t ht
    have := hs t ht
    have e : bal I t (((n - rest.length : Nat) : Int) + ((I : Int) - (n - rest.length : Int) + df)) - I = bal I t df := by unfold bal; omega
    rw [e]; exact this

theorem gp_start {st : GSt} {df : Int} (h : Pending P I st df) (h0 : 0 ≤ df) (h3 : df ≤ slack) (hP : P df) (A : All P I slack st.2) {rest : List Ch} (hr : Rest rest) (n : Nat) :
    GP P I ((fill (n + 1) (START :: (rest ++ [TERM]))).foldl gapStep st) (if rest.length < n then (I : Int) - (n - rest.length : Int) + df else 0) df ((START :: (rest ++ [TERM])).drop (n + 1)) ∧
      All P I slack ((fill (n + 1) (START :: (rest ++ [TERM]))).foldl gapStep st).2 := by
  rw [fill_cons, List.foldl_cons, gap_start, List.drop_succ_cons]
  have key : Suf P I (st.2 ++ st.1.toList) df ∧ All P I slack (st.2 ++ st.1.toList) := by
    rcases h with ⟨e1, e2⟩ | ⟨m, e1, h⟩
    · rw [e1, e2]
      refine ⟨?_, by rw [e2] at A; exact A⟩
      intro t ht
      rw [List.suffix_nil.1 ht]
      simpa [bal] using hP
    · rw [e1]
      exact ⟨suf_snoc h hP, all_snoc A (suf_snoc h hP) h0 h3⟩
  obtain ⟨a, b⟩ := gp_body (st := (none, st.2 ++ st.1.toList)) rfl key.1 hr n
  exact ⟨a, by rw [b]; exact key.2⟩

theorem pending_idle {st : GSt} {x : Int} (h : Pending P I st x) (m : Nat) : Pending P I ((List.replicate m IDLE).foldl gapStep st) (x - m) := by
  rw [gap_idle]
  rcases h with ⟨e1, e2⟩ | ⟨n, e1, h⟩
  · exact Or.inl ⟨by rw [e1]; rfl, e2⟩
  · refine Or.inr ⟨n + m, by rw [e1]; rfl, ?_⟩
    intro t ht
    have := h t ht
    have e : ((n + m : Nat) : Int) + (x - m) = n + x := by omega
    rw [e]; exact this

theorem pending_mono {st : GSt} {x y : Int} (h : Pending P I st x) (hP : ∀ a, P a → P (a + (y - x))) : Pending P I st y := by
  rcases h with h | ⟨n, e1, h⟩
  · exact Or.inl h
  · refine Or.inr ⟨n, e1, ?_⟩
    intro t ht
    have := hP _ (h t ht)
    have e : bal I t (n + x) - I + (y - x) = bal I t (n + y) - I := by unfold bal; omega
    rw [← e]; exact this

theorem gp_word {st : GSt} {ifg df : Int} {dl : List Ch} (G : GP P I st ifg df dl) (hd : dl ≠ []) (h0 : 0 ≤ df) (h3 : df ≤ slack) (hP : P df) (A : All P I slack st.2) {n : Nat} (hn : 1 ≤ n) :
    GP P I ((fill n dl).foldl gapStep st) (if dl.length ≤ n then (I : Int) - (n + 1 - dl.length : Int) + df else 0) df (dl.drop n) ∧ All P I slack ((fill n dl).foldl gapStep st).2 := by
  cases G with
  | idle h => exact absurd rfl hd
  | body rest hr h hs h0 =>
    obtain ⟨a, b⟩ := gp_body h hs hr n
    rw [b]
    refine ⟨?_, A⟩
    have e : (if (rest ++ [TERM]).length ≤ n then (I : Int) - (n + 1 - (rest ++ [TERM]).length : Int) + df else 0) = if rest.length < n then (I : Int) - (n - rest.length : Int) + df else 0 := by
      simp only [List.length_append, List.length_cons, List.length_nil]
      by_cases hh : rest.length < n
      · rw [if_pos hh, if_pos (by omega)]; omega
      · rw [if_neg hh, if_neg (by omega)]
    rw [e]; exact a
  | head rest hr h hz =>
    obtain ⟨m, hm⟩ : ∃ m, n = m + 1 := ⟨n - 1, by omega⟩
    subst hm
    obtain ⟨a, b⟩ := gp_start h h0 h3 hP A hr m
    refine ⟨?_, b⟩
    have e : (if (START :: (rest ++ [TERM])).length ≤ m + 1 then (I : Int) - ((m + 1 : Nat) + 1 - (START :: (rest ++ [TERM])).length : Int) + df else 0) = if rest.length < m then (I : Int) - (m - rest.length : Int) + df else 0 := by
      simp only [List.length_append, List.length_cons, List.length_nil]
      by_cases hh : rest.length < m
      · rw [if_pos hh, if_pos (by omega)]; omega
      · rw [if_neg hh, if_neg (by omega)]
    rw [e]; exact a

/-- a frame after four idle characters -/
theorem gp_offset {st : GSt} {df : Int} (h : Pending P I st (df + 4)) (h0 : 0 ≤ df) (h3 : df ≤ slack) (hP : P df) (A : All P I slack st.2) {rest : List Ch} (hr : Rest rest) {n : Nat} (hn : n = 4 ∨ n = 8) :
    GP P I ((fill n (List.replicate 4 IDLE ++ START :: (rest ++ [TERM]))).foldl gapStep st) (if rest.length + 6 ≤ n then (I : Int) - (n + 1 - (rest.length + 6) : Int) + df else 0) df
      ((List.replicate 4 IDLE ++ START :: (rest ++ [TERM])).drop n) ∧ All P I slack ((fill n (List.replicate 4 IDLE ++ START :: (rest ++ [TERM]))).foldl gapStep st).2 := by
  have hp := pending_idle h 4
  rw [show df + 4 - ((4 : Nat) : Int) = df by omega] at hp
  have hA : All P I slack ((List.replicate 4 IDLE).foldl gapStep st).2 := by rw [gap_idle]; exact A
  rcases hn with rfl | rfl
  · have hf : fill 4 (List.replicate 4 IDLE ++ START :: (rest ++ [TERM])) = List.replicate 4 IDLE := by simp [fill]
    have hd : (List.replicate 4 IDLE ++ START :: (rest ++ [TERM])).drop 4 = START :: (rest ++ [TERM]) := by simp
    rw [hf, hd, if_neg (by omega)]
    exact ⟨.head rest hr hp rfl, hA⟩
  · have hf : fill 8 (List.replicate 4 IDLE ++ START :: (rest ++ [TERM])) = List.replicate 4 IDLE ++ fill (3 + 1) (START :: (rest ++ [TERM])) := by
      show fill 8 (IDLE :: IDLE :: IDLE :: IDLE :: START :: (rest ++ [TERM])) = _
      rw [fill_cons, fill_cons, fill_cons, fill_cons]; rfl
    have hd : (List.replicate 4 IDLE ++ START :: (rest ++ [TERM])).drop 8 = (START :: (rest ++ [TERM])).drop (3 + 1) := rfl
    rw [hf, hd, List.foldl_append]
    obtain ⟨a, b⟩ := gp_start hp h0 h3 hP hA hr 3
    refine ⟨?_, b⟩
    have e : (if rest.length + 6 ≤ 8 then (I : Int) - ((8 : Nat) + 1 - (rest.length + 6) : Int) + df else 0) = if rest.length < 3 then (I : Int) - ((3 : Nat) - rest.length : Int) + df else 0 := by
      by_cases hh : rest.length < 3
      · rw [if_pos hh, if_pos (by omega)]; omega
      · rw [if_neg hh, if_neg (by omega)]
    rw [e]; exact a

/-! ### runs -/

def gst (c : Cfg) (s : Sys) : GSt := (chars c.bw s.words).foldl gapStep (none, [])

structure GInv (P : Int → Prop) (slack : Int) (c : Cfg) (s : Sys) : Prop where
  ph : GP P c.ifg (gst c s) s.src.ifg s.src.deficit s.src.dl
  all : All P c.ifg slack (gst c s).2
  def0 : 0 ≤ s.src.deficit
  defs : s.src.deficit ≤ slack
  defP : P s.src.deficit
  bytes : ∀ f ∈ s.src.queue, ∀ b ∈ f.data, b < 256

theorem gst_W {c : Cfg} {src : Src} {k : Snk} {ws : List Word} {l : List Ch} (h : ∀ x ∈ l, Byte x) (hl : l.length = c.bw) {s : Sys} (hs : s.words = ws) : gst c ⟨src, k, ws ++ [W l]⟩ = l.foldl gapStep (gst c s) := by
  unfold gst chars
  rw [List.flatMap_append, List.foldl_append, hs]
  simp only [List.flatMap_cons, List.flatMap_nil, List.append_nil]
  rw [← hl, lanes_W h]

theorem GP.bytes {st : GSt} {ifg df : Int} {dl : List Ch} (G : GP P I st ifg df dl) : ∀ x ∈ dl, Byte x := by
  cases G with
  | idle => intro x h; cases h
  | body rest hr => exact hr.bytes
  | head rest hr =>
    intro x h
    rcases List.mem_cons.1 h with h | h
    · rw [h]; show (0xfb : Nat) < 256; decide
    · exact hr.bytes x h

theorem GP.zero {st : GSt} {ifg df : Int} {dl : List Ch} (G : GP P I st ifg df dl) (hd : dl ≠ []) : ifg = 0 := by
  cases G with
  | idle => exact absurd rfl hd
  | body _ _ _ _ h => exact h
  | head _ _ _ h => exact h

theorem GP.pend {st : GSt} {ifg df : Int} {dl : List Ch} (G : GP P I st ifg df dl) (hd : dl = []) : Pending P I st ifg := by
  cases G with
  | idle h => exact h
  | body => simp at hd
  | head => cases hd

theorem build_rest {f : Frame} (hb : ∀ b ∈ f.data, b < 256) {dl : List Ch} (h : f.build.bind wrap = some dl) : ∃ B, Rest B ∧ dl = START :: (B ++ [TERM]) := by
  cases hB : f.build with
  | none => rw [hB] at h; cases h
  | some L =>
    rw [hB] at h
    have h : wrap L = some dl := h
    have hL : ∀ x ∈ L, (x.1 = false ∨ x = ERROR) ∧ Byte x := by
      unfold Frame.build at hB
      cases he : f.errs with
      | none => rw [he] at hB; cases hB
      | some e =>
        rw [he] at hB
        have hB : (if e.length < f.data.length then none else some (List.zipWith chr f.data e)) = some L := hB
        split at hB
        · cases hB
        · cases hB
          exact zip_chr f.data e hb
    unfold wrap at h
    split at h
    · cases h
    · split at h
      · cases h
        exact ⟨_, fun x hx => hL x (List.mem_cons_of_mem _ hx), rfl⟩
      · cases h

/-- what a step of the source has to satisfy at its turning points -/
structure Turn (P : Int → Prop) (slack : Int) (c : Cfg) (s : Src) : Prop where
  /-- waiting -/
  wait : s.ifg > c.bw - 1 ∨ (c.dic = false ∧ s.ifg > 0) → ∀ a, P a → P (a + (max (s.ifg - c.bw) 0 - (s.ifg - c.bw)))
  /-- nothing to send -/
  rest : s.queue = [] → ¬ (s.ifg > c.bw - 1 ∨ (c.dic = false ∧ s.ifg > 0)) → ∀ a, P a → P (a + (c.bw - s.ifg))
  rest0 : s.queue = [] → P 0
  /-- a frame starts -/
  start : s.queue ≠ [] → ¬ (s.ifg > c.bw - 1 ∨ (c.dic = false ∧ s.ifg > 0)) → ¬ ((c.bw = 8 ∧ s.ifg ≥ 4) ∨ c.offset = true) → (∀ a, P a → P (a + (max s.ifg 0 - s.ifg))) ∧ max s.ifg 0 ≤ slack ∧ P (max s.ifg 0)
  startOff : s.queue ≠ [] → ¬ (s.ifg > c.bw - 1 ∨ (c.dic = false ∧ s.ifg > 0)) → (c.bw = 8 ∧ s.ifg ≥ 4) ∨ c.offset = true →
    (∀ a, P a → P (a + (max (s.ifg - 4) 0 + 4 - s.ifg))) ∧ max (s.ifg - 4) 0 ≤ slack ∧ P (max (s.ifg - 4) 0)

theorem ginv_clk {c : Cfg} (hbw : c.bw = 4 ∨ c.bw = 8) {s s' : Sys} (hs0 : 0 ≤ slack) (G : GInv P slack c s) (T : s.src.dl = [] → Turn P slack c s.src) (h : Sys.step c s (.clk true) = some s') :
    GInv P slack c s' := by
  have hidleB : ∀ x ∈ List.replicate c.bw IDLE, Byte x := by intro x hx; rw [(List.mem_replicate.1 hx).2]; show (7 : Nat) < 256; decide
  have hone : 1 ≤ c.bw := by omega
  unfold Sys.step at h
  by_cases hw : s.src.ifg > c.bw - 1 ∨ (c.dic = false ∧ s.src.ifg > 0)
  · have hdl : s.src.dl = [] := by
      apply Classical.byContradiction
      intro hd
      have := G.ph.zero hd
      omega
    have hst : s.src.step c = some ({ s.src with ifg := max (s.src.ifg - c.bw) 0 }, W (List.replicate c.bw IDLE)) := by
      unfold Src.step
      rw [if_pos hw, idle_W hbw]
    rw [hst] at h
    cases h
    have hg := gst_W (c := c) (src := { s.src with ifg := max (s.src.ifg - c.bw) 0 }) (k := s.snk.step c.bw (s.words.getLast?.getD (idleWord c.bw))) hidleB (by simp) (s := s) rfl
    refine ⟨?_, ?_, G.def0, G.defs, G.defP, G.bytes⟩
    · rw [hg]; dsimp only; rw [hdl]
      refine .idle (pending_mono (pending_idle (G.ph.pend hdl) c.bw) ?_)
      exact (T hdl).wait hw
    · rw [hg, gap_idle]; exact G.all
  · by_cases hdl : s.src.dl = []
    · have hp := G.ph.pend hdl
      cases hqs : s.src.queue with
      | nil =>
        have hst : s.src.step c = some ({ s.src with ifg := 0, deficit := 0 }, W (List.replicate c.bw IDLE)) := by
          unfold Src.step
          rw [if_neg hw, if_neg (by simp [hdl])]
          split
          · rename_i e; rw [hqs] at e; cases e
          · rw [idle_W hbw]
        rw [hst] at h
        cases h
        have hg := gst_W (c := c) (src := { s.src with ifg := 0, deficit := 0 }) (k := s.snk.step c.bw (s.words.getLast?.getD (idleWord c.bw))) hidleB (by simp) (s := s) rfl
        refine ⟨?_, ?_, Int.le_refl _, hs0, (T hdl).rest0 hqs, by dsimp only; exact G.bytes⟩
        · rw [hg]; dsimp only; rw [hdl]
          refine .idle (pending_mono (pending_idle hp c.bw) ?_)
          have := (T hdl).rest hqs hw
          intro a ha
          have := this a ha
          rw [show (0 : Int) - (s.src.ifg - c.bw) = c.bw - s.src.ifg by omega]
          exact this
        · rw [hg, gap_idle]; exact G.all
      | cons f q =>
        have hqne : s.src.queue ≠ [] := by rw [hqs]; simp
        cases hwr : f.build.bind wrap with
        | none =>
          exfalso
          have : s.src.step c = none := by
            unfold Src.step
            rw [if_neg hw, if_neg (by simp [hdl]), hqs]
            show (f.build.bind wrap).map _ = _
            rw [hwr]; rfl
          rw [this] at h; cases h
        | some dl0 =>
          obtain ⟨B, hB, hdl0⟩ := build_rest (G.bytes f (by rw [hqs]; exact List.mem_cons_self)) hwr
          subst hdl0
          have hq' : ∀ g ∈ q, ∀ b ∈ g.data, b < 256 := fun g hg => G.bytes g (by rw [hqs]; exact List.mem_cons_of_mem _ hg)
          have hSB : ∀ x ∈ START :: (B ++ [TERM]), Byte x := by
            intro x hx
            rcases List.mem_cons.1 hx with hx | hx
            · rw [hx]; show (0xfb : Nat) < 256; decide
            · exact hB.bytes x hx
          by_cases ho : (c.bw = 8 ∧ s.src.ifg ≥ 4) ∨ c.offset = true
          · have hst : s.src.step c = some (⟨q, (List.replicate 4 IDLE ++ START :: (B ++ [TERM])).drop c.bw,
                if List.replicate 4 IDLE ++ START :: (B ++ [TERM]) ≠ [] ∧ (List.replicate 4 IDLE ++ START :: (B ++ [TERM])).length ≤ c.bw then (c.ifg : Int) - (c.bw + 1 - (List.replicate 4 IDLE ++ START :: (B ++ [TERM])).length : Int) + max (s.src.ifg - 4) 0 else 0, max (s.src.ifg - 4) 0⟩,
                W (fill c.bw (List.replicate 4 IDLE ++ START :: (B ++ [TERM])))) := by
              unfold Src.step
              rw [if_neg hw, if_neg (by simp [hdl]), hqs]
              show (f.build.bind wrap).map _ = _
              rw [hwr, Option.map_some]
              dsimp only
              rw [if_pos ho, if_pos ho, emit_full]
              rw [show max (max (s.src.ifg - 4) 0) 0 = max (s.src.ifg - 4) 0 by omega]
            rw [hst] at h
            cases h
            obtain ⟨t1, t2, t3⟩ := (T hdl).startOff hqne hw ho
            have hbyte : ∀ x ∈ List.replicate 4 IDLE ++ START :: (B ++ [TERM]), Byte x := by
              intro x hx
              rcases List.mem_append.1 hx with hx | hx
              · rw [(List.mem_replicate.1 hx).2]; show (7 : Nat) < 256; decide
              · exact hSB x hx
            have h0 : (0 : Int) ≤ max (s.src.ifg - 4) 0 := by omega
            obtain ⟨a, b⟩ := gp_offset (pending_mono (y := max (s.src.ifg - 4) 0 + 4) hp t1) h0 t2 t3 G.all hB hbw
            have hln : (List.replicate 4 IDLE ++ START :: (B ++ [TERM])).length = B.length + 6 := by simp
            have e : (if List.replicate 4 IDLE ++ START :: (B ++ [TERM]) ≠ [] ∧ (List.replicate 4 IDLE ++ START :: (B ++ [TERM])).length ≤ c.bw then (c.ifg : Int) - (c.bw + 1 - (List.replicate 4 IDLE ++ START :: (B ++ [TERM])).length : Int) + max (s.src.ifg - 4) 0 else 0) =
                (if B.length + 6 ≤ c.bw then (c.ifg : Int) - (c.bw + 1 - (B.length + 6) : Int) + max (s.src.ifg - 4) 0 else 0) := by
              rw [hln]
              by_cases hh : B.length + 6 ≤ c.bw
              · rw [if_pos ⟨by simp, hh⟩, if_pos hh]; omega
              · rw [if_neg (fun e => hh e.2), if_neg hh]
            rw [e]
            refine ⟨?_, ?_, h0, t2, t3, hq'⟩
            · rw [gst_W (fill_bytes hbyte) (fill_length _ _) (s := s) rfl]; exact a
            · rw [gst_W (fill_bytes hbyte) (fill_length _ _) (s := s) rfl]; exact b
          · have hst : s.src.step c = some (⟨q, (START :: (B ++ [TERM])).drop c.bw,
                if START :: (B ++ [TERM]) ≠ [] ∧ (START :: (B ++ [TERM])).length ≤ c.bw then (c.ifg : Int) - (c.bw + 1 - (START :: (B ++ [TERM])).length : Int) + max s.src.ifg 0 else 0, max s.src.ifg 0⟩,
                W (fill c.bw (START :: (B ++ [TERM])))) := by
              unfold Src.step
              rw [if_neg hw, if_neg (by simp [hdl]), hqs]
              show (f.build.bind wrap).map _ = _
              rw [hwr, Option.map_some]
              dsimp only
              rw [if_neg ho, if_neg ho, emit_full]
            rw [hst] at h
            cases h
            obtain ⟨t1, t2, t3⟩ := (T hdl).start hqne hw ho
            have h0 : (0 : Int) ≤ max s.src.ifg 0 := by omega
            obtain ⟨a, b⟩ := gp_word (ifg := 0) (.head B hB (pending_mono (y := max s.src.ifg 0) hp t1) rfl) (by simp) h0 t2 t3 G.all hone
            have e : (if START :: (B ++ [TERM]) ≠ [] ∧ (START :: (B ++ [TERM])).length ≤ c.bw then (c.ifg : Int) - (c.bw + 1 - (START :: (B ++ [TERM])).length : Int) + max s.src.ifg 0 else 0) =
                (if (START :: (B ++ [TERM])).length ≤ c.bw then (c.ifg : Int) - (c.bw + 1 - (START :: (B ++ [TERM])).length : Int) + max s.src.ifg 0 else 0) := by
              by_cases hh : (START :: (B ++ [TERM])).length ≤ c.bw
              · rw [if_pos ⟨by simp, hh⟩, if_pos hh]
              · rw [if_neg (fun e => hh e.2), if_neg hh]
            rw [e]
            refine ⟨?_, ?_, h0, t2, t3, hq'⟩
            · rw [gst_W (fill_bytes hSB) (fill_length _ _) (s := s) rfl]; exact a
            · rw [gst_W (fill_bytes hSB) (fill_length _ _) (s := s) rfl]; exact b
    · have h0 := G.ph.zero hdl
      have hst : s.src.step c = some ({ s.src with dl := s.src.dl.drop c.bw, ifg := if s.src.dl.length ≤ c.bw then (c.ifg : Int) - (c.bw + 1 - s.src.dl.length : Int) + s.src.deficit else 0 }, W (fill c.bw s.src.dl)) := by
        unfold Src.step
        rw [if_neg hw, if_pos hdl, emit_full, h0]
        by_cases hh : s.src.dl.length ≤ c.bw
        · rw [if_pos ⟨hdl, hh⟩, if_pos hh]
        · rw [if_neg (fun e => hh e.2), if_neg hh]
      rw [hst] at h
      cases h
      obtain ⟨a, b⟩ := gp_word G.ph hdl G.def0 G.defs G.defP G.all hone
      refine ⟨?_, ?_, G.def0, G.defs, G.defP, G.bytes⟩
      · rw [gst_W (fill_bytes G.ph.bytes) (fill_length _ _) (s := s) rfl]; exact a
      · rw [gst_W (fill_bytes G.ph.bytes) (fill_length _ _) (s := s) rfl]; exact b

end Corundum.Xgmii
