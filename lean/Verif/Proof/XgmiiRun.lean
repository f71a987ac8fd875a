import Verif.Proof.Xgmii
/-! Runs of a source connected to a sink. -/
namespace Corundum.Xgmii

/-- the characters up to the first control character -/
def cut : List Ch → List Ch
  | [] => []
  | x :: l => if x.1 then [x] else x :: cut l

theorem cut_data {a : List Ch} (h : ∀ x ∈ a, x.1 = false) (b : List Ch) : cut (a ++ b) = a ++ cut b := by
  induction a with
  | nil => rfl
  | cons x a ih =>
    rw [List.cons_append, cut, h x List.mem_cons_self, if_neg (by simp), ih fun y hy => h y (List.mem_cons_of_mem _ hy)]; rfl

def chr (b : Nat) (e : Bool) : Ch := if e then ERROR else (false, b)

theorem cut_zip : ∀ (d : List Nat) (e : List Bool), d.length ≤ e.length → cut (List.zipWith chr d e) =
    if e.findIdx (· = true) < d.length then (d.take (e.findIdx (· = true))).map (fun b => (false, b)) ++ [ERROR] else d.map fun b => (false, b)
  | [], e, _ => by simp [cut]
  | b :: d, [], h => by simp at h
  | b :: d, e :: es, h => by
    have ih := cut_zip d es (by simpa using h)
    rw [List.zipWith_cons_cons, cut, List.findIdx_cons]
    cases e with
    | true => simp [chr, ERROR]
    | false =>
      rw [ih]
      simp only [chr, Bool.false_eq_true, if_false, decide_false, cond_false]
      by_cases hk : es.findIdx (· = true) < d.length
      · rw [if_pos hk, if_pos (by simpa using hk)]; simp
      · rw [if_neg hk, if_neg (by simpa using hk)]; simp

theorem zip_take : ∀ (d : List Nat) (e : List Bool) (n : Nat), n ≤ e.findIdx (· = true) → ∀ x ∈ (List.zipWith chr d e).take n, x.1 = false
  | [], e, n, _, x, h => by simp at h
  | b :: d, [], n, _, x, h => by simp at h
  | b :: d, e :: es, 0, _, x, h => by simp at h
  | b :: d, e :: es, n + 1, hn, x, h => by
    rw [List.findIdx_cons] at hn
    cases e with
    | true => simp at hn
    | false =>
      simp only [Bool.false_eq_true, decide_false, cond_false] at hn
      rw [List.zipWith_cons_cons, List.take_succ_cons] at h
      rcases List.mem_cons.1 h with h | h
      · subst h; rfl
      · exact zip_take d es n (by omega) x h

theorem zip_chr : ∀ (d : List Nat) (e : List Bool), (∀ b ∈ d, b < 256) → ∀ x ∈ List.zipWith chr d e, (x.1 = false ∨ x = ERROR) ∧ Byte x
  | [], e, _, x, h => by simp at h
  | b :: d, [], _, x, h => by simp at h
  | b :: d, e :: es, hb, x, h => by
    rw [List.zipWith_cons_cons] at h
    rcases List.mem_cons.1 h with h | h
    · subst h
      cases e
      · exact ⟨Or.inl rfl, hb b List.mem_cons_self⟩
      · exact ⟨Or.inr rfl, show (0xfe : Nat) < 256 by decide⟩
    · exact zip_chr d es (fun y hy => hb y (List.mem_cons_of_mem _ hy)) x h

theorem parse_data (l : List Nat) : parse (l.map fun b => (false, b)) = ⟨l, List.replicate l.length false, List.replicate l.length false⟩ := by
  unfold parse
  simp [List.map_map, Function.comp_def, List.map_const']

theorem parse_error (l : List Nat) : parse (l.map (fun b => (false, b)) ++ [ERROR]) = ⟨l ++ [0xfe], List.replicate l.length false ++ [true], List.replicate l.length false ++ [true]⟩ := by
  unfold parse
  simp [List.map_map, Function.comp_def, List.map_const', ERROR]

theorem findIdx_rep (n : Nat) (l : List Bool) : (List.replicate n false ++ l).findIdx (· = true) = n + l.findIdx (· = true) := by
  induction n with
  | zero => simp
  | succ n ih => rw [List.replicate_succ, List.cons_append, List.findIdx_cons, ih]; simp; omega

/-- the characters of a good frame -/
theorem build_good {bw : Nat} {f : Frame} (h1 : 1 ≤ bw) (G : f.Good bw) : ∃ B, f.build = some ((false, PRE) :: B) ∧ B.length + 1 = f.data.length ∧ bw ≤ B.length + 1 ∧ (∀ x ∈ B, (x.1 = false ∨ x = ERROR) ∧ Byte x) ∧
    (∀ x ∈ B.take (bw - 1), x.1 = false) ∧ f.expect = parse ((false, PRE) :: cut B) := by
  have hlen := G.long
  have key : ∃ e, f.errs = some e ∧ f.data.length ≤ e.length ∧ f.firstError = (if e.findIdx (· = true) < f.data.length then some (e.findIdx (· = true)) else none) := by
    cases he : f.error with
    | none =>
      refine ⟨List.replicate f.data.length false, by simp [Frame.errs, he], by simp, ?_⟩
      have := findIdx_rep f.data.length []
      rw [List.append_nil] at this
      rw [this, if_neg (by simp)]
      simp [Frame.firstError, he]
    | flag =>
      refine ⟨List.replicate (f.data.length - 1) false ++ [true], ?_, by simp; omega, ?_⟩
      · simp only [Frame.errs, he]
        rw [if_neg (by intro h; rw [h] at hlen; simp at hlen; omega)]
      · rw [findIdx_rep, if_pos (by simp [List.findIdx_cons]; omega)]
        simp [Frame.firstError, he, List.findIdx_cons]
    | list l =>
      exact ⟨l, by simp [Frame.errs, he], G.flags l he, by simp [Frame.firstError, he]⟩
  obtain ⟨e, e1, e2, e3⟩ := key
  have hb : f.build = some (List.zipWith chr f.data e) := by
    unfold Frame.build
    rw [e1]
    show (if e.length < f.data.length then none else _) = _
    rw [if_neg (by omega)]; rfl
  have hk : bw ≤ e.findIdx (· = true) := by
    by_cases h : e.findIdx (· = true) < f.data.length
    · rw [if_pos h] at e3; exact G.err _ e3
    · omega
  have hexp : f.expect = parse (cut (List.zipWith chr f.data e)) := by
    rw [cut_zip _ _ e2]
    unfold Frame.expect
    rw [e3]
    by_cases h : e.findIdx (· = true) < f.data.length
    · rw [if_pos h, if_pos h, parse_error]
      rw [List.length_take, Nat.min_eq_left (Nat.le_of_lt h)]
    · rw [if_neg h, if_neg h, parse_data]
  have htk := zip_take f.data e bw hk
  have hch := zip_chr f.data e G.bytes
  have hzl : (List.zipWith chr f.data e).length = f.data.length := by simp; omega
  cases hd : f.data with
  | nil => rw [hd] at hlen; simp at hlen; omega
  | cons b d =>
    have hpre := G.pre
    rw [hd] at hpre
    cases hpre
    cases e with
    | nil => rw [hd] at e2; simp at e2
    | cons x es =>
      rw [hd, List.zipWith_cons_cons] at hb hexp htk hch hzl
      cases x with
      | true =>
        have := htk ERROR (by rw [show bw = bw - 1 + 1 by omega, List.take_succ_cons]; exact List.mem_cons_self)
        exact absurd this (by decide)
      | false =>
        refine ⟨List.zipWith chr d es, hb, by simpa using hzl, ?_, fun y hy => hch y (List.mem_cons_of_mem _ hy), ?_, ?_⟩
        · rw [hd] at hlen; simp only [List.length_cons] at hzl hlen; omega
        · intro y hy
          apply htk y
          rw [show bw = bw - 1 + 1 by omega, List.take_succ_cons]
          exact List.mem_cons_of_mem _ hy
        · rw [hexp, cut]; rfl

theorem takeL_word : ∀ (rest : List Ch) (n : Nat) (acc : List Ch) (q : List Rx), (∀ x ∈ rest, x.1 = false ∨ x = ERROR) →
    (n ≤ rest.length ∧ (∀ x ∈ rest.take n, x.1 = false) ∧ takeL (fill n (rest ++ [TERM])) acc q = ⟨q, some (acc ++ rest.take n)⟩) ∨
    takeL (fill n (rest ++ [TERM])) acc q = ⟨q ++ [parse (acc ++ cut rest)], none⟩
  | rest, 0, acc, q, _ => Or.inl ⟨by omega, by simp, by simp [fill, takeL]⟩
  | [], n + 1, acc, q, _ => by
    refine Or.inr ?_
    rw [List.nil_append, fill_cons, takeL, if_pos (by rfl), if_neg (by simp)]
    simp [cut]
  | x :: rest, n + 1, acc, q, h => by
    rw [List.cons_append, fill_cons, takeL]
    rcases h x List.mem_cons_self with hx | hx
    · rw [if_neg (by rw [hx]; simp)]
      rcases takeL_word rest n (acc ++ [x]) q (fun y hy => h y (List.mem_cons_of_mem _ hy)) with ⟨a, b, e⟩ | e
      · refine Or.inl ⟨by simp; omega, ?_, by rw [e]; simp⟩
        intro y hy
        rw [List.take_succ_cons] at hy
        rcases List.mem_cons.1 hy with hy | hy
        · rw [hy]; exact hx
        · exact b y hy
      · refine Or.inr ?_
        rw [e, cut, if_neg (by rw [hx]; simp)]; simp
    · subst hx
      refine Or.inr ?_
      rw [if_pos (show ERROR.1 = true from rfl), if_pos (show ERROR.2 ≠ TERM.2 by decide)]
      rfl

/-- characters without meaning outside of a frame -/
def Calm (x : Ch) : Prop := x ≠ START

theorem stepL_calm {s : Snk} (hc : s.cur = none) {l : List Ch} (h : ∀ x ∈ l, Calm x) : s.stepL l = s := by
  unfold Snk.stepL
  rw [hc]; dsimp only
  rw [if_neg (fun e => h _ (List.mem_of_getElem? e) rfl), if_neg (fun e => h _ (List.mem_of_getElem? e.2) rfl)]

theorem fill_calm {n : Nat} {l : List Ch} (h : ∀ x ∈ l, Calm x) : ∀ x ∈ fill n l, Calm x := by
  intro x hx
  rcases List.mem_append.1 hx with hx | hx
  · exact h x (List.mem_of_mem_take hx)
  · rw [(List.mem_replicate.1 hx).2]; show IDLE ≠ START; decide

def Rest (rest : List Ch) : Prop := ∀ x ∈ rest, (x.1 = false ∨ x = ERROR) ∧ Byte x

theorem Rest.calm {rest : List Ch} (h : Rest rest) : ∀ x ∈ rest ++ [TERM], Calm x := by
  intro x hx
  rcases List.mem_append.1 hx with hx | hx
  · rcases (h x hx).1 with e | e
    · intro e'; rw [e'] at e; exact absurd e (by decide)
    · rw [e]; show ERROR ≠ START; decide
  · rw [List.mem_singleton.1 hx]; show TERM ≠ START; decide

theorem Rest.bytes {rest : List Ch} (h : Rest rest) : ∀ x ∈ rest ++ [TERM], Byte x := by
  intro x hx
  rcases List.mem_append.1 hx with hx | hx
  · exact (h x hx).2
  · rw [List.mem_singleton.1 hx]; show (0xfd : Nat) < 256; decide

theorem Rest.drop {rest : List Ch} (h : Rest rest) (n : Nat) : Rest (rest.drop n) := fun x hx => h x (List.mem_of_mem_drop hx)

/-- where source and sink are; `k` is the sink after the word on the interface, the last argument what the rest of the frame being sent adds to its queue -/
inductive Phase (bw : Nat) (k : Snk) : List Ch → List Rx → Prop
  | idle (hk : k.cur = none) : Phase bw k [] []
  | tail (hk : k.cur = none) (rest : List Ch) (hr : Rest rest) : Phase bw k (rest ++ [TERM]) []
  | body (acc : List Ch) (hk : k.cur = some acc) (ha : ∀ x ∈ acc, x.1 = false) (rest : List Ch) (hr : Rest rest) : Phase bw k (rest ++ [TERM]) [parse (acc ++ cut rest)]
  | head (h4 : bw = 4) (hk : k.cur = none) (rest : List Ch) (hr : Rest rest) (ht : ∀ x ∈ rest.take (bw - 1), x.1 = false) (hl : bw ≤ rest.length + 1) :
      Phase bw k (START :: (rest ++ [TERM])) [parse ((false, PRE) :: cut rest)]

theorem Phase.bytes {bw : Nat} {k : Snk} {dl : List Ch} {pend : List Rx} (P : Phase bw k dl pend) : ∀ x ∈ dl, Byte x := by
  cases P with
  | idle => intro x h; cases h
  | tail _ rest hr => exact hr.bytes
  | body _ _ _ rest hr => exact hr.bytes
  | head _ _ rest hr =>
    intro x h
    rcases List.mem_cons.1 h with h | h
    · rw [h]; show (0xfb : Nat) < 256; decide
    · exact hr.bytes x h

theorem drop_rest (rest : List Ch) (n : Nat) : (rest ++ [TERM]).drop n = [] ∨ (n ≤ rest.length ∧ (rest ++ [TERM]).drop n = rest.drop n ++ [TERM]) := by
  by_cases h : n ≤ rest.length
  · exact Or.inr ⟨h, by rw [List.drop_append_of_le_length h]⟩
  · exact Or.inl (List.drop_eq_nil_of_le (by simp; omega))

/-- a frame starts in lane 0 -/
theorem phase_start {bw : Nat} (hbw : bw = 4 ∨ bw = 8) {k : Snk} (hk : k.cur = none) {rest : List Ch} (hr : Rest rest) (ht : ∀ x ∈ rest.take (bw - 1), x.1 = false) (hl : bw ≤ rest.length + 1) :
    Phase bw (k.stepL (fill bw (START :: (rest ++ [TERM])))) ((START :: (rest ++ [TERM])).drop bw) [parse ((false, PRE) :: cut rest)] ∧ (k.stepL (fill bw (START :: (rest ++ [TERM])))).queue = k.queue := by
  obtain ⟨n, hn⟩ : ∃ n, bw = n + 1 := ⟨bw - 1, by omega⟩
  subst hn
  have hfill : fill (n + 1) (START :: (rest ++ [TERM])) = START :: rest.take n := by
    rw [fill_cons]
    unfold fill
    rw [List.take_append_of_le_length (by omega), show n - (rest ++ [TERM]).length = 0 by simp; omega]; simp
  have hst : k.stepL (START :: rest.take n) = ⟨k.queue, some ((false, PRE) :: rest.take n)⟩ := by
    unfold Snk.stepL; rw [hk]; simp
  rw [hfill, hst]
  refine ⟨?_, rfl⟩
  have : rest = rest.take n ++ rest.drop n := (List.take_append_drop n rest).symm
  have hc : (false, PRE) :: cut rest = ((false, PRE) :: rest.take n) ++ cut (rest.drop n) := by
    rw [List.cons_append, ← cut_data (by simpa using ht), List.take_append_drop]
  rw [hc, List.drop_succ_cons, List.drop_append_of_le_length (by omega)]
  refine .body _ rfl ?_ _ (hr.drop n)
  intro x hx
  rcases List.mem_cons.1 hx with hx | hx
  · rw [hx]
  · exact ht x hx

/-- a word of a frame under way -/
theorem phase_word {bw : Nat} (hbw : bw = 4 ∨ bw = 8) {k : Snk} {dl : List Ch} {pend : List Rx} (P : Phase bw k dl pend) :
    ∃ pend', Phase bw (k.stepL (fill bw dl)) (dl.drop bw) pend' ∧ (k.stepL (fill bw dl)).queue ++ pend' = k.queue ++ pend := by
  cases P with
  | idle hk =>
    refine ⟨[], ?_, ?_⟩
    · rw [stepL_calm hk (fill_calm (by intro x h; cases h)), List.drop_nil]; exact .idle hk
    · rw [stepL_calm hk (fill_calm (by intro x h; cases h))]
  | tail hk rest hr =>
    rw [stepL_calm hk (fill_calm hr.calm)]
    refine ⟨[], ?_, rfl⟩
    rcases drop_rest rest bw with e | ⟨-, e⟩
    · rw [e]; exact .idle hk
    · rw [e]; exact .tail hk _ (hr.drop bw)
  | body acc hk ha rest hr =>
    have hs : k.stepL (fill bw (rest ++ [TERM])) = takeL (fill bw (rest ++ [TERM])) acc k.queue := by unfold Snk.stepL; rw [hk]
    rw [hs]
    rcases takeL_word rest bw acc k.queue (fun x hx => (hr x hx).1) with ⟨a, b, e⟩ | e
    · rw [e]
      refine ⟨[parse (acc ++ cut rest)], ?_, rfl⟩
      have hc : acc ++ cut rest = (acc ++ rest.take bw) ++ cut (rest.drop bw) := by
        rw [List.append_assoc, ← cut_data b, List.take_append_drop]
      rw [hc, List.drop_append_of_le_length a]
      refine .body _ rfl ?_ _ (hr.drop bw)
      intro x hx
      rcases List.mem_append.1 hx with hx | hx
      · exact ha x hx
      · exact b x hx
    · rw [e]
      refine ⟨[], ?_, by simp⟩
      rcases drop_rest rest bw with e | ⟨-, e⟩
      · rw [e]; exact .idle rfl
      · rw [e]; exact .tail rfl _ (hr.drop bw)
  | head h4 hk rest hr ht hl =>
    obtain ⟨a, b⟩ := phase_start hbw hk hr ht hl
    exact ⟨_, a, by rw [b]⟩

/-- a frame starts after four idle characters -/
theorem phase_offset {bw : Nat} (hbw : bw = 4 ∨ bw = 8) {k : Snk} (hk : k.cur = none) {rest : List Ch} (hr : Rest rest) (ht : ∀ x ∈ rest.take (bw - 1), x.1 = false) (hl : bw ≤ rest.length + 1) :
    Phase bw (k.stepL (fill bw (List.replicate 4 IDLE ++ START :: (rest ++ [TERM])))) ((List.replicate 4 IDLE ++ START :: (rest ++ [TERM])).drop bw) [parse ((false, PRE) :: cut rest)] ∧
      (k.stepL (fill bw (List.replicate 4 IDLE ++ START :: (rest ++ [TERM])))).queue = k.queue := by
  rcases hbw with h4 | h8
  · subst h4
    have hf : fill 4 (List.replicate 4 IDLE ++ START :: (rest ++ [TERM])) = List.replicate 4 IDLE := by simp [fill]
    have hd : (List.replicate 4 IDLE ++ START :: (rest ++ [TERM])).drop 4 = START :: (rest ++ [TERM]) := by simp
    rw [hf, hd, stepL_calm hk (by intro x hx; rw [(List.mem_replicate.1 hx).2]; show IDLE ≠ START; decide)]
    exact ⟨.head rfl hk rest hr ht hl, rfl⟩
  · subst h8
    have hf : fill 8 (List.replicate 4 IDLE ++ START :: (rest ++ [TERM])) = List.replicate 4 IDLE ++ START :: rest.take 3 := by
      show fill 8 (IDLE :: IDLE :: IDLE :: IDLE :: START :: (rest ++ [TERM])) = _
      rw [fill_cons, fill_cons, fill_cons, fill_cons, fill_cons]
      unfold fill
      rw [List.take_append_of_le_length (by omega), show 3 - (rest ++ [TERM]).length = 0 by simp; omega]; simp [List.replicate]
    have hd : (List.replicate 4 IDLE ++ START :: (rest ++ [TERM])).drop 8 = rest.drop 3 ++ [TERM] := by
      show (IDLE :: IDLE :: IDLE :: IDLE :: START :: (rest ++ [TERM])).drop 8 = _
      simp only [List.drop_succ_cons]
      rw [List.drop_append_of_le_length (by omega)]
    have hlen : (List.replicate 4 IDLE ++ START :: rest.take 3).length = 8 := by simp; omega
    have hst : k.stepL (List.replicate 4 IDLE ++ START :: rest.take 3) = ⟨k.queue, some ((false, PRE) :: rest.take 3)⟩ := by
      unfold Snk.stepL; rw [hk]; dsimp only
      rw [if_neg (by simp [List.replicate, IDLE, START]), if_pos ⟨hlen, by simp [List.replicate]⟩]
      simp [List.replicate]
    rw [hf, hd, hst]
    refine ⟨?_, rfl⟩
    have ht3 : ∀ x ∈ rest.take 3, x.1 = false := by
      intro x hx
      apply ht x
      rw [show rest.take 3 = (rest.take 7).take 3 by rw [List.take_take]; simp] at hx
      exact List.mem_of_mem_take hx
    have hc : (false, PRE) :: cut rest = ((false, PRE) :: rest.take 3) ++ cut (rest.drop 3) := by
      rw [List.cons_append, ← cut_data ht3, List.take_append_drop]
    rw [hc]
    refine .body _ rfl ?_ _ (hr.drop 3)
    intro x hx
    rcases List.mem_cons.1 hx with hx | hx
    · rw [hx]
    · exact ht3 x hx

/-! ### runs -/

/-- the sink after the word on the interface -/
def seen (c : Cfg) (s : Sys) : Snk := s.snk.step c.bw (s.words.getLast?.getD (idleWord c.bw))

structure Inv (c : Cfg) (sent : List Frame) (s : Sys) : Prop where
  good : ∀ f ∈ s.src.queue, f.Good c.bw
  cnt : s.src.dl ≠ [] → s.src.ifg = 0
  def0 : 0 ≤ s.src.deficit
  def3 : s.src.deficit ≤ 3
  out : ∃ pend, Phase c.bw (seen c s) s.src.dl pend ∧ (seen c s).queue ++ pend ++ s.src.queue.map Frame.expect = sent.map Frame.expect

/-- cycles left -/
def todo (c : Cfg) (s : Src) : Nat := s.dl.length + s.ifg.toNat + (if s.dl = [] then 0 else c.ifg + 3) + (s.queue.map fun f => f.data.length + c.ifg + 8).sum

theorem todo_word (c : Cfg) (q : List Frame) (dl : List Ch) (df : Int) (h0 : 0 ≤ df) (h3 : df ≤ 3) (hbw : 1 ≤ c.bw) (hd : dl ≠ []) :
    todo c ⟨q, dl.drop c.bw, if dl ≠ [] ∧ dl.length ≤ c.bw then (c.ifg : Int) - (c.bw + 1 - dl.length : Int) + df else 0, df⟩ + 1 ≤ dl.length + (c.ifg + 3) + (q.map fun f => f.data.length + c.ifg + 8).sum := by
  unfold todo
  dsimp only
  have hl : dl.length ≥ 1 := List.length_pos_iff.2 hd
  rw [List.length_drop]
  by_cases h : dl.length ≤ c.bw
  · rw [if_pos ⟨hd, h⟩, if_pos (List.drop_eq_nil_of_le h)]; omega
  · rw [if_neg (fun e => h e.2), if_neg (fun e => h (List.drop_eq_nil_iff.1 e))]; simp; omega

theorem seen_W {c : Cfg} (hbw : c.bw = 4 ∨ c.bw = 8) {k : Snk} {ws : List Word} {l : List Ch} {src : Src} (h : ∀ x ∈ l, Byte x) (hl : l.length = c.bw) : seen c ⟨src, k, ws ++ [W l]⟩ = k.stepL l := by
  unfold seen
  rw [List.getLast?_concat, Option.getD_some]
  dsimp only
  rw [← hl]
  exact step_W h (by omega) k

theorem inv_clk {c : Cfg} (hbw : c.bw = 4 ∨ c.bw = 8) {S : List Frame} {s : Sys} (I : Inv c S s) :
    ∃ s', Sys.step c s (.clk true) = some s' ∧ Inv c S s' ∧ s'.snk = seen c s ∧ todo c s'.src ≤ todo c s.src - 1 := by
  obtain ⟨pend, P, hq⟩ := I.out
  have hone : 1 ≤ c.bw := by omega
  have hidleB : ∀ x ∈ List.replicate c.bw IDLE, Byte x := by intro x hx; rw [(List.mem_replicate.1 hx).2]; show (7 : Nat) < 256; decide
  have hidleC : ∀ x ∈ List.replicate c.bw IDLE, Calm x := by intro x hx; rw [(List.mem_replicate.1 hx).2]; show IDLE ≠ START; decide
  have mk : ∀ src' l, s.src.step c = some (src', W l) → Sys.step c s (.clk true) = some ⟨src', seen c s, s.words ++ [W l]⟩ := by
    intro src' l h
    unfold Sys.step
    rw [h]; rfl
  by_cases hw : s.src.ifg > c.bw - 1 ∨ (c.dic = false ∧ s.src.ifg > 0)
  · -- gap
    have hdl : s.src.dl = [] := by
      apply Classical.byContradiction
      intro h
      have := I.cnt h
      omega
    have hst : s.src.step c = some ({ s.src with ifg := max (s.src.ifg - c.bw) 0 }, W (List.replicate c.bw IDLE)) := by
      unfold Src.step
      rw [if_pos hw, idle_W hbw]
    refine ⟨_, mk _ _ hst, ⟨I.good, fun h => absurd hdl h, I.def0, I.def3, pend, ?_, ?_⟩, rfl, ?_⟩
    · rw [seen_W hbw hidleB (by simp)]
      rw [hdl] at P ⊢
      have hk : (seen c s).cur = none := by
        generalize hg : ([] : List Ch) = z at P
        cases P with
        | idle hk => exact hk
        | tail hk => exact hk
        | body _ _ _ rest => simp at hg
        | head => cases hg
      rw [stepL_calm hk hidleC]
      exact P
    · rw [seen_W hbw hidleB (by simp)]
      rw [hdl] at P
      have hk : (seen c s).cur = none := by
        generalize hg : ([] : List Ch) = z at P
        cases P with
        | idle hk => exact hk
        | tail hk => exact hk
        | body _ _ _ rest => simp at hg
        | head => cases hg
      rw [stepL_calm hk hidleC]
      exact hq
    · unfold todo
      rw [hdl]; simp only [if_true, List.length_nil]
      have : (max (s.src.ifg - c.bw) 0).toNat ≤ s.src.ifg.toNat - 1 := by omega
      have : 1 ≤ s.src.ifg.toNat := by omega
      omega
  · by_cases hdl : s.src.dl = []
    · rw [hdl] at P
      have hk : (seen c s).cur = none ∧ pend = [] := by
        generalize hg : ([] : List Ch) = z at P
        cases P with
        | idle hk => exact ⟨hk, rfl⟩
        | tail hk => exact ⟨hk, rfl⟩
        | body _ _ _ rest => simp at hg
        | head => cases hg
      obtain ⟨hk, hp⟩ := hk
      subst hp
      cases hqs : s.src.queue with
      | nil =>
        have hst : s.src.step c = some ({ s.src with ifg := 0, deficit := 0 }, W (List.replicate c.bw IDLE)) := by
          unfold Src.step
          rw [if_neg hw, if_neg (by simp [hdl])]
          split
          · rename_i e; rw [hqs] at e; cases e
          · rw [idle_W hbw]
        refine ⟨_, mk _ _ hst, ⟨I.good, fun _ => rfl, by simp, by simp, [], ?_, ?_⟩, rfl, ?_⟩
        · rw [seen_W hbw hidleB (by simp), stepL_calm hk hidleC]
          dsimp only; rw [hdl]; exact .idle hk
        · rw [seen_W hbw hidleB (by simp), stepL_calm hk hidleC]; exact hq
        · unfold todo; dsimp only
          rw [hdl, hqs]; simp
      | cons f q =>
        have hG : f.Good c.bw := I.good f (by rw [hqs]; exact List.mem_cons_self)
        obtain ⟨B, b1, b2, b3, b4, b5, b6⟩ := build_good hone hG
        have hwr : f.build.bind wrap = some (START :: (B ++ [TERM])) := by
          rw [b1]; rfl
        obtain ⟨off, hoff⟩ : ∃ off : Bool, off = decide ((c.bw = 8 ∧ s.src.ifg ≥ 4) ∨ c.offset = true) := ⟨_, rfl⟩
        obtain ⟨ifg, hifg⟩ : ∃ i : Int, i = if off then max (s.src.ifg - 4) 0 else s.src.ifg := ⟨_, rfl⟩
        obtain ⟨dl, hdl'⟩ : ∃ dl : List Ch, dl = if off then List.replicate 4 IDLE ++ START :: (B ++ [TERM]) else START :: (B ++ [TERM]) := ⟨_, rfl⟩
        have hne : dl ≠ [] := by rw [hdl']; split <;> simp
        have hlen : dl.length ≤ f.data.length + 5 := by rw [hdl']; split <;> simp <;> omega
        have hbyte : ∀ x ∈ dl, Byte x := by
          have : ∀ x ∈ START :: (B ++ [TERM]), Byte x := by
            intro x hx
            rcases List.mem_cons.1 hx with hx | hx
            · rw [hx]; show (0xfb : Nat) < 256; decide
            · exact Rest.bytes b4 x hx
          rw [hdl']
          split
          · intro x hx
            rcases List.mem_append.1 hx with hx | hx
            · rw [(List.mem_replicate.1 hx).2]; show (7 : Nat) < 256; decide
            · exact this x hx
          · exact this
        have hst : s.src.step c = some (⟨q, dl.drop c.bw, if dl ≠ [] ∧ dl.length ≤ c.bw then (c.ifg : Int) - (c.bw + 1 - dl.length : Int) + max ifg 0 else 0, max ifg 0⟩, W (fill c.bw dl)) := by
          unfold Src.step
          rw [if_neg hw, if_neg (by simp [hdl]), hqs]
          show (f.build.bind wrap).map _ = _
          rw [hwr, Option.map_some]
          dsimp only
          have hc : ((c.bw = 8 ∧ s.src.ifg ≥ 4) ∨ c.offset = true) = (off = true) := by rw [hoff]; simp
          simp only [hc]
          rw [← hifg, ← hdl', emit_full]
        have hd0 : (0 : Int) ≤ max ifg 0 := by omega
        have hd3 : max ifg 0 ≤ 3 := by
          rw [hifg, hoff]
          by_cases h8 : (c.bw = 8 ∧ s.src.ifg ≥ 4) ∨ c.offset = true
          · rw [decide_eq_true h8, if_pos rfl]; omega
          · rw [decide_eq_false h8]; simp only [Bool.false_eq_true, if_false]; omega
        have hph : Phase c.bw ((seen c s).stepL (fill c.bw dl)) (dl.drop c.bw) [f.expect] ∧ ((seen c s).stepL (fill c.bw dl)).queue = (seen c s).queue := by
          rw [hdl', b6]
          cases off
          · exact phase_start hbw hk b4 b5 b3
          · exact phase_offset hbw hk b4 b5 b3
        refine ⟨_, mk _ _ hst, ⟨?_, ?_, hd0, hd3, [f.expect], ?_, ?_⟩, rfl, ?_⟩
        · intro g hg; exact I.good g (by rw [hqs]; exact List.mem_cons_of_mem _ hg)
        · intro h
          dsimp only at h ⊢
          rw [if_neg]
          intro e
          exact h (List.drop_eq_nil_of_le e.2)
        · rw [seen_W hbw (fill_bytes hbyte) (fill_length _ _)]; exact hph.1
        · rw [seen_W hbw (fill_bytes hbyte) (fill_length _ _), hph.2]
          rw [hqs] at hq
          simpa using hq
        · have := todo_word c q dl (max ifg 0) hd0 hd3 hone hne
          have h2 : todo c s.src = s.src.ifg.toNat + ((f.data.length + c.ifg + 8) + (q.map fun f => f.data.length + c.ifg + 8).sum) := by
            unfold todo; rw [hdl, hqs]; simp
          dsimp only at this ⊢
          omega
    · -- frame
      have h0 := I.cnt hdl
      have hst : s.src.step c = some ({ s.src with dl := s.src.dl.drop c.bw, ifg := if s.src.dl ≠ [] ∧ s.src.dl.length ≤ c.bw then (c.ifg : Int) - (c.bw + 1 - s.src.dl.length : Int) + s.src.deficit else 0 }, W (fill c.bw s.src.dl)) := by
        unfold Src.step
        rw [if_neg hw, if_pos hdl, emit_full, h0]
      obtain ⟨pend', P', hq'⟩ := phase_word hbw P
      refine ⟨_, mk _ _ hst, ⟨I.good, ?_, I.def0, I.def3, pend', ?_, ?_⟩, rfl, ?_⟩
      · intro h
        dsimp only at h ⊢
        rw [if_neg]
        intro e
        exact h (List.drop_eq_nil_of_le e.2)
      · rw [seen_W hbw (fill_bytes P.bytes) (fill_length _ _)]; exact P'
      · rw [seen_W hbw (fill_bytes P.bytes) (fill_length _ _), hq']; exact hq
      · have := todo_word c s.src.queue s.src.dl s.src.deficit I.def0 I.def3 hone hdl
        have h2 : todo c s.src = s.src.dl.length + (c.ifg + 3) + (s.src.queue.map fun f => f.data.length + c.ifg + 8).sum := by
          unfold todo; rw [if_neg hdl, h0]; simp
        dsimp only at this ⊢
        omega

theorem inv_send {c : Cfg} {S : List Frame} {s : Sys} (I : Inv c S s) {f : Frame} (hf : f.Good c.bw) : Inv c (S ++ [f]) { s with src := { s.src with queue := s.src.queue ++ [f] } } := by
  obtain ⟨pend, P, hq⟩ := I.out
  refine ⟨?_, I.cnt, I.def0, I.def3, pend, P, ?_⟩
  · intro g hg
    rcases List.mem_append.1 hg with hg | hg
    · exact I.good g hg
    · rw [List.mem_singleton.1 hg]; exact hf
  · have : (seen c { s with src := { s.src with queue := s.src.queue ++ [f] } }) = seen c s := rfl
    rw [this]
    dsimp only
    rw [List.map_append, List.map_append, ← List.append_assoc, hq]

theorem inv_init (c : Cfg) (hbw : c.bw = 4 ∨ c.bw = 8) : Inv c [] init := by
  refine ⟨(by intro f h; cases h), fun _ => rfl, by decide, by decide, [], ?_, ?_⟩ <;> rcases hbw with h | h <;> simp only [seen, init, h]
  · exact .idle rfl
  · exact .idle rfl
  · rfl
  · rfl

theorem inv_run {c : Cfg} (hbw : c.bw = 4 ∨ c.bw = 8) : ∀ (evs : List Ev) (S : List Frame) (s : Sys), Inv c S s → (∀ f ∈ sent evs, f.Good c.bw) → ∃ s', run c s evs = some s' ∧ Inv c (S ++ sent evs) s'
  | [], S, s, I, _ => ⟨s, rfl, by simpa [sent] using I⟩
  | .send f :: evs, S, s, I, h => by
    obtain ⟨s', h1, h2⟩ := inv_run hbw evs _ _ (inv_send I (h f (List.mem_cons_self))) fun g hg => h g (List.mem_cons_of_mem _ hg)
    exact ⟨s', h1, by simpa [sent] using h2⟩
  | .clk false :: evs, S, s, I, h => inv_run hbw evs S s I h
  | .clk true :: evs, S, s, I, h => by
    obtain ⟨s1, h1, I1, -, -⟩ := inv_clk hbw I
    obtain ⟨s', h2, I2⟩ := inv_run hbw evs S s1 I1 h
    refine ⟨s', ?_, I2⟩
    unfold run
    rw [List.foldlM_cons, h1]; exact h2

end Corundum.Xgmii
