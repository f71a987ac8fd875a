import Verif.Proof.BaseRSerdes
/-! The source follows an XGMII source, the sink an XGMII sink. -/
namespace Corundum.BaseRSerdes
open Corundum.BaseR (Word Block cat dF kF anyC isOs osCode SYNC_CTRL SYNC_DATA pyDec)
open Corundum.Xgmii (Ch IDLE START TERM PRE Frame Rx wrap parse fill)

/-! ### blocks -/

theorem blocks_nil : blocks [] = [] := rfl

theorem pad_length (dl : List Ch) : (pad dl).length % 8 = 0 := by
  unfold pad
  split
  · simp; omega
  · omega

theorem blocks_cons {dl : List Ch} (h : dl ≠ []) : blocks dl = sEnc (wordOf (fill 8 dl)) :: blocks (dl.drop 8) := by
  have hl : dl.length ≥ 1 := List.length_pos_iff.2 h
  have hp : ∃ r, pad dl = fill 8 dl ++ r ∧ r = pad (dl.drop 8) := by
    refine ⟨_, ?_, rfl⟩
    by_cases h8 : dl.length < 8
    · rw [List.drop_eq_nil_of_le (by omega)]
      unfold pad fill
      rw [if_pos (by omega), if_neg (by simp), List.take_of_length_le (by omega), List.append_nil, Nat.mod_eq_of_lt h8]
    · unfold fill
      rw [show 8 - dl.length = 0 by omega, List.replicate_zero, List.append_nil]
      unfold pad
      rw [List.length_drop, show (dl.length - 8) % 8 = dl.length % 8 by omega]
      split
      · rw [← List.append_assoc, List.take_append_drop]
      · rw [List.take_append_drop]
  obtain ⟨r, h1, h2⟩ := hp
  have hf := Xgmii.fill_length 8 dl
  unfold blocks
  rw [← h2, h1]
  have hlen : (fill 8 dl ++ r).length / 8 = r.length / 8 + 1 := by rw [List.length_append, hf]; omega
  rw [hlen, List.range_succ_eq_map, List.map_cons, List.map_map]
  congr 1
  · rw [Nat.mul_zero, List.drop_zero, List.take_left' hf]
  · apply List.map_congr_left
    intro k _
    show sEnc (wordOf (((fill 8 dl ++ r).drop (8 * (k + 1))).take 8)) = _
    rw [show 8 * (k + 1) = 8 + 8 * k by omega, ← List.drop_drop, List.drop_left' hf]

theorem blocks_ne {dl : List Ch} (h : dl ≠ []) : blocks dl ≠ [] := by rw [blocks_cons h]; simp

/-! ### frames without errors -/

def Clean (f : Frame) : Prop := f.Good 8 ∧ f.firstError = none

theorem cut_clean : ∀ l : List Ch, (∀ x ∈ Xgmii.cut l, x.1 = false) → ∀ x ∈ l, x.1 = false
  | [], _, x, h => by cases h
  | y :: l, h, x, hx => by
    have hy : y.1 = false := by
      cases e : y.1 with
      | false => rfl
      | true =>
        have := h y (by unfold Xgmii.cut; rw [if_pos e]; exact List.mem_cons_self)
        rw [e] at this; cases this
    rcases List.mem_cons.1 hx with e | hx
    · rw [e]; exact hy
    · refine cut_clean l (fun z hz => h z ?_) x hx
      unfold Xgmii.cut
      rw [if_neg (by simp [hy])]
      exact List.mem_cons_of_mem _ hz

theorem clean_build {f : Frame} (h : Clean f) : ∃ ds : List Nat, f.build.bind wrap = some (START :: (dat ds ++ [TERM])) ∧ 7 ≤ ds.length ∧ ∀ b ∈ ds, b < 256 := by
  obtain ⟨B, b1, b2, b3, b4, b5, b6⟩ := Xgmii.build_good (by decide) h.1
  have hc : ∀ x ∈ B, x.1 = false := by
    apply cut_clean
    intro x hx
    have h1 : f.expect.ctrl = List.replicate f.data.length false := by unfold Frame.expect; rw [h.2]
    rw [b6] at h1
    have : x.1 ∈ (parse ((false, PRE) :: Xgmii.cut B)).ctrl := by
      unfold parse; exact List.mem_map_of_mem (List.mem_cons_of_mem _ hx)
    rw [h1] at this
    exact (List.mem_replicate.1 this).2
  have hB : B = dat (B.map Prod.snd) := by
    unfold dat
    rw [List.map_map]
    conv => lhs; rw [← List.map_id B]
    apply List.map_congr_left
    intro x hx
    exact Prod.ext (hc x hx) rfl
  refine ⟨B.map Prod.snd, ?_, by simp; omega, ?_⟩
  · rw [b1, ← hB]; rfl
  · intro b hb
    obtain ⟨x, h1, h2⟩ := List.mem_map.1 hb
    subst h2
    exact (b4 x h1).2

/-! ### source -/

def xcfg (c : Cfg) : Xgmii.Cfg := ⟨8, c.ifg, c.dic, c.offset⟩

structure Rel (s : Src) (x : Xgmii.Src) : Prop where
  queue : s.queue = x.queue
  ifg : s.ifg = x.ifg
  deficit : s.deficit = x.deficit
  ccl : s.ccl = blocks x.dl
  clean : ∀ f ∈ x.queue, Clean f
  zero : x.dl ≠ [] → x.ifg = 0
  shape : x.dl = [] ∨ ∃ ds : List Nat, x.dl = dat ds ++ [TERM] ∧ ∀ b ∈ ds, b < 256

theorem dat_take (ds : List Nat) (n : Nat) : (dat ds).take n = dat (ds.take n) := by unfold dat; rw [List.map_take]
theorem dat_drop (ds : List Nat) (n : Nat) : (dat ds).drop n = dat (ds.drop n) := by unfold dat; rw [List.map_drop]
theorem dat_length (ds : List Nat) : (dat ds).length = ds.length := by simp [dat]

theorem pop_more (c : Cfg) (df ifg : Int) (b : Block) {l : List Block} (h : l ≠ []) : pop c df ifg (b :: l) = some (b, l, ifg) := by
  cases l with
  | nil => exact absurd rfl h
  | cons => rfl

theorem src_step {c : Cfg} {s : Src} {x : Xgmii.Src} (R : Rel s x) :
    ∃ l s' x', WF l ∧ s.step c = some (s', sEnc (wordOf l)) ∧ x.step (xcfg c) = some (x', Xgmii.W l) ∧ Rel s' x' := by
  obtain ⟨sq, sc, si, sd⟩ := s
  obtain ⟨xq, xd, xi, xf⟩ := x
  obtain ⟨e1, e2, e3, e4, hcl, hz, hs⟩ := R
  dsimp only at e1 e2 e3 e4 hcl hz hs
  subst e1 e2 e3 e4
  have hidle := Xgmii.idle_W (bw := 8) (Or.inr rfl)
  by_cases hw : si > 8 - 1 ∨ (c.dic = false ∧ si > 0)
  · refine ⟨List.replicate 8 IDLE, ⟨sq, blocks xd, max (si - 8) 0, sd⟩, ⟨sq, xd, max (si - 8) 0, sd⟩, .idle, ?_, ?_, ⟨rfl, rfl, rfl, rfl, hcl, ?_, hs⟩⟩
    · unfold Src.step; rw [if_pos hw, idle_block]
    · unfold Xgmii.Src.step
      rw [if_pos (show si > ((xcfg c).bw : Int) - 1 ∨ ((xcfg c).dic = false ∧ si > 0) from hw), show (xcfg c).bw = 8 from rfl, hidle]; rfl
    · intro h
      have := hz h
      omega
  · have hw' : ¬ (si > ((xcfg c).bw : Int) - 1 ∨ ((xcfg c).dic = false ∧ si > 0)) := hw
    by_cases hd : xd = []
    · subst hd
      cases sq with
      | nil =>
        refine ⟨List.replicate 8 IDLE, ⟨[], [], 0, 0⟩, ⟨[], [], 0, 0⟩, .idle, ?_, ?_, ⟨rfl, rfl, rfl, rfl, hcl, fun _ => rfl, hs⟩⟩
        · unfold Src.step; rw [if_neg hw, if_neg (by simp [blocks_nil]), idle_block]; rfl
        · unfold Xgmii.Src.step
          rw [if_neg hw', if_neg (by simp)]
          dsimp only
          rw [show (xcfg c).bw = 8 from rfl, hidle]
      | cons f q =>
        obtain ⟨ds, d1, d2, d3⟩ := clean_build (hcl f List.mem_cons_self)
        have hcl' : ∀ f ∈ q, Clean f := fun g hg => hcl g (List.mem_cons_of_mem _ hg)
        by_cases ho : si ≥ 4 ∨ c.offset = true
        · have ho' : ((xcfg c).bw = 8 ∧ si ≥ 4) ∨ (xcfg c).offset = true := by
            rcases ho with h | h
            · exact Or.inl ⟨rfl, h⟩
            · exact Or.inr h
          have hne : List.replicate 4 IDLE ++ START :: (dat ds ++ [TERM]) ≠ [] := by simp
          have hfill : fill 8 (List.replicate 4 IDLE ++ START :: (dat ds ++ [TERM])) = List.replicate 4 IDLE ++ START :: dat (ds.take 3) := by
            unfold fill
            rw [show 8 - (List.replicate 4 IDLE ++ START :: (dat ds ++ [TERM])).length = 0 by simp [dat_length]; omega, List.replicate_zero, List.append_nil, List.take_append, List.take_of_length_le (by simp)]
            rw [List.length_replicate, show 8 - 4 = 3 + 1 from rfl, List.take_succ_cons, List.take_append_of_le_length (by rw [dat_length]; omega), dat_take]
          have hdrop : (List.replicate 4 IDLE ++ START :: (dat ds ++ [TERM])).drop 8 = dat (ds.drop 3) ++ [TERM] := by
            rw [List.drop_append, List.length_replicate, List.drop_eq_nil_of_le (by simp), List.nil_append, show 8 - 4 = 3 + 1 from rfl, List.drop_succ_cons, List.drop_append_of_le_length (by rw [dat_length]; omega), dat_drop]
          refine ⟨List.replicate 4 IDLE ++ START :: dat (ds.take 3), ⟨q, blocks (dat (ds.drop 3) ++ [TERM]), 0, max (max (si - 4) 0) 0⟩, ⟨q, dat (ds.drop 3) ++ [TERM], 0, max (max (si - 4) 0) 0⟩,
            .start4 _ (by simp; omega) (fun b hb => d3 b (List.mem_of_mem_take hb)), ?_, ?_, ⟨rfl, rfl, rfl, rfl, hcl', fun _ => rfl, Or.inr ⟨_, rfl, fun b hb => d3 b (List.mem_of_mem_drop hb)⟩⟩⟩
          · unfold Src.step
            rw [if_neg hw, if_neg (by simp [blocks_nil])]
            dsimp only
            rw [d1, Option.bind_some, if_pos ho, if_pos ho, blocks_cons hne, hfill, hdrop, pop_more _ _ _ _ (blocks_ne (by simp))]; rfl
          · unfold Xgmii.Src.step
            rw [if_neg hw', if_neg (by simp)]
            dsimp only
            rw [d1, Option.map_some, if_pos ho', if_pos ho', Xgmii.emit_full]
            rw [show (xcfg c).bw = 8 from rfl, hfill, hdrop, if_neg (by simp [dat_length]; omega)]
        · have ho' : ¬ (((xcfg c).bw = 8 ∧ si ≥ 4) ∨ (xcfg c).offset = true) := by
            intro h
            rcases h with h | h
            · exact ho (Or.inl h.2)
            · exact ho (Or.inr h)
          have hne : START :: (dat ds ++ [TERM]) ≠ [] := by simp
          have hfill : fill 8 (START :: (dat ds ++ [TERM])) = START :: dat (ds.take 7) := by
            unfold fill
            rw [show 8 - (START :: (dat ds ++ [TERM])).length = 0 by simp [dat_length]; omega, List.replicate_zero, List.append_nil, show 8 = 7 + 1 from rfl, List.take_succ_cons, List.take_append_of_le_length (by rw [dat_length]; omega), dat_take]
          have hdrop : (START :: (dat ds ++ [TERM])).drop 8 = dat (ds.drop 7) ++ [TERM] := by
            rw [show 8 = 7 + 1 from rfl, List.drop_succ_cons, List.drop_append_of_le_length (by rw [dat_length]; omega), dat_drop]
          refine ⟨START :: dat (ds.take 7), ⟨q, blocks (dat (ds.drop 7) ++ [TERM]), 0, max si 0⟩, ⟨q, dat (ds.drop 7) ++ [TERM], 0, max si 0⟩,
            .start0 _ (by simp; omega) (fun b hb => d3 b (List.mem_of_mem_take hb)), ?_, ?_, ⟨rfl, rfl, rfl, rfl, hcl', fun _ => rfl, Or.inr ⟨_, rfl, fun b hb => d3 b (List.mem_of_mem_drop hb)⟩⟩⟩
          · unfold Src.step
            rw [if_neg hw, if_neg (by simp [blocks_nil])]
            dsimp only
            rw [d1, Option.bind_some, if_neg ho, if_neg ho, blocks_cons hne, hfill, hdrop, pop_more _ _ _ _ (blocks_ne (by simp))]; rfl
          · unfold Xgmii.Src.step
            rw [if_neg hw', if_neg (by simp)]
            dsimp only
            rw [d1, Option.map_some, if_neg ho', if_neg ho', Xgmii.emit_full]
            rw [show (xcfg c).bw = 8 from rfl, hfill, hdrop, if_neg (by simp [dat_length]; omega)]
    · obtain ⟨ds, e, hb⟩ : ∃ ds : List Nat, xd = dat ds ++ [TERM] ∧ ∀ b ∈ ds, b < 256 := by
        rcases hs with h | h
        · exact absurd h hd
        · exact h
      subst e
      have h0 : si = 0 := hz hd
      subst h0
      have hx : Xgmii.Src.step (xcfg c) ⟨sq, dat ds ++ [TERM], 0, sd⟩ = some (⟨sq, (dat ds ++ [TERM]).drop 8, if dat ds ++ [TERM] ≠ [] ∧ (dat ds ++ [TERM]).length ≤ 8 then (c.ifg : Int) - ((8 : Nat) + 1 - (dat ds ++ [TERM]).length : Int) + sd else 0, sd⟩, Xgmii.W (fill 8 (dat ds ++ [TERM]))) := by
        unfold Xgmii.Src.step
        rw [if_neg hw', if_pos (by simp), Xgmii.emit_full]; rfl
      have hlen : (dat ds ++ [TERM]).length = ds.length + 1 := by simp [dat_length]
      by_cases h7 : ds.length ≤ 7
      · have hfill : fill 8 (dat ds ++ [TERM]) = dat ds ++ TERM :: List.replicate (7 - ds.length) IDLE := by
          unfold fill
          rw [List.take_of_length_le (by omega), hlen, show 8 - (ds.length + 1) = 7 - ds.length by omega, List.append_assoc]; rfl
        have hdrop : (dat ds ++ [TERM]).drop 8 = [] := List.drop_eq_nil_of_le (by omega)
        rw [hfill, hdrop, if_pos ⟨by simp, by omega⟩, hlen] at hx
        refine ⟨dat ds ++ TERM :: List.replicate (7 - ds.length) IDLE, ⟨sq, [], (c.ifg : Int) - ((8 : Nat) + 1 - (ds.length + 1 : Nat) : Int) + sd, sd⟩, _, .term _ h7 hb, ?_, hx, ⟨rfl, rfl, rfl, blocks_nil.symm, hcl, fun h => absurd rfl h, Or.inl rfl⟩⟩
        unfold Src.step
        rw [if_neg hw, if_pos (blocks_ne hd), blocks_cons hd, hfill, hdrop, blocks_nil]
        dsimp only [pop]
        rw [(coded_term ds h7 hb).2]
        simp only [Option.map_some]
        congr 3
        congr 1
        omega
      · have hfill : fill 8 (dat ds ++ [TERM]) = dat (ds.take 8) := by
          unfold fill
          rw [show 8 - (dat ds ++ [TERM]).length = 0 by omega, List.replicate_zero, List.append_nil, List.take_append_of_le_length (by rw [dat_length]; omega), dat_take]
        have hdrop : (dat ds ++ [TERM]).drop 8 = dat (ds.drop 8) ++ [TERM] := by
          rw [List.drop_append_of_le_length (by rw [dat_length]; omega), dat_drop]
        rw [hfill, hdrop, if_neg (by omega)] at hx
        refine ⟨dat (ds.take 8), ⟨sq, blocks (dat (ds.drop 8) ++ [TERM]), 0, sd⟩, _, .data _ (by simp; omega) (fun b h => hb b (List.mem_of_mem_take h)), ?_, hx, ⟨rfl, rfl, rfl, rfl, hcl, fun _ => rfl, Or.inr ⟨_, rfl, fun b h => hb b (List.mem_of_mem_drop h)⟩⟩⟩
        unfold Src.step
        rw [if_neg hw, if_pos (blocks_ne hd), blocks_cons hd, hfill, hdrop, pop_more _ _ _ _ (blocks_ne (by simp))]; rfl

/-! ### sink -/

theorem take_takeL (J : List Rx) : ∀ (l acc : List Ch) (q : List Rx), take l acc (J ++ q) = (J ++ (Xgmii.takeL l acc q).queue, (Xgmii.takeL l acc q).cur)
  | [], acc, q => rfl
  | x :: l, acc, q => by
    unfold take Xgmii.takeL
    split
    · rw [List.append_assoc]
    · exact take_takeL J l _ q

theorem chars_stepL (J : List Rx) (k : Xgmii.Snk) (t : Nat) {l : List Ch} (hl : l.length = 8) : chars ⟨J ++ k.queue, k.cur, t⟩ l = (J ++ (k.stepL l).queue, (k.stepL l).cur) := by
  obtain ⟨q, cur⟩ := k
  unfold chars Xgmii.Snk.stepL
  cases cur with
  | none =>
    dsimp only
    by_cases h0 : l[0]? = some START
    · rw [if_pos h0, if_pos h0]
    · rw [if_neg h0, if_neg h0]
      by_cases h4 : l[4]? = some START
      · rw [if_pos h4, if_pos ⟨hl, h4⟩]
      · rw [if_neg h4, if_neg (fun h => h4 h.2)]
  | some acc => exact take_takeL J l acc q

/-! ### both -/

structure BRel (c : Cfg) (J : List Rx) (S : List Frame) (s : Sys) (x : Xgmii.Sys) : Prop where
  src : Rel s.src x.src
  inv : Xgmii.Inv (xcfg c) S x
  snk : ∃ t, s.snk.step c s.wire = ⟨J ++ (Xgmii.seen (xcfg c) x).queue, (Xgmii.seen (xcfg c) x).cur, t⟩ ∧ Agree c t s.scr

theorem brel_send {c : Cfg} {J : List Rx} {S : List Frame} {s : Sys} {x : Xgmii.Sys} (B : BRel c J S s x) {f : Frame} (hf : Clean f) :
    BRel c J (S ++ [f]) { s with src := { s.src with queue := s.src.queue ++ [f] } } { x with src := { x.src with queue := x.src.queue ++ [f] } } := by
  refine ⟨⟨by dsimp only; rw [B.src.queue], B.src.ifg, B.src.deficit, B.src.ccl, ?_, B.src.zero, B.src.shape⟩, Xgmii.inv_send B.inv hf.1, B.snk⟩
  intro g hg
  rcases List.mem_append.1 hg with h | h
  · exact B.src.clean g h
  · rw [List.mem_singleton.1 h]; exact hf

theorem brel_clk {c : Cfg} {J : List Rx} {S : List Frame} {s : Sys} {x : Xgmii.Sys} (B : BRel c J S s x) :
    ∃ s' x', s.step c (.clk true) = some s' ∧ BRel c J S s' x' ∧ s'.snk.queue = J ++ (Xgmii.seen (xcfg c) x).queue ∧ Xgmii.todo (xcfg c) x'.src ≤ Xgmii.todo (xcfg c) x.src - 1 ∧
      x.step (xcfg c) (.clk true) = some x' ∧ ∃ l, WF l ∧ x'.words = x.words ++ [Xgmii.W l] ∧ pyDec (unline c s'.snk.scr s'.wire).2 = l := by
  obtain ⟨l, src', xs', hl, h1, h2, R'⟩ := src_step (c := c) B.src
  obtain ⟨t, ht, ha⟩ := B.snk
  obtain ⟨x', hx, I', hsn, htd⟩ := Xgmii.inv_clk (Or.inr rfl) B.inv
  have hx' : x' = ⟨xs', Xgmii.seen (xcfg c) x, x.words ++ [Xgmii.W l]⟩ := by
    unfold Xgmii.Sys.step at hx
    rw [h2] at hx
    exact (Option.some.inj hx).symm
  subst hx'
  obtain ⟨g1, g2, g3⟩ := coded hl
  obtain ⟨u1, u2⟩ := unline_line ha g1 g2
  refine ⟨⟨src', (line c s.scr (sEnc (wordOf l))).1, (line c s.scr (sEnc (wordOf l))).2, s.snk.step c s.wire⟩, _, by unfold Sys.step; rw [h1]; rfl, ⟨R', I', ?_⟩, by rw [ht], htd, hx, l, hl, rfl, by dsimp only; rw [ht]; dsimp only; rw [u1, g3]⟩
  refine ⟨(unline c t (line c s.scr (sEnc (wordOf l))).2).1, ?_, u2⟩
  dsimp only
  rw [ht]
  unfold Snk.step
  dsimp only
  rw [u1, g3, chars_stepL J _ t hl.length, Xgmii.seen_W (Or.inr rfl) hl.bytes hl.length]

theorem run_cons (c : Cfg) (s : Sys) (e : Ev) (l : List Ev) : run c s (e :: l) = (s.step c e).bind fun s' => run c s' l := by
  unfold run; rw [List.foldlM_cons]; rfl

theorem run_append (c : Cfg) (s : Sys) (a b : List Ev) : run c s (a ++ b) = (run c s a).bind fun s' => run c s' b := by
  unfold run; rw [List.foldlM_append]; rfl

/-- the frames sent -/
def sent : List Ev → List Frame
  | [] => []
  | .send f :: l => f :: sent l
  | .clk _ :: l => sent l

theorem brel_run {c : Cfg} {J : List Rx} : ∀ (evs : List Ev) {S : List Frame} {s : Sys} {x : Xgmii.Sys}, BRel c J S s x → (∀ f ∈ sent evs, Clean f) → ∃ s' x', run c s evs = some s' ∧ BRel c J (S ++ sent evs) s' x'
  | [], S, s, x, B, _ => ⟨s, x, rfl, by rw [sent, List.append_nil]; exact B⟩
  | .send f :: evs, S, s, x, B, h => by
    obtain ⟨s', x', h1, h2⟩ := brel_run evs (brel_send B (h f List.mem_cons_self)) (fun g hg => h g (List.mem_cons_of_mem _ hg))
    exact ⟨s', x', by rw [run_cons]; exact h1, by rw [sent, show S ++ f :: sent evs = (S ++ [f]) ++ sent evs by simp]; exact h2⟩
  | .clk false :: evs, S, s, x, B, h => by
    obtain ⟨s', x', h1, h2⟩ := brel_run evs B h
    exact ⟨s', x', by rw [run_cons]; exact h1, h2⟩
  | .clk true :: evs, S, s, x, B, h => by
    obtain ⟨t, y, e1, B', -⟩ := brel_clk B
    obtain ⟨s', x', h1, h2⟩ := brel_run evs B' h
    exact ⟨s', x', by rw [run_cons, e1]; exact h1, h2⟩

theorem brel_clks {c : Cfg} {J : List Rx} : ∀ (n : Nat) {S : List Frame} {s : Sys} {x : Xgmii.Sys}, BRel c J S s x → ∃ s' x', run c s (List.replicate n (.clk true)) = some s' ∧ BRel c J S s' x' ∧ Xgmii.todo (xcfg c) x'.src ≤ Xgmii.todo (xcfg c) x.src - n
  | 0, S, s, x, B => ⟨s, x, rfl, B, Nat.le_refl _⟩
  | n + 1, S, s, x, B => by
    obtain ⟨t, y, e1, B', -, l1, -⟩ := brel_clk B
    obtain ⟨s', x', h1, h2, l2⟩ := brel_clks n B'
    exact ⟨s', x', by rw [List.replicate_succ, run_cons, e1]; exact h1, h2, by omega⟩

/-- the characters the sink decodes, those of the block on the wire included -/
def decoded (c : Cfg) : Sys → List Ev → List Ch
  | s, [] => pyDec (unline c s.snk.scr s.wire).2
  | s, .clk true :: evs => pyDec (unline c s.snk.scr s.wire).2 ++ match s.step c (.clk true) with
    | some s' => decoded c s' evs
    | none => []
  | s, e :: evs => match s.step c e with
    | some s' => decoded c s' evs
    | none => []

def conv : Ev → Xgmii.Ev
  | .send f => .send f
  | .clk e => .clk e

theorem xrun_cons (c : Xgmii.Cfg) (s : Xgmii.Sys) (e : Xgmii.Ev) (l : List Xgmii.Ev) : Xgmii.run c s (e :: l) = (s.step c e).bind fun s' => Xgmii.run c s' l := by
  unfold Xgmii.run; rw [List.foldlM_cons]; rfl

theorem sent_conv : ∀ evs : List Ev, Xgmii.sent (evs.map conv) = sent evs
  | [] => rfl
  | .send f :: evs => by rw [List.map_cons, conv, Xgmii.sent, sent_conv evs, sent]
  | .clk e :: evs => by rw [List.map_cons, conv, Xgmii.sent, sent_conv evs, sent]

theorem decoded_run {c : Cfg} {J : List Rx} : ∀ (evs : List Ev) {S : List Frame} {s : Sys} {x : Xgmii.Sys}, BRel c J S s x → (∀ f ∈ sent evs, Clean f) →
    ∃ x' ws, Xgmii.run (xcfg c) x (evs.map conv) = some x' ∧ x'.words = x.words ++ ws ∧ decoded c s evs = pyDec (unline c s.snk.scr s.wire).2 ++ Xgmii.chars 8 ws
  | [], S, s, x, B, _ => ⟨x, [], rfl, by rw [List.append_nil], by unfold decoded; simp [Xgmii.chars]⟩
  | .send f :: evs, S, s, x, B, h => by
    obtain ⟨x', ws, h1, h2, h3⟩ := decoded_run evs (brel_send B (h f List.mem_cons_self)) (fun g hg => h g (List.mem_cons_of_mem _ hg))
    exact ⟨x', ws, by rw [List.map_cons, xrun_cons]; exact h1, h2, h3⟩
  | .clk false :: evs, S, s, x, B, h => by
    obtain ⟨x', ws, h1, h2, h3⟩ := decoded_run evs B h
    exact ⟨x', ws, by rw [List.map_cons, xrun_cons]; exact h1, h2, h3⟩
  | .clk true :: evs, S, s, x, B, h => by
    obtain ⟨t, y, e1, B', -, -, e2, l, hl, e3, e4⟩ := brel_clk B
    obtain ⟨x', ws, h1, h2, h3⟩ := decoded_run evs B' h
    refine ⟨x', Xgmii.W l :: ws, ?_, by rw [h2, e3, List.append_assoc]; rfl, ?_⟩
    · rw [List.map_cons, xrun_cons, conv, e2]; exact h1
    · unfold decoded
      rw [e1]
      dsimp only
      rw [h3, e4]
      congr 1
      unfold Xgmii.chars
      rw [List.flatMap_cons]
      congr 1
      have := Xgmii.lanes_W hl.bytes
      rw [hl.length] at this
      exact this.symm

theorem snk_mono (c : Cfg) (s : Snk) (w : Block) : s.queue <+: (s.step c w).queue := by
  have ht : ∀ l acc q, q <+: (take l acc q).1 := by
    intro l
    induction l with
    | nil => intro acc q; exact List.prefix_rfl
    | cons x l ih =>
      intro acc q
      unfold take
      split
      · exact List.prefix_append ..
      · exact ih _ _
  unfold Snk.step chars
  dsimp only
  split
  · split
    · exact List.prefix_rfl
    · split <;> exact List.prefix_rfl
  · exact ht _ _ _

/-- an invariant gives what the sink has received -/
theorem brel_prefix {c : Cfg} {J : List Rx} {S : List Frame} {s : Sys} {x : Xgmii.Sys} (B : BRel c J S s x) : s.snk.queue <+: J ++ S.map Frame.expect := by
  obtain ⟨t, ht, -⟩ := B.snk
  have h1 := snk_mono c s.snk s.wire
  rw [ht] at h1
  refine h1.trans ?_
  obtain ⟨pend, -, hq⟩ := B.inv.out
  dsimp only
  rw [← hq, List.append_assoc]
  exact List.prefix_append_right_inj J |>.2 (List.prefix_append ..)

theorem brel_done {c : Cfg} {J : List Rx} {S : List Frame} {s : Sys} {x : Xgmii.Sys} (B : BRel c J S s x) (h : Xgmii.todo (xcfg c) x.src = 0) : (Xgmii.seen (xcfg c) x).queue = S.map Frame.expect := by
  obtain ⟨pend, P, hq⟩ := B.inv.out
  unfold Xgmii.todo at h
  have hd : x.src.dl = [] := List.length_eq_zero_iff.1 (by omega)
  have hqq : x.src.queue = [] := by
    cases hc : x.src.queue with
    | nil => rfl
    | cons f q => rw [hc] at h; simp at h
  rw [hd] at P
  have hp : pend = [] := by
    generalize hg : ([] : List Ch) = z at P
    cases P with
    | idle => rfl
    | tail => rfl
    | body _ _ _ rest => simp at hg
    | head => cases hg
  rw [hp, hqq] at hq
  simpa using hq

end Corundum.BaseRSerdes
