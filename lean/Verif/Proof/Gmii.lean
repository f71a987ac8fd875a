import Verif.Spec.Gmii
/-! Runs of GMII, MII and RGMII sources and sinks. -/
namespace Corundum.Gmii

/-! ### nibbles -/

theorem nib_val (x p : Nat) (hp : p < 256) : (x &&& 0x0f) <<< 4 ||| p >>> 4 = 16 * (x % 16) + p / 16 := by
  rw [show (0x0f : Nat) = 2 ^ 4 - 1 from rfl, Nat.and_two_pow_sub_one_eq_mod, Nat.shiftRight_eq_div_pow, Nat.shiftLeft_eq, Nat.mul_comm, ← Nat.two_pow_add_eq_or_of_lt (by omega)]

/-- the nibbles of bytes with two flags each -/
def nibs (l : List (Nat × Bool × Bool)) : List (Nat × Bool) := l.flatMap fun x => [(x.1 &&& 0x0f, x.2.1), (x.1 >>> 4, x.2.2)]

theorem nib_fold (g : Nat → Nat) (hg : ∀ x, g x % 16 = x % 16) : ∀ (l : List (Nat × Bool × Bool)) (prev : Nat) (out : List (Nat × Bool)) (sync : Bool), prev < 256 → (∀ x ∈ l, x.1 < 256) →
    (sync = true ∨ (prev ≠ 0xD5 ∧ Sync (prev :: l.map Prod.fst))) →
    (((nibs l).map fun x => (g x.1, x.2)).foldl Nib.step ⟨true, sync, prev, false, out⟩).out = out ++ l.map fun x => (x.1, x.2.1 || x.2.2)
  | [], prev, out, sync, _, _, _ => by simp [nibs]
  | (b, e1, e2) :: l, prev, out, sync, hp, hb, hs => by
    have hb0 : b < 256 := hb _ List.mem_cons_self
    have hs' : sync = true ∨ (prev ≠ 0xD5 ∧ ¬ (prev / 16 = 0x5 ∧ b % 16 = 0xD) ∧ Sync (b :: l.map Prod.fst)) := by
      rcases hs with h | ⟨h1, h2⟩
      · exact Or.inl h
      · rcases h2 with h | h
        · exact absurd h h1
        · exact Or.inr ⟨h1, h⟩
    have e0 : (nibs ((b, e1, e2) :: l)).map (fun x => (g x.1, x.2)) = (g (b &&& 0x0f), e1) :: (g (b >>> 4), e2) :: (nibs l).map (fun x => (g x.1, x.2)) := by simp [nibs]
    have hlo : g (b &&& 0x0f) % 16 = b % 16 := by
      rw [hg, show (0x0f : Nat) = 2 ^ 4 - 1 from rfl, Nat.and_two_pow_sub_one_eq_mod]; omega
    have hhi : g (b >>> 4) % 16 = b / 16 := by
      rw [hg, Nat.shiftRight_eq_div_pow]; omega
    have s1 : Nib.step ⟨true, sync, prev, false, out⟩ (g (b &&& 0x0f), e1) = ⟨false, sync, 16 * (b % 16) + prev / 16, e1, out⟩ := by
      unfold Nib.step
      simp only
      rw [nib_val _ _ hp, hlo]
      have hhit : (!sync && decide (16 * (b % 16) + prev / 16 = 0xD5)) = false := by
        rcases hs' with h | ⟨-, h, -⟩
        · rw [h]; rfl
        · rw [decide_eq_false (by omega)]; simp
      rw [hhit]; simp
    have s2 : Nib.step ⟨false, sync, 16 * (b % 16) + prev / 16, e1, out⟩ (g (b >>> 4), e2) = ⟨true, sync || decide (b = 0xD5), b, false, out ++ [(b, e1 || e2)]⟩ := by
      unfold Nib.step
      simp only
      rw [nib_val _ _ (by omega), hhi, show 16 * (b / 16) + (16 * (b % 16) + prev / 16) / 16 = b by omega]
      cases sync <;> simp
    rw [e0, List.foldl_cons, s1, List.foldl_cons, s2, nib_fold g hg l b _ _ hb0 (fun y hy => hb y (List.mem_cons_of_mem _ hy))]
    · simp
    · by_cases hd : b = 0xD5
      · left; simp [hd]
      · rcases hs' with h | ⟨-, -, h⟩
        · left; simp [h]
        · right; exact ⟨hd, h⟩

theorem repack_nibs (g : Nat → Nat) (hg : ∀ x, g x % 16 = x % 16) (l : List (Nat × Bool × Bool)) (hb : ∀ x ∈ l, x.1 < 256) (hs : Sync (l.map Prod.fst)) :
    repack ((nibs l).map fun x => (g x.1, x.2)) = l.map fun x => (x.1, x.2.1 || x.2.2) := by
  unfold repack
  rw [nib_fold g hg l 0 [] false (by decide) hb]
  · rfl
  · right
    refine ⟨by decide, ?_⟩
    cases h : l.map Prod.fst with
    | nil => trivial
    | cons b t => rw [h] at hs; exact Or.inr ⟨by omega, hs⟩

/-! ### frames -/

theorem pairs_none : ∀ l, pairs l .none = some (l.map fun b => (b, false))
  | [] => rfl
  | b :: l => by rw [pairs, pairs_none l]; rfl; intro e es h; cases h; intro h; cases h

theorem pairs_list : ∀ (l : List Nat) (e : List Bool), l.length ≤ e.length → pairs l (.list e) = some (l.zip e)
  | [], _, _ => rfl
  | b :: l, [], h => by simp at h
  | b :: l, e :: es, h => by rw [pairs, pairs_list l es (by simpa using h)]; rfl

theorem zip_rep : ∀ (l : List Nat), l.zip (List.replicate l.length false) = l.map fun b => (b, false)
  | [] => rfl
  | b :: l => by simp [List.replicate_succ, zip_rep l]

theorem zip_take : ∀ (l : List Nat) (e : List Bool), l.zip (e.take l.length) = l.zip e
  | [], _ => rfl
  | b :: l, [] => by simp
  | b :: l, e :: es => by simp [zip_take l es]

theorem markLast_eq {l : List Nat} (h : l ≠ []) : markLast (l.map fun b => (b, false)) = some (l.zip (List.replicate (l.length - 1) false ++ [true])) := by
  rcases List.eq_nil_or_concat l with e | ⟨t, b, e⟩
  · exact absurd e h
  · subst e
    simp only [List.concat_eq_append]
    rw [List.map_append]
    have : markLast (t.map (fun b => (b, false)) ++ [(b, false)]) = some (t.map (fun b => (b, false)) ++ [(b, true)]) := by
      unfold markLast
      split
      · rename_i e; simp at e
      · rw [List.dropLast_concat, List.getLast?_concat]; rfl
    rw [List.map_cons, List.map_nil, this, show (t ++ [b]).length - 1 = t.length by simp, List.zip_append (by simp), zip_rep]; rfl

theorem nibbles_eq (l : List (Nat × Bool)) : nibbles l = nibs (l.map fun x => (x.1, x.2, x.2)) := by
  unfold nibbles nibs
  rw [List.flatMap_map]

theorem flags_length {f : Frame} (h : 1 ≤ f.data.length) (hl : ∀ l, f.error = .list l → f.data.length ≤ l.length) : f.flags.length = f.data.length := by
  unfold Frame.flags
  split
  · simp
  · simp; omega
  · rename_i l e
    rw [List.length_take]; have := hl l e; omega

theorem zip_maps (l : List Nat) (e : List Bool) (h : e.length = l.length) : (⟨(l.zip e).map Prod.fst, (l.zip e).map Prod.snd⟩ : Rx) = ⟨l, e⟩ := by
  rw [List.map_fst_zip (by omega), List.map_snd_zip (by omega)]

/-- the data is passed on with its nibbles, GMII bytes as they are -/
structure Pass (k : Kind) (g : Nat → Nat) : Prop where
  byte : k = .gmii → ∀ x < 256, g x = x
  nib : k ≠ .gmii → ∀ x, g x % 16 = x % 16

def gm (g : Nat → Nat) (l : List (Nat × Bool)) : List (Nat × Bool) := l.map fun x => (g x.1, x.2)

theorem nibs_mark {t : List (Nat × Bool × Bool)} {b : Nat} : markLast (nibs (t ++ [(b, false, false)])) = some (nibs (t ++ [(b, false, true)])) := by
  have h : ∀ e, nibs (t ++ [(b, false, e)]) = nibs t ++ [(b &&& 0x0f, false)] ++ [(b >>> 4, e)] := by
    intro e; simp [nibs]
  rw [h, h]
  unfold markLast
  split
  · rename_i e; simp at e
  · rw [List.dropLast_concat, List.getLast?_concat]; rfl

theorem build_good {k : Kind} {g : Nat → Nat} (hg : Pass k g) {f : Frame} (G : f.Good k) : ∃ x y L, f.build k = some (x :: y :: L) ∧ L.length + 2 ≤ 2 * f.data.length ∧ parse k (gm g (x :: y :: L)) = f.expect := by
  have hne : f.data ≠ [] := by intro h; have := G.one; rw [h] at this; simp at this
  have hfl := flags_length G.one G.flags
  -- all but MII with a flag
  have hp : ∀ L, f.build k = some L → (k = .gmii → L = f.data.zip f.flags) →
      (k ≠ .gmii → ∃ T : List (Nat × Bool × Bool), L = nibs T ∧ T.map Prod.fst = f.data ∧ T.map (fun x => (x.1, x.2.1 || x.2.2)) = f.data.zip f.flags) →
      ∃ x y L', f.build k = some (x :: y :: L') ∧ L'.length + 2 ≤ 2 * f.data.length ∧ parse k (gm g (x :: y :: L')) = f.expect := by
    intro L hL h1 h2
    have hlen : 2 ≤ L.length ∧ L.length ≤ 2 * f.data.length ∧ parse k (gm g L) = f.expect := by
      by_cases hk : k = .gmii
      · have h1 := h1 hk
        have hll : L.length = f.data.length := by rw [h1, List.length_zip]; omega
        refine ⟨by have := G.gmii hk; omega, by omega, ?_⟩
        have : gm g L = L := by
          unfold gm
          rw [show L = L.map id by simp] 
          rw [List.map_map]
          apply List.map_congr_left
          intro x hx
          rw [h1] at hx
          have := G.bytes x.1 (List.of_mem_zip (show (x.1, x.2) ∈ _ from hx)).1
          show (g x.1, x.2) = x
          rw [hg.byte hk _ this]
        rw [this, hk]
        show (⟨L.map Prod.fst, L.map Prod.snd⟩ : Rx) = _
        rw [h1]
        exact zip_maps _ _ hfl
      · obtain ⟨T, t1, t2, t3⟩ := h2 hk
        have hTl : T.length = f.data.length := by rw [← t2]; simp
        have hnl : L.length = 2 * T.length := by
          rw [t1]; clear t1 t2 t3 hTl
          induction T with
          | nil => rfl
          | cons x T ih =>
            have : nibs (x :: T) = (x.1 &&& 0x0f, x.2.1) :: (x.1 >>> 4, x.2.2) :: nibs T := by simp [nibs]
            rw [this]; simp only [List.length_cons]; omega
        have := G.one
        refine ⟨by omega, by omega, ?_⟩
        have hr : parse k (gm g L) = ⟨(repack (gm g L)).map Prod.fst, (repack (gm g L)).map Prod.snd⟩ := by
          cases k
          · exact absurd rfl hk
          · rfl
          · rfl
        rw [hr, t1]
        unfold gm
        rw [repack_nibs g (hg.nib hk) T (by intro x hx; exact G.bytes _ (by rw [← t2]; exact List.mem_map_of_mem hx)) (by rw [t2]; exact G.sync hk), t3]
        exact zip_maps _ _ hfl
    match L, hlen with
    | [], h => simp at h
    | [_], h => simp at h
    | x :: y :: L', h =>
      refine ⟨x, y, L', hL, ?_, h.2.2⟩
      have := h.2.1
      simp only [List.length_cons] at this
      omega
  have hz1 : ∀ l : List (Nat × Bool), (l.map fun x => (x.1, x.2, x.2)).map Prod.fst = l.map Prod.fst := by intro l; simp [List.map_map, Function.comp_def]
  have hz2 : ∀ l : List (Nat × Bool), (l.map fun x => (x.1, x.2, x.2)).map (fun x => (x.1, x.2.1 || x.2.2)) = l := by intro l; simp [List.map_map, Function.comp_def]
  have hzf : (f.data.zip f.flags).map Prod.fst = f.data := List.map_fst_zip (by omega)
  have nb : (f.build k = some (nibbles (f.data.zip f.flags)) ∧ k ≠ .gmii) → ∃ x y L', f.build k = some (x :: y :: L') ∧ L'.length + 2 ≤ 2 * f.data.length ∧ parse k (gm g (x :: y :: L')) = f.expect := by
    intro ⟨h, hk⟩
    exact hp _ h (fun e => absurd e hk) fun _ => ⟨_, nibbles_eq _, by rw [hz1, hzf], hz2 _⟩
  have gb : (f.build k = some (f.data.zip f.flags) ∧ k = .gmii) → ∃ x y L', f.build k = some (x :: y :: L') ∧ L'.length + 2 ≤ 2 * f.data.length ∧ parse k (gm g (x :: y :: L')) = f.expect := by
    intro ⟨h, hk⟩
    exact hp _ h (fun _ => rfl) fun e => absurd hk e
  cases he : f.error with
  | none =>
    have hf : f.data.zip f.flags = f.data.map fun b => (b, false) := by simp only [Frame.flags, he]; exact zip_rep _
    cases k
    · exact gb ⟨by simp only [Frame.build, he]; rw [pairs_none, hf], rfl⟩
    · exact nb ⟨by simp only [Frame.build, he]; rw [pairs_none, hf]; rfl, by decide⟩
    · exact nb ⟨by simp only [Frame.build, he]; rw [pairs_none, hf]; rfl, by decide⟩
  | list l =>
    have hf : f.data.zip f.flags = f.data.zip l := by simp only [Frame.flags, he]; exact zip_take _ _
    have hl := pairs_list f.data l (G.flags l he)
    cases k
    · exact gb ⟨by simp only [Frame.build, he]; rw [hl, hf], rfl⟩
    · exact nb ⟨by simp only [Frame.build, he]; rw [hl, hf]; rfl, by decide⟩
    · exact nb ⟨by simp only [Frame.build, he]; rw [hl, hf]; rfl, by decide⟩
  | flag =>
    have hf : markLast (f.data.map fun b => (b, false)) = some (f.data.zip f.flags) := by simp only [Frame.flags, he]; exact markLast_eq hne
    cases k
    · exact gb ⟨by simp only [Frame.build, he]; rw [pairs_none]; exact hf, rfl⟩
    · exact nb ⟨by simp only [Frame.build, he]; rw [pairs_none, Option.bind_some, hf]; rfl, by decide⟩
    · obtain ⟨t, b, hd⟩ : ∃ t b, f.data = t ++ [b] := by
        rcases List.eq_nil_or_concat f.data with e | ⟨t, b, e⟩
        · exact absurd e hne
        · exact ⟨t, b, by rw [e, List.concat_eq_append]⟩
      refine hp (nibs (t.map (fun x => (x, false, false)) ++ [(b, false, true)])) ?_ (fun e => by cases e) fun _ => ⟨_, rfl, ?_, ?_⟩
      · simp only [Frame.build, he]
        rw [pairs_none, hd, Option.map_some, nibbles_eq, Option.bind_some]
        have : ((t ++ [b]).map fun b => (b, false)).map (fun x : Nat × Bool => (x.1, x.2, x.2)) = t.map (fun x => (x, false, false)) ++ [(b, false, false)] := by simp [List.map_map, Function.comp_def]
        rw [this, nibs_mark]
      · rw [hd]; simp [List.map_map, Function.comp_def]
      · simp only [Frame.flags, he]
        rw [hd, show (t ++ [b]).length - 1 = t.length by simp, List.zip_append (by simp), zip_rep]
        simp [List.map_map, Function.comp_def]

/-! ### runs -/

def gw (g : Nat → Nat) (w : Word) : Word := { w with d := g w.d }

/-- the sink after some words -/
def seen (k : Kind) (g : Nat → Nat) (ws : List Word) : Snk := ws.foldl (fun s w => s.step k (gw g w)) ⟨[], none⟩

theorem seen_snoc (k : Kind) (g : Nat → Nat) (ws : List Word) (w : Word) : seen k g (ws ++ [w]) = (seen k g ws).step k (gw g w) := by
  unfold seen; rw [List.foldl_append]; rfl

inductive Ph (k : Kind) (g : Nat → Nat) (s : Snk) : List (Nat × Bool) → Nat → List Rx → Prop
  | idle (ifg : Nat) (h : s.cur = none) : Ph k g s [] ifg []
  | last (L : List (Nat × Bool)) (ifg : Nat) (h : s.cur = some L) (hL : L ≠ []) (hi : ifg > 0) : Ph k g s [] ifg [parse k L]
  | body (acc : List (Nat × Bool)) (h : s.cur = some acc) (x : Nat × Bool) (rest : List (Nat × Bool)) : Ph k g s (x :: rest) 0 [parse k (acc ++ gm g (x :: rest))]

structure Inv (k : Kind) (g : Nat → Nat) (S : List Frame) (s : Src) (ws : List Word) : Prop where
  good : ∀ f ∈ s.queue, f.Good k
  out : ∃ pend, Ph k g (seen k g ws) s.dl s.ifg pend ∧ (seen k g ws).queue ++ pend ++ s.queue.map Frame.expect = S.map Frame.expect

def todo (k : Kind) (s : Src) : Nat := s.dl.length + s.ifg + (if s.dl = [] then 0 else gap k) + (s.queue.map fun f => 2 * f.data.length + gap k).sum

theorem gap_pos (k : Kind) : gap k > 0 := by cases k <;> decide

theorem step_off (k : Kind) (g : Nat → Nat) (s : Snk) : s.step k (gw g off) = match s.cur with
    | some l => ⟨if l.length > 0 then s.queue ++ [parse k l] else s.queue, none⟩
    | none => s := by
  unfold Snk.step gw off
  rfl

theorem step_on (k : Kind) (g : Nat → Nat) (s : Snk) (x : Nat × Bool) : s.step k (gw g ⟨x.1, true, x.2⟩) = { s with cur := some (s.cur.getD [] ++ [(g x.1, x.2)]) } := by
  unfold Snk.step gw
  rfl

theorem inv_clk {k : Kind} {g : Nat → Nat} (hg : Pass k g) {S : List Frame} {s : Src} {ws : List Word} (I : Inv k g S s ws) :
    ∃ s' w, s.step k = some (s', w) ∧ Inv k g S s' (ws ++ [w]) ∧ todo k s' ≤ todo k s - 1 := by
  obtain ⟨queue, dl, ifg⟩ := s
  obtain ⟨good, pend, P, hq⟩ := I
  dsimp only at good P hq
  have hgp := gap_pos k
  cases P with
  | idle _ h =>
    have hoff : (seen k g ws).step k (gw g off) = seen k g ws := by rw [step_off, h]
    by_cases hi : ifg > 0
    · refine ⟨⟨queue, [], ifg - 1⟩, off, ?_, ⟨good, [], ?_, ?_⟩, ?_⟩
      · unfold Src.step; rw [if_pos hi]
      · rw [seen_snoc, hoff]; exact .idle _ h
      · rw [seen_snoc, hoff]; exact hq
      · unfold todo; simp; omega
    · have hz : ifg = 0 := by omega
      subst hz
      cases queue with
      | nil =>
        refine ⟨⟨[], [], 0⟩, off, rfl, ⟨good, [], ?_, ?_⟩, ?_⟩
        · rw [seen_snoc, hoff]; exact .idle _ h
        · rw [seen_snoc, hoff]; exact hq
        · unfold todo; simp
      | cons f q =>
        obtain ⟨x, y, L, h1, h2, h3⟩ := build_good hg (good f List.mem_cons_self)
        refine ⟨⟨q, y :: L, 0⟩, ⟨x.1, true, x.2⟩, ?_, ⟨fun f hf => good f (List.mem_cons_of_mem _ hf), [f.expect], ?_, ?_⟩, ?_⟩
        · unfold Src.step
          rw [if_neg (by simp)]
          simp only [h1]
        · rw [seen_snoc, step_on, h, ← h3]
          exact .body [(g x.1, x.2)] rfl y L
        · rw [seen_snoc, step_on]
          simpa using hq
        · unfold todo; simp; omega
  | last L _ h hL hi =>
    have hoff : (seen k g ws).step k (gw g off) = ⟨(seen k g ws).queue ++ [parse k L], none⟩ := by
      rw [step_off, h]; simp only
      rw [if_pos (List.length_pos_iff.2 hL)]
    refine ⟨⟨queue, [], ifg - 1⟩, off, ?_, ⟨good, [], ?_, ?_⟩, ?_⟩
    · unfold Src.step; rw [if_pos hi]
    · rw [seen_snoc, hoff]; exact .idle _ rfl
    · rw [seen_snoc, hoff]; simpa using hq
    · unfold todo; simp; omega
  | body acc h x rest =>
    cases rest with
    | nil =>
      refine ⟨⟨queue, [], gap k⟩, ⟨x.1, true, x.2⟩, ?_, ⟨good, [parse k (acc ++ gm g [x])], ?_, ?_⟩, ?_⟩
      · unfold Src.step
        rw [if_neg (by simp)]; rfl
      · rw [seen_snoc, step_on, h]
        exact .last _ _ rfl (by simp [gm]) hgp
      · rw [seen_snoc, step_on]; exact hq
      · unfold todo; simp; omega
    | cons y L =>
      refine ⟨⟨queue, y :: L, 0⟩, ⟨x.1, true, x.2⟩, ?_, ⟨good, [parse k (acc ++ gm g (x :: y :: L))], ?_, ?_⟩, ?_⟩
      · unfold Src.step
        rw [if_neg (by simp)]; rfl
      · rw [seen_snoc, step_on, h]
        have : acc ++ gm g (x :: y :: L) = (acc ++ [(g x.1, x.2)]) ++ gm g (y :: L) := by simp [gm]
        rw [this]
        exact .body _ rfl y L
      · rw [seen_snoc, step_on]; exact hq
      · unfold todo; simp; omega

theorem inv_send {k : Kind} {g : Nat → Nat} {S : List Frame} {s : Src} {ws : List Word} (I : Inv k g S s ws) {f : Frame} (hf : f.Good k) : Inv k g (S ++ [f]) { s with queue := s.queue ++ [f] } ws := by
  obtain ⟨pend, P, hq⟩ := I.out
  refine ⟨?_, pend, P, ?_⟩
  · intro g hg
    rcases List.mem_append.1 hg with hg | hg
    · exact I.good g hg
    · rw [List.mem_singleton.1 hg]; exact hf
  · dsimp only
    rw [List.map_append, List.map_append, ← List.append_assoc, hq]

theorem inv_init (k : Kind) (g : Nat → Nat) : Inv k g [] ⟨[], [], 0⟩ [] := ⟨(by intro f h; cases h), [], .idle _ rfl, rfl⟩

theorem inv_done {k : Kind} {g : Nat → Nat} {S : List Frame} {s : Src} {ws : List Word} (I : Inv k g S s ws) (h : todo k s = 0) : (seen k g ws).queue = S.map Frame.expect := by
  obtain ⟨pend, P, hq⟩ := I.out
  have hgp := gap_pos k
  unfold todo at h
  have hqq : s.queue = [] := by
    cases hc : s.queue with
    | nil => rfl
    | cons f q => rw [hc] at h; simp at h; omega
  obtain ⟨dl, hdl⟩ : ∃ dl, dl = s.dl := ⟨_, rfl⟩
  obtain ⟨ifg, hifg⟩ : ∃ i, i = s.ifg := ⟨_, rfl⟩
  rw [← hdl, ← hifg] at P h
  cases P with
  | idle => rw [hqq] at hq; simpa using hq
  | last _ _ _ _ hi => omega
  | body => simp at h

/-! ### the sink only adds frames -/

theorem step_mono (k : Kind) (s : Snk) (w : Word) : s.queue <+: (s.step k w).queue := by
  unfold Snk.step
  split
  · exact List.prefix_rfl
  · split
    · dsimp only
      split
      · exact List.prefix_append ..
      · exact List.prefix_rfl
    · exact List.prefix_rfl

theorem seen_mono (k : Kind) (g : Nat → Nat) (a b : List Word) : (seen k g a).queue <+: (seen k g (a ++ b)).queue := by
  induction b generalizing a with
  | nil => rw [List.append_nil]; exact List.prefix_rfl
  | cons w b ih =>
    rw [show a ++ w :: b = (a ++ [w]) ++ b by simp]
    refine List.IsPrefix.trans ?_ (ih _)
    rw [seen_snoc]
    exact step_mono k _ _

theorem inv_prefix {k : Kind} {g : Nat → Nat} {S : List Frame} {s : Src} {ws : List Word} (I : Inv k g S s ws) : (seen k g ws).queue <+: S.map Frame.expect := by
  obtain ⟨pend, -, hq⟩ := I.out
  rw [← hq, List.append_assoc]
  exact List.prefix_append ..

theorem seen_pad (k : Kind) (g : Nat → Nat) (n : Nat) (ws : List Word) : seen k g (List.replicate n off ++ ws) = seen k g ws := by
  induction n with
  | zero => rfl
  | succ n ih =>
    rw [List.replicate_succ, List.cons_append]
    unfold seen
    rw [List.foldl_cons]
    exact ih

end Corundum.Gmii
