import Verif.Proof.Gmii
/-! Source and sink connected directly and over RGMII. -/
namespace Corundum.Gmii

theorem pass_id (k : Kind) : Pass k id := ⟨fun _ _ _ => rfl, fun _ _ => rfl⟩

theorem gw_id (w : Word) : gw id w = w := rfl

/-! ### connected directly -/

structure SInv (k : Kind) (S : List Frame) (s : Sys) : Prop where
  inv : Inv k id S s.src s.words
  snk : s.snk = seen k id s.words.dropLast

theorem sinv_send {k : Kind} {S : List Frame} {s : Sys} (I : SInv k S s) {f : Frame} (hf : f.Good k) : SInv k (S ++ [f]) { s with src := { s.src with queue := s.src.queue ++ [f] } } :=
  ⟨inv_send I.inv hf, I.snk⟩

theorem seen_lag (k : Kind) (ws : List Word) : (seen k id ws.dropLast).step k (ws.getLast?.getD off) = seen k id ws := by
  rcases List.eq_nil_or_concat ws with e | ⟨t, w, e⟩
  · subst e; rfl
  · subst e
    rw [List.concat_eq_append, List.dropLast_concat, List.getLast?_concat, seen_snoc]; rfl

theorem sinv_clk {k : Kind} {S : List Frame} {s : Sys} (I : SInv k S s) : ∃ s', s.step k (.clk true) = some s' ∧ SInv k S s' ∧ todo k s'.src ≤ todo k s.src - 1 := by
  obtain ⟨s', w, h1, h2, h3⟩ := inv_clk (pass_id k) I.inv
  refine ⟨_, by unfold Sys.step; rw [h1]; rfl, ⟨h2, ?_⟩, h3⟩
  dsimp only
  rw [List.dropLast_concat, I.snk, seen_lag]

theorem run_cons (k : Kind) (s : Sys) (e : Ev) (l : List Ev) : run k s (e :: l) = (s.step k e).bind fun s' => run k s' l := by
  unfold run; rw [List.foldlM_cons]; rfl

theorem run_append (k : Kind) (s : Sys) (a b : List Ev) : run k s (a ++ b) = (run k s a).bind fun s' => run k s' b := by
  unfold run; rw [List.foldlM_append]; rfl

theorem sinv_run {k : Kind} : ∀ (evs : List Ev) {S : List Frame} {s : Sys}, SInv k S s → (∀ f ∈ sent evs, f.Good k) → ∃ s', run k s evs = some s' ∧ SInv k (S ++ sent evs) s'
  | [], S, s, I, _ => ⟨s, rfl, by rw [sent, List.append_nil]; exact I⟩
  | .send f :: evs, S, s, I, h => by
    obtain ⟨s', h1, h2⟩ := sinv_run evs (sinv_send I (h f List.mem_cons_self)) (fun g hg => h g (List.mem_cons_of_mem _ hg))
    exact ⟨s', by rw [run_cons]; exact h1, by rw [sent, show S ++ f :: sent evs = (S ++ [f]) ++ sent evs by simp]; exact h2⟩
  | .clk false :: evs, S, s, I, h => by
    obtain ⟨s', h1, h2⟩ := sinv_run evs I h
    exact ⟨s', by rw [run_cons]; exact h1, h2⟩
  | .clk true :: evs, S, s, I, h => by
    obtain ⟨t, e1, I', -⟩ := sinv_clk I
    obtain ⟨s', h1, h2⟩ := sinv_run evs I' h
    exact ⟨s', by rw [run_cons, e1]; exact h1, h2⟩

theorem sinv_clks {k : Kind} : ∀ (n : Nat) {S : List Frame} {s : Sys}, SInv k S s → ∃ s', run k s (List.replicate n (.clk true)) = some s' ∧ SInv k S s' ∧ todo k s'.src ≤ todo k s.src - n
  | 0, S, s, I => ⟨s, rfl, I, Nat.le_refl _⟩
  | n + 1, S, s, I => by
    obtain ⟨t, e1, I', l1⟩ := sinv_clk I
    obtain ⟨s', h1, h2, l2⟩ := sinv_clks n I'
    exact ⟨s', by rw [List.replicate_succ, run_cons, e1]; exact h1, h2, by omega⟩

theorem sinv_init (k : Kind) : SInv k [] init := ⟨inv_init k id, rfl⟩

/-! ### RGMII -/

/-- what becomes of the data of a word -/
def ddr (k : Kind) (d : Nat) : Nat := d % 16 ||| (if k ≠ .gmii then d % 16 else d / 16 % 16) <<< 4

theorem or_nib (a b : Nat) (ha : a < 16) : a ||| b <<< 4 = 16 * b + a := by
  rw [Nat.or_comm, Nat.shiftLeft_eq, Nat.mul_comm, ← Nat.two_pow_add_eq_or_of_lt (by omega)]

theorem pass_ddr (k : Kind) : Pass k (ddr k) where
  byte hk x hx := by
    unfold ddr
    rw [if_neg (by simp [hk]), or_nib _ _ (by omega)]; omega
  nib hk x := by
    unfold ddr
    rw [if_pos hk, or_nib _ _ (by omega)]; omega

structure RInv (k : Kind) (S : List Frame) (s : RSys) (ws : List Word) : Prop where
  inv : Inv k (ddr k) S s.src ws
  hist : ∃ (P : List Word) (r q p t : Word), List.replicate 4 off ++ ws = P ++ [r, q, p, t] ∧ s.snk = seen k (ddr k) P ∧ s.ddr.rx = gw (ddr k) r ∧
    s.ddr.dat = ddr k q.d ∧ s.ddr.ctl1 = q.en ∧ s.ddr.ctl2 = xor q.en q.er ∧ s.ddr.reg = p ∧ s.ddr.txd = p.d % 16 ∧ s.ddr.ctl = p.en ∧ s.tx = t

theorem rinv_init (k : Kind) : RInv k [] rinit [] := by
  refine ⟨inv_init k _, [], off, off, off, off, rfl, rfl, ?_, ?_, rfl, rfl, rfl, rfl, rfl, rfl⟩ <;> cases k <;> rfl

theorem rinv_send {k : Kind} {S : List Frame} {s : RSys} {ws : List Word} (I : RInv k S s ws) {f : Frame} (hf : f.Good k) : RInv k (S ++ [f]) { s with src := { s.src with queue := s.src.queue ++ [f] } } ws :=
  ⟨inv_send I.inv hf, I.hist⟩

theorem rinv_clk {k : Kind} {S : List Frame} {s : RSys} {ws : List Word} (I : RInv k S s ws) : ∃ s' w, s.step k .clk = some s' ∧ RInv k S s' (ws ++ [w]) ∧ todo k s'.src ≤ todo k s.src - 1 := by
  obtain ⟨src', w, h1, h2, h3⟩ := inv_clk (pass_ddr k) I.inv
  obtain ⟨P, r, q, p, t, e, k1, k2, k3, k4, k5, k6, k7, k8, k9⟩ := I.hist
  refine ⟨_, w, by unfold RSys.step; rw [h1]; rfl, ⟨h2, P ++ [r], q, p, t, w, ?_, ?_, ?_, ?_, ?_, ?_, ?_, ?_, ?_, rfl⟩, h3⟩
  · rw [← List.append_assoc, e]; simp
  · dsimp only; rw [seen_snoc, k1, k2]
  · show (⟨s.ddr.dat, s.ddr.ctl1, xor s.ddr.ctl1 s.ddr.ctl2⟩ : Word) = _
    rw [k3, k4, k5]
    unfold gw
    cases q.en <;> cases q.er <;> rfl
  · show s.ddr.txd ||| (if decide (k ≠ .gmii) then s.ddr.txd else s.ddr.reg.d / 16 % 16) <<< 4 = _
    rw [k6, k7]
    unfold ddr
    simp
  · exact k8
  · show xor s.ddr.reg.en s.ddr.reg.er = _
    rw [k6]
  · exact k9
  · show s.tx.d % 16 = _
    rw [k9]
  · show s.tx.en = _
    rw [k9]

theorem rrun_cons (k : Kind) (s : RSys) (e : REv) (l : List REv) : rrun k s (e :: l) = (s.step k e).bind fun s' => rrun k s' l := by
  unfold rrun; rw [List.foldlM_cons]; rfl

theorem rrun_append (k : Kind) (s : RSys) (a b : List REv) : rrun k s (a ++ b) = (rrun k s a).bind fun s' => rrun k s' b := by
  unfold rrun; rw [List.foldlM_append]; rfl

theorem rinv_run {k : Kind} : ∀ (evs : List REv) {S : List Frame} {s : RSys} {ws : List Word}, RInv k S s ws → (∀ f ∈ rsent evs, f.Good k) → ∃ s' ws', rrun k s evs = some s' ∧ RInv k (S ++ rsent evs) s' ws'
  | [], S, s, ws, I, _ => ⟨s, ws, rfl, by rw [rsent, List.append_nil]; exact I⟩
  | .send f :: evs, S, s, ws, I, h => by
    obtain ⟨s', ws', h1, h2⟩ := rinv_run evs (rinv_send I (h f List.mem_cons_self)) (fun g hg => h g (List.mem_cons_of_mem _ hg))
    exact ⟨s', ws', by rw [rrun_cons]; exact h1, by rw [rsent, show S ++ f :: rsent evs = (S ++ [f]) ++ rsent evs by simp]; exact h2⟩
  | .clk :: evs, S, s, ws, I, h => by
    obtain ⟨t, w, e1, I', -⟩ := rinv_clk I
    obtain ⟨s', ws', h1, h2⟩ := rinv_run evs I' h
    exact ⟨s', ws', by rw [rrun_cons, e1]; exact h1, h2⟩

theorem rinv_clks {k : Kind} : ∀ (n : Nat) {S : List Frame} {s : RSys} {ws : List Word}, RInv k S s ws → ∃ s' ws', rrun k s (List.replicate n .clk) = some s' ∧ RInv k S s' (ws ++ ws') ∧ ws'.length = n ∧ todo k s'.src ≤ todo k s.src - n
  | 0, S, s, ws, I => ⟨s, [], rfl, by rw [List.append_nil]; exact I, rfl, Nat.le_refl _⟩
  | n + 1, S, s, ws, I => by
    obtain ⟨t, w, e1, I', l1⟩ := rinv_clk I
    obtain ⟨s', ws', h1, h2, h3, l2⟩ := rinv_clks n I'
    exact ⟨s', w :: ws', by rw [List.replicate_succ, rrun_cons, e1]; exact h1, by rw [show ws ++ w :: ws' = (ws ++ [w]) ++ ws' by simp]; exact h2, by simp [h3], by omega⟩

end Corundum.Gmii
