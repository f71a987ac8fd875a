import Verif.Spec.WakeLinux
import Verif.Proof.Sched

namespace Corundum.WakeLinux

theorem upd_same {α : Type} (f : Nat → α) (k : Nat) (v : α) : upd f k v k = v := by simp [upd]
theorem upd_ne {α : Type} (f : Nat → α) (k : Nat) (v : α) {j : Nat} (h : j ≠ k) : upd f k v j = f j := by simp [upd, h]

def napiTok (n : Napi) : Nat := if n = .idle then 0 else 1

/-- the part of the tokens kept in the completion queue itself -/
def Cq.tok (c : Cq) : Nat := c.armed.toNat + c.wq.count .arm + c.fin + napiTok c.napi

def tok (P : Params) (s : S) (q : Nat) : Nat :=
  (s.cq q).tok + s.fifo.count q + ((s.eq (P.eqOf q)).log.drop (s.eq (P.eqOf q)).pos).count q + s.lost.count q

structure CqOk (c : Cq) : Prop where
  pv : c.prod ≤ c.vis
  dv : c.drv ≤ c.vis
  cd : c.cons ≤ c.drv
  wv : ∀ v, .cons v ∈ c.wq → v ≤ c.drv
  arm : c.armed = true → c.prod ≤ c.drv
  poll : ∀ k n, c.napi = .poll k n → c.drv ≤ k ∧ k ≤ c.vis
  missed : c.missed = false

structure EqOk (P : Params) (e : Nat) (x : Eq) : Prop where
  pl : x.prod ≤ x.log.length
  cd : x.cons ≤ x.drv
  wv : ∀ v, .cons v ∈ x.wq → v ≤ x.drv
  arm : x.armed = true → x.prod ≤ x.drv
  dp : x.drv ≤ x.pos
  ppl : x.pos ≤ x.log.length
  home : ∀ q ∈ x.log, P.eqOf q = e
  tok : x.armed = true ∨ x.irq = true ∨ .arm ∈ x.wq ∨ x.pc ≠ .idle

structure Inv (P : Params) (s : S) : Prop where
  cq : ∀ q, CqOk (s.cq q)
  eq : ∀ e, EqOk P e (s.eq e)
  tok : ∀ q, tok P s q = (s.cq q).opn.toNat

theorem inv_init (P : Params) : Inv P init := by
  refine ⟨fun q => ?_, fun e => ?_, fun q => ?_⟩
  · constructor <;> simp [init]
  · constructor <;> simp [init, Eq.pos]
  · simp [init, tok, Cq.tok, napiTok]

theorem count_snoc {α : Type} [BEq α] [LawfulBEq α] [DecidableEq α] (l : List α) (x q : α) :
    (l ++ [x]).count q = l.count q + (if q = x then 1 else 0) := by
  rw [List.count_append]; congr 1
  by_cases h : q = x
  · subst h; simp
  · have : x ≠ q := fun g => h g.symm
    simp [h, this]

/-- a change of one completion queue (and the FIFO) -/
theorem inv_cq {P : Params} {s : S} (hi : Inv P s) (q0 : Nat) (c : Cq) (f : List Nat) (hc : CqOk c)
    (ht : c.tok + f.count q0 + (s.cq q0).opn.toNat = (s.cq q0).tok + s.fifo.count q0 + c.opn.toNat)
    (hf : ∀ q, q ≠ q0 → f.count q = s.fifo.count q) : Inv P { s with cq := upd s.cq q0 c, fifo := f } := by
  refine ⟨fun q => ?_, hi.eq, fun q => ?_⟩
  · dsimp only; by_cases h : q = q0
    · subst h; rw [upd_same]; exact hc
    · rw [upd_ne _ _ _ h]; exact hi.cq q
  · have := hi.tok q
    unfold tok at this ⊢
    dsimp only
    by_cases h : q = q0
    · subst h; rw [upd_same]; omega
    · rw [upd_ne _ _ _ h, hf q h]; exact this

/-- a change of one event queue, with the handler's position unchanged -/
theorem inv_eq {P : Params} {s : S} (hi : Inv P s) (e0 : Nat) (x : Eq) (f l y : List Nat) (hx : EqOk P e0 x)
    (hlog : x.log = (s.eq e0).log ++ y) (hpos : x.pos = (s.eq e0).pos)
    (ht : ∀ q, f.count q + (if P.eqOf q = e0 then y.count q else 0) + l.count q = s.fifo.count q + s.lost.count q) :
    Inv P { s with eq := upd s.eq e0 x, fifo := f, lost := l } := by
  refine ⟨hi.cq, fun e => ?_, fun q => ?_⟩
  · dsimp only; by_cases h : e = e0
    · subst h; rw [upd_same]; exact hx
    · rw [upd_ne _ _ _ h]; exact hi.eq e
  · have h1 := hi.tok q
    have h2 := ht q
    unfold tok at h1 ⊢
    dsimp only
    by_cases h : P.eqOf q = e0
    · rw [h] at h1 ⊢
      rw [if_pos h] at h2
      rw [upd_same, hlog, hpos, List.drop_append_of_le_length (hi.eq e0).ppl, List.count_append]; omega
    · rw [upd_ne _ _ _ h]; rw [if_neg h] at h2; omega

theorem complete_tok {c : Cq} (hm : c.missed = false) : c.complete.tok + napiTok c.napi = c.tok + 1 ∧ c.complete.opn = c.opn := by
  unfold Cq.complete; rw [hm]; unfold Cq.tok
  refine ⟨?_, rfl⟩
  simp [napiTok]; omega

theorem complete_ok {c : Cq} (h : CqOk c) : CqOk c.complete := by
  unfold Cq.complete; rw [h.missed]
  exact ⟨h.pv, h.dv, h.cd, h.wv, h.arm, (by intro k n g; cases g), rfl⟩

theorem poll_ok {P : Params} {up : Bool} {c d : Cq} (h : CqOk c) (hp : c.poll P up = some d) :
    CqOk d ∧ d.tok = c.tok ∧ d.opn = c.opn := by
  unfold Cq.poll at hp
  have hd := complete_ok h
  have ht := complete_tok h.missed
  cases hn : c.napi with
  | idle => rw [hn] at hp; cases hp
  | sched =>
    rw [hn] at hp ht; dsimp only at hp
    split at hp
    · cases hp
      refine ⟨⟨h.pv, h.dv, h.cd, h.wv, h.arm, ?_, h.missed⟩, ?_, rfl⟩
      · intro k n g; cases g; exact ⟨Nat.le_refl _, h.dv⟩
      · unfold Cq.tok; rw [hn]; rfl
    · cases hp
      refine ⟨hd, ?_, ht.2⟩
      have : napiTok .sched = 1 := rfl
      omega
  | poll k n =>
    rw [hn] at hp; dsimp only at hp
    have hk := h.poll k n hn
    split at hp
    · rename_i hb
      cases hp
      refine ⟨⟨h.pv, h.dv, h.cd, h.wv, h.arm, ?_, h.missed⟩, ?_, rfl⟩
      · intro k' n' g; cases g; exact ⟨Nat.le_succ_of_le hk.1, hb.2⟩
      · unfold Cq.tok; rw [hn]; rfl
    · cases hp
      refine ⟨⟨h.pv, hk.2, Nat.le_trans h.cd hk.1, ?_, ?_, ?_, h.missed⟩, ?_, rfl⟩
      · intro v g
        rcases List.mem_append.mp g with g | g
        · exact Nat.le_trans (h.wv v g) hk.1
        · cases List.mem_singleton.mp g; exact Nat.le_refl _
      · intro g; exact Nat.le_trans (h.arm g) hk.1
      · intro k' n' g; cases g
      · unfold Cq.tok; rw [hn]; dsimp only
        rw [count_snoc, if_neg (c := Wr.arm = Wr.cons k) (by intro g; cases g)]; rfl
  | wrote n =>
    rw [hn] at hp ht; dsimp only at hp
    split at hp
    · cases hp
      refine ⟨⟨h.pv, h.dv, h.cd, h.wv, h.arm, ?_, h.missed⟩, ?_, rfl⟩
      · intro k n g; cases g
      · unfold Cq.tok; rw [hn]; rfl
    · cases hp
      refine ⟨hd, ?_, ht.2⟩
      have : napiTok (.wrote n) = 1 := rfl
      omega

theorem tok_split {P : Params} {s : S} (hi : Inv P s) (q : Nat) : (s.cq q).tok ≤ 1 := by
  have := hi.tok q
  have := Bool.toNat_le (s.cq q).opn
  unfold tok at *
  omega

theorem inv_step {P : Params} {s t : S} (hi : Inv P s) (a : Act) (h : step P s a = some t) : Inv P t := by
  cases a with
  | openCq q =>
    simp only [step] at h
    split at h
    · cases h
    · rename_i ho
      have ho : (s.cq q).opn = false := by simpa using ho
      cases h
      have hc := hi.cq q
      refine inv_cq hi q _ s.fifo ⟨hc.pv, hc.dv, hc.cd, ?_, hc.arm, hc.poll, hc.missed⟩ ?_ (fun _ _ => rfl)
      · intro v g
        rcases List.mem_append.mp g with g | g
        · exact hc.wv v g
        · cases List.mem_singleton.mp g
      · rw [ho]; unfold Cq.tok; dsimp only; rw [count_snoc, if_pos rfl]; simp; omega
  | setUp => simp only [step] at h; cases h; exact ⟨hi.cq, hi.eq, hi.tok⟩
  | write q =>
    simp only [step] at h
    split at h
    · cases h
      have hc := hi.cq q
      exact inv_cq hi q _ s.fifo ⟨Nat.le_succ_of_le hc.pv, Nat.le_succ_of_le hc.dv, hc.cd, hc.wv, hc.arm,
        fun k n g => ⟨(hc.poll k n g).1, Nat.le_succ_of_le (hc.poll k n g).2⟩, hc.missed⟩ rfl (fun _ _ => rfl)
    · cases h
  | commit q =>
    simp only [step] at h
    have hc := hi.cq q
    split at h
    · rename_i hp
      split at h
      · rename_i ha
        cases h
        refine inv_cq hi q _ (s.fifo ++ [q]) ⟨hp, hc.dv, hc.cd, hc.wv, (by intro g; cases g), hc.poll, hc.missed⟩ ?_ ?_
        · unfold Cq.tok; dsimp only; rw [count_snoc, if_pos rfl, ha]; simp; omega
        · intro q' hq; rw [count_snoc, if_neg hq]; rfl
      · rename_i ha
        cases h
        exact inv_cq hi q _ s.fifo ⟨hp, hc.dv, hc.cd, hc.wv, fun g => absurd g ha, hc.poll, hc.missed⟩ rfl (fun _ _ => rfl)
    · cases h
  | evWrite =>
    simp only [step] at h
    split at h
    · cases h
    · rename_i q f hf
      have hc := hi.eq (P.eqOf q)
      have hcnt : ∀ q', s.fifo.count q' = f.count q' + (if q = q' then 1 else 0) := by
        intro q'; rw [hf, List.count_cons]; simp
      split at h
      · cases h
        refine inv_eq hi (P.eqOf q) _ f s.lost [q] ⟨?_, hc.cd, hc.wv, hc.arm, hc.dp, ?_, ?_, hc.tok⟩ rfl rfl ?_
        · have := hc.pl; simp; omega
        · have h2 : ((s.eq (P.eqOf q)).log ++ [q]).length = (s.eq (P.eqOf q)).log.length + 1 := by simp
          exact Nat.le_trans hc.ppl (by dsimp only; omega)
        · intro x hx
          rcases List.mem_append.mp hx with g | g
          · exact hc.home x g
          · rw [List.mem_singleton.mp g]
        · intro q'; rw [hcnt]
          by_cases g : q = q'
          · subst g; simp
          · have : (if P.eqOf q' = P.eqOf q then [q].count q' else 0) = 0 := by
              split
              · simp [g]
              · rfl
            rw [this, if_neg g]
      · cases h
        refine ⟨hi.cq, hi.eq, fun q' => ?_⟩
        have := hi.tok q'
        unfold tok at this ⊢
        dsimp only
        rw [hcnt] at this
        rw [count_snoc]
        by_cases g : q = q'
        · subst g; rw [if_pos rfl] at this ⊢; omega
        · rw [if_neg g] at this; rw [if_neg (c := q' = q) (fun k => g k.symm)]; omega
  | evCommit e =>
    simp only [step] at h
    have hc := hi.eq e
    split at h
    · rename_i hp
      split at h
      · cases h
        have := inv_eq hi e { s.eq e with prod := (s.eq e).prod + 1, armed := false, irq := true } s.fifo s.lost []
          ⟨hp, hc.cd, hc.wv, (by intro g; cases g), hc.dp, hc.ppl, hc.home, .inr (.inl rfl)⟩ (by simp) rfl (by simp)
        exact this
      · rename_i ha
        cases h
        exact inv_eq hi e { s.eq e with prod := (s.eq e).prod + 1 } s.fifo s.lost []
          ⟨hp, hc.cd, hc.wv, fun g => absurd g ha, hc.dp, hc.ppl, hc.home, hc.tok⟩ (by simp) rfl (by simp)
    · cases h
  | regC q =>
    simp only [step] at h
    have hc := hi.cq q
    split at h
    · cases h
    · rename_i v ws hw
      cases h
      refine inv_cq hi q _ s.fifo ⟨hc.pv, hc.dv, hc.wv v (by rw [hw]; simp), ?_, hc.arm, hc.poll, hc.missed⟩ ?_ (fun _ _ => rfl)
      · intro v' g; exact hc.wv v' (by rw [hw]; exact List.mem_cons_of_mem _ g)
      · unfold Cq.tok; rw [hw]; simp
    · rename_i ws hw
      have hna : (s.cq q).armed = false := by
        have := tok_split hi q
        unfold Cq.tok at this
        cases hb : (s.cq q).armed with
        | false => rfl
        | true => rw [hb, hw, List.count_cons_self] at this; simp at this; omega
      have hwv : ∀ v, .cons v ∈ ws → v ≤ (s.cq q).drv := fun v' g => hc.wv v' (by rw [hw]; exact List.mem_cons_of_mem _ g)
      split at h
      · rename_i hpc
        cases h
        refine inv_cq hi q _ s.fifo ⟨hc.pv, hc.dv, hc.cd, hwv, fun _ => ?_, hc.poll, hc.missed⟩ ?_ (fun _ _ => rfl)
        · have := hc.cd; dsimp only; omega
        · unfold Cq.tok; rw [hw, hna]; simp; omega
      · cases h
        refine inv_cq hi q _ _ ⟨hc.pv, hc.dv, hc.cd, hwv, (by intro g; cases g), hc.poll, hc.missed⟩ ?_ ?_
        · unfold Cq.tok; rw [hw, hna, count_snoc]; simp; omega
        · intro q' hq; rw [count_snoc, if_neg hq]; rfl
  | regE e =>
    simp only [step] at h
    have hc := hi.eq e
    split at h
    · cases h
    · rename_i v ws hw
      cases h
      refine inv_eq hi e { s.eq e with wq := ws, cons := v } s.fifo s.lost []
        ⟨hc.pl, hc.wv v (by rw [hw]; simp), ?_, hc.arm, hc.dp, hc.ppl, hc.home, ?_⟩ (by simp) rfl (by simp)
      · intro v' g; exact hc.wv v' (by rw [hw]; exact List.mem_cons_of_mem _ g)
      · have := hc.tok; rw [hw] at this; simpa using this
    · rename_i ws hw
      have hwv : ∀ v, .cons v ∈ ws → v ≤ (s.eq e).drv := fun v' g => hc.wv v' (by rw [hw]; exact List.mem_cons_of_mem _ g)
      split at h
      · rename_i hpc
        cases h
        refine inv_eq hi e { s.eq e with wq := ws, armed := true } s.fifo s.lost []
          ⟨hc.pl, hc.cd, hwv, fun _ => ?_, hc.dp, hc.ppl, hc.home, .inl rfl⟩ (by simp) rfl (by simp)
        have := hc.cd; dsimp only; omega
      · cases h
        exact inv_eq hi e { s.eq e with wq := ws, armed := false, irq := true } s.fifo s.lost []
          ⟨hc.pl, hc.cd, hwv, (by intro g; cases g), hc.dp, hc.ppl, hc.home, .inr (.inl rfl)⟩ (by simp) rfl (by simp)
  | shared e =>
    simp only [step] at h
    have hc := hi.eq e
    split at h
    · rename_i hpc
      cases h
      have hpos : (s.eq e).pos = (s.eq e).drv := by unfold Eq.pos; rw [hpc]
      have hl := hc.ppl
      rw [hpos] at hl
      exact inv_eq hi e { s.eq e with pc := .loop (s.eq e).drv } s.fifo s.lost []
        ⟨hc.pl, hc.cd, hc.wv, hc.arm, Nat.le_refl _, hl, hc.home, .inr (.inr (.inr (by intro g; cases g)))⟩ (by simp) hpos.symm (by simp)
    · cases h
  | irq e =>
    simp only [step] at h
    have hc := hi.eq e
    split at h
    · rename_i hpc
      split at h
      · cases h
        have hpos : (s.eq e).pos = (s.eq e).drv := by unfold Eq.pos; rw [hpc]
        have hl := hc.ppl
        rw [hpos] at hl
        exact inv_eq hi e { s.eq e with irq := false, pc := .loop (s.eq e).drv } s.fifo s.lost []
          ⟨hc.pl, hc.cd, hc.wv, hc.arm, Nat.le_refl _, hl, hc.home, .inr (.inr (.inr (by intro g; cases g)))⟩ (by simp) hpos.symm (by simp)
      · cases h
    · rename_i p hpc
      have hpos : (s.eq e).pos = p := by unfold Eq.pos; rw [hpc]
      split at h
      · rename_i q hq
        cases h
        obtain ⟨hn, hx⟩ := List.getElem?_eq_some_iff.mp hq
        have hh := hc.home q (List.mem_of_getElem? hq)
        have hdrop : (s.eq e).log.drop p = q :: (s.eq e).log.drop (p + 1) := by rw [List.drop_eq_getElem_cons hn, hx]
        have ht := hi.tok q
        have hidle : (s.cq q).napi = .idle := by
          apply Classical.byContradiction
          intro hne
          have := Bool.toNat_le (s.cq q).opn
          unfold tok Cq.tok at ht
          rw [hh, hpos, hdrop, List.count_cons_self] at ht
          have : napiTok (s.cq q).napi = 1 := by unfold napiTok; rw [if_neg hne]
          omega
        have hs : (s.cq q).schedule = { s.cq q with napi := .sched } := by unfold Cq.schedule; rw [if_pos hidle]
        have hst : ({ s.cq q with napi := .sched } : Cq).tok = (s.cq q).tok + 1 := by
          unfold Cq.tok; rw [hidle]; simp [napiTok]
        rw [hs]
        have hcq := hi.cq q
        refine ⟨fun q' => ?_, fun e' => ?_, fun q' => ?_⟩
        · dsimp only; by_cases g : q' = q
          · subst g; rw [upd_same]
            exact ⟨hcq.pv, hcq.dv, hcq.cd, hcq.wv, hcq.arm, (by intro k n g; cases g), hcq.missed⟩
          · rw [upd_ne _ _ _ g]; exact hi.cq q'
        · dsimp only; by_cases g : e' = e
          · subst g; rw [upd_same]
            refine ⟨hc.pl, hc.cd, hc.wv, hc.arm, ?_, hn, hc.home, .inr (.inr (.inr (by intro g; cases g)))⟩
            have := hc.dp; rw [hpos] at this; exact Nat.le_succ_of_le this
          · rw [upd_ne _ _ _ g]; exact hi.eq e'
        · have ht' := hi.tok q'
          unfold tok at ht ht' ⊢
          dsimp only
          by_cases g : q' = q
          · subst g
            rw [upd_same, hh, upd_same, hst]
            rw [hh, hpos, hdrop, List.count_cons_self] at ht
            show _ + ((s.eq e).log.drop (p + 1)).count _ + _ = (s.cq q').opn.toNat
            omega
          · rw [upd_ne _ _ _ g]
            by_cases k : P.eqOf q' = e
            · rw [k, hpos, hdrop, List.count_cons] at ht'
              rw [k, upd_same]
              show _ + ((s.eq e).log.drop (p + 1)).count _ + _ = (s.cq q').opn.toNat
              have : (q == q') = false := by simpa using fun w => g w.symm
              rw [this] at ht'; simpa using ht'
            · rw [upd_ne _ _ _ k]; exact ht'
      · cases h
        have hp1 := hc.dp
        have hp2 := hc.ppl
        rw [hpos] at hp1 hp2
        refine inv_eq hi e { s.eq e with drv := p, wq := (s.eq e).wq ++ [.cons p], pc := .armEq } s.fifo s.lost []
          ⟨hc.pl, Nat.le_trans hc.cd hp1, ?_, fun g => Nat.le_trans (hc.arm g) hp1, Nat.le_refl _, hp2, hc.home,
            .inr (.inr (.inr (by intro g; cases g)))⟩ (by simp) hpos.symm (by simp)
        intro v g
        rcases List.mem_append.mp g with g | g
        · exact Nat.le_trans (hc.wv v g) hp1
        · cases List.mem_singleton.mp g; exact Nat.le_refl _
    · rename_i hpc
      have hpos : (s.eq e).pos = (s.eq e).drv := by unfold Eq.pos; rw [hpc]
      have hl := hc.ppl
      rw [hpos] at hl
      cases h
      refine inv_eq hi e { s.eq e with wq := (s.eq e).wq ++ [.arm], pc := .idle } s.fifo s.lost []
        ⟨hc.pl, hc.cd, ?_, hc.arm, Nat.le_refl _, hl, hc.home, .inr (.inr (.inl (by simp)))⟩ (by simp) hpos.symm (by simp)
      intro v g
      rcases List.mem_append.mp g with g | g
      · exact hc.wv v g
      · cases List.mem_singleton.mp g
  | poll q =>
    simp only [step] at h
    cases hp : (s.cq q).poll P s.up with
    | none => rw [hp] at h; cases h
    | some d =>
      rw [hp] at h; cases h
      obtain ⟨h1, h2, h3⟩ := poll_ok (hi.cq q) hp
      exact inv_cq hi q d s.fifo h1 (by rw [h2, h3]) (fun _ _ => rfl)
  | arm q =>
    simp only [step] at h
    have hc := hi.cq q
    split at h
    · rename_i hf
      cases h
      refine inv_cq hi q _ s.fifo ⟨hc.pv, hc.dv, hc.cd, ?_, hc.arm, hc.poll, hc.missed⟩ ?_ (fun _ _ => rfl)
      · intro v g
        rcases List.mem_append.mp g with g | g
        · exact hc.wv v g
        · cases List.mem_singleton.mp g
      · unfold Cq.tok; dsimp only; rw [count_snoc, if_pos rfl]; omega
    · cases h

theorem inv_run {P : Params} : ∀ (as : List Act) {s t : S}, Inv P s → run P s as = some t → Inv P t
  | [], s, t, hi, h => by cases h; exact hi
  | a :: as, s, t, hi, h => by
    rw [run, Option.bind_eq_some_iff] at h
    obtain ⟨s', h1, h2⟩ := h
    exact inv_run as (inv_step hi a h1) h2

/-! ### Lost events -/

theorem lost_mem {P : Params} {s : S} (hi : Inv P s) {q : Nat} (hl : q ∈ s.lost) :
    q ∉ (s.eq (P.eqOf q)).log.drop (s.eq (P.eqOf q)).pos ∧ (s.cq q).napi = .idle := by
  have ht := hi.tok q
  have := List.count_pos_iff.mpr hl
  have := Bool.toNat_le (s.cq q).opn
  unfold tok Cq.tok at ht
  constructor
  · intro hm
    have := List.count_pos_iff.mpr hm
    omega
  · apply Classical.byContradiction
    intro hn
    have : napiTok (s.cq q).napi = 1 := by unfold napiTok; rw [if_neg hn]
    omega

theorem lost_step {P : Params} {s t : S} (hi : Inv P s) {q : Nat} (hl : q ∈ s.lost) (a : Act) (h : step P s a = some t) :
    (t.cq q).drv = (s.cq q).drv ∧ q ∈ t.lost := by
  have hu : ∀ q0 c, c.drv = (s.cq q0).drv → (upd s.cq q0 c q).drv = (s.cq q).drv := by
    intro q0 c hc; by_cases g : q = q0
    · subst g; rw [upd_same]; exact hc
    · rw [upd_ne _ _ _ g]
  cases a with
  | openCq q0 => simp only [step] at h; split at h <;> cases h; exact ⟨hu _ _ rfl, hl⟩
  | setUp => simp only [step] at h; cases h; exact ⟨rfl, hl⟩
  | write q0 => simp only [step] at h; split at h <;> cases h; exact ⟨hu _ _ rfl, hl⟩
  | commit q0 =>
    simp only [step] at h
    split at h
    · split at h <;> cases h <;> exact ⟨hu _ _ rfl, hl⟩
    · cases h
  | evWrite =>
    simp only [step] at h
    split at h
    · cases h
    · split at h <;> cases h
      · exact ⟨rfl, hl⟩
      · exact ⟨rfl, List.mem_append_left _ hl⟩
  | evCommit e =>
    simp only [step] at h
    split at h
    · split at h <;> cases h <;> exact ⟨rfl, hl⟩
    · cases h
  | regC q0 =>
    simp only [step] at h
    split at h
    · cases h
    · cases h; exact ⟨hu _ _ rfl, hl⟩
    · split at h <;> cases h <;> exact ⟨hu _ _ rfl, hl⟩
  | regE e =>
    simp only [step] at h
    split at h
    · cases h
    · cases h; exact ⟨rfl, hl⟩
    · split at h <;> cases h <;> exact ⟨rfl, hl⟩
  | shared e => simp only [step] at h; split at h <;> cases h; exact ⟨rfl, hl⟩
  | irq e =>
    simp only [step] at h
    split at h
    · split at h <;> cases h; exact ⟨rfl, hl⟩
    · split at h
      · cases h
        refine ⟨hu _ _ ?_, hl⟩
        unfold Cq.schedule; split <;> rfl
      · cases h; exact ⟨rfl, hl⟩
    · cases h; exact ⟨rfl, hl⟩
  | poll q0 =>
    simp only [step] at h
    cases hp : (s.cq q0).poll P s.up with
    | none => rw [hp] at h; cases h
    | some d =>
      rw [hp] at h; cases h
      by_cases g : q = q0
      · subst g
        unfold Cq.poll at hp
        rw [(lost_mem hi hl).2] at hp; cases hp
      · dsimp only; rw [upd_ne _ _ _ g]; exact ⟨rfl, hl⟩
  | arm q0 => simp only [step] at h; split at h <;> cases h; exact ⟨hu _ _ rfl, hl⟩

theorem opn_step {P : Params} {s t : S} (a : Act) (h : step P s a = some t) {q : Nat} (ho : (s.cq q).opn = true) :
    (t.cq q).opn = true := by
  have hu : ∀ q0 c, ((s.cq q0).opn = true → c.opn = true) → (upd s.cq q0 c q).opn = true := by
    intro q0 c hc; by_cases g : q = q0
    · subst g; rw [upd_same]; exact hc ho
    · rw [upd_ne _ _ _ g]; exact ho
  cases a with
  | openCq q0 => simp only [step] at h; split at h <;> cases h; exact hu _ _ (fun _ => rfl)
  | setUp => simp only [step] at h; cases h; exact ho
  | write q0 => simp only [step] at h; split at h <;> cases h; exact hu _ _ (fun g => g)
  | commit q0 =>
    simp only [step] at h
    split at h
    · split at h <;> cases h <;> exact hu _ _ (fun g => g)
    · cases h
  | evWrite =>
    simp only [step] at h
    split at h
    · cases h
    · split at h <;> cases h <;> exact ho
  | evCommit e =>
    simp only [step] at h
    split at h
    · split at h <;> cases h <;> exact ho
    · cases h
  | regC q0 =>
    simp only [step] at h
    split at h
    · cases h
    · cases h; exact hu _ _ (fun g => g)
    · split at h <;> cases h <;> exact hu _ _ (fun g => g)
  | regE e =>
    simp only [step] at h
    split at h
    · cases h
    · cases h; exact ho
    · split at h <;> cases h <;> exact ho
  | shared e => simp only [step] at h; split at h <;> cases h; exact ho
  | irq e =>
    simp only [step] at h
    split at h
    · split at h <;> cases h; exact ho
    · split at h
      · cases h
        refine hu _ _ ?_
        unfold Cq.schedule; split <;> exact fun g => g
      · cases h; exact ho
    · cases h; exact ho
  | poll q0 =>
    simp only [step] at h
    cases hp : (s.cq q0).poll P s.up with
    | none => rw [hp] at h; cases h
    | some d =>
      rw [hp] at h; cases h
      refine hu _ _ ?_
      intro g
      have hcm : (s.cq q0).complete.opn = (s.cq q0).opn := by unfold Cq.complete; split <;> rfl
      unfold Cq.poll at hp
      split at hp
      · cases hp
      · split at hp <;> cases hp
        · exact g
        · rw [hcm]; exact g
      · split at hp <;> cases hp <;> exact g
      · split at hp <;> cases hp
        · exact g
        · rw [hcm]; exact g
  | arm q0 => simp only [step] at h; split at h <;> cases h; exact hu _ _ (fun g => g)

theorem opn_run {P : Params} {q : Nat} : ∀ (as : List Act) {s t : S}, run P s as = some t → (s.cq q).opn = true → (t.cq q).opn = true
  | [], s, t, h, ho => by cases h; exact ho
  | a :: as, s, t, h, ho => by
    rw [run, Option.bind_eq_some_iff] at h
    obtain ⟨s', h1, h2⟩ := h
    exact opn_run as h2 (opn_step a h1 ho)

/-! ### No event is lost when the arm commands do not overtake the event queue's consumer pointer -/

def consVals : List Wr → List Nat
  | [] => []
  | .cons v :: ws => v :: consVals ws
  | .arm :: ws => consVals ws

theorem consVals_append : ∀ (a b : List Wr), consVals (a ++ b) = consVals a ++ consVals b
  | [], b => rfl
  | .cons v :: a, b => by simp [consVals, consVals_append a b]
  | .arm :: a, b => by simp [consVals, consVals_append a b]

theorem mem_consVals : ∀ {ws : List Wr} {v : Nat}, v ∈ consVals ws → .cons v ∈ ws
  | .cons w :: ws, v, h => by
    rcases List.mem_cons.mp h with h | h
    · subst h; simp
    · exact List.mem_cons_of_mem _ (mem_consVals h)
  | .arm :: ws, v, h => List.mem_cons_of_mem _ (mem_consVals (ws := ws) h)

structure Ord (P : Params) (s : S) : Prop where
  sorted : ∀ e, ((s.eq e).cons :: consVals (s.eq e).wq).Pairwise (· ≤ ·)
  one : ∀ q, (s.cq q).armed.toNat + s.fifo.count q + ((s.eq (P.eqOf q)).log.drop (s.eq (P.eqOf q)).cons).count q ≤ 1
  opn : ∀ e, ∀ q ∈ (s.eq e).log, (s.cq q).opn = true

theorem ord_init (P : Params) : Ord P init := by
  constructor <;> simp [init, consVals]

theorem ord_cq {P : Params} {s : S} (ho : Ord P s) (q0 : Nat) (c : Cq) (hopn : (s.cq q0).opn = true → c.opn = true)
    (ha : c.armed = (s.cq q0).armed) : Ord P { s with cq := upd s.cq q0 c } := by
  refine ⟨ho.sorted, fun q => ?_, fun e q hq => ?_⟩
  · dsimp only; by_cases g : q = q0
    · subst g; rw [upd_same, ha]; exact ho.one q
    · rw [upd_ne _ _ _ g]; exact ho.one q
  · dsimp only; by_cases g : q = q0
    · subst g; rw [upd_same]; exact hopn (ho.opn e q hq)
    · rw [upd_ne _ _ _ g]; exact ho.opn e q hq

theorem ord_eq {P : Params} {s : S} (ho : Ord P s) (e0 : Nat) (x : Eq) (hlog : x.log = (s.eq e0).log)
    (hs : (x.cons :: consVals x.wq).Pairwise (· ≤ ·)) (hc : (s.eq e0).cons ≤ x.cons) : Ord P { s with eq := upd s.eq e0 x } := by
  refine ⟨fun e => ?_, fun q => ?_, fun e q => ?_⟩
  · dsimp only; by_cases g : e = e0
    · subst g; rw [upd_same]; exact hs
    · rw [upd_ne _ _ _ g]; exact ho.sorted e
  · have h1 := ho.one q
    dsimp only; by_cases g : P.eqOf q = e0
    · rw [g] at h1 ⊢
      rw [upd_same, hlog]
      have : ((s.eq e0).log.drop x.cons).count q ≤ ((s.eq e0).log.drop (s.eq e0).cons).count q := by
        rw [show x.cons = (s.eq e0).cons + (x.cons - (s.eq e0).cons) by omega, ← List.drop_drop]
        exact (List.drop_sublist _ _).count_le _
      omega
    · rw [upd_ne _ _ _ g]; exact h1
  · dsimp only; by_cases g : e = e0
    · subst g; rw [upd_same, hlog]; exact ho.opn e q
    · rw [upd_ne _ _ _ g]; exact ho.opn e q

theorem ord_step {P : Params} {s t : S} (hi : Inv P s) (ho : Ord P s) (a : Act) (h : step P s a = some t)
    (hok : ∀ q, a = .regC q → armOk P s q) : Ord P t := by
  cases a with
  | openCq q0 => simp only [step] at h; split at h <;> cases h; exact ord_cq ho _ _ (fun _ => rfl) rfl
  | setUp => simp only [step] at h; cases h; exact ⟨ho.sorted, ho.one, ho.opn⟩
  | write q0 => simp only [step] at h; split at h <;> cases h; exact ord_cq ho _ _ (fun g => g) rfl
  | commit q0 =>
    simp only [step] at h
    split at h
    · split at h
      · rename_i ha
        cases h
        refine ⟨ho.sorted, fun q => ?_, fun e q hq => ?_⟩
        · have := ho.one q
          dsimp only
          rw [count_snoc]
          by_cases g : q = q0
          · subst g; rw [ha] at this; rw [upd_same, if_pos rfl]; simp at this ⊢; omega
          · rw [upd_ne _ _ _ g, if_neg g]; omega
        · have := ho.opn e q hq
          dsimp only; by_cases g : q = q0
          · subst g; rw [upd_same]; exact this
          · rw [upd_ne _ _ _ g]; exact this
      · cases h; exact ord_cq ho _ _ (fun g => g) rfl
    · cases h
  | evWrite =>
    simp only [step] at h
    split at h
    · cases h
    · rename_i q f hf
      have hcnt : ∀ q', s.fifo.count q' = f.count q' + (if q = q' then 1 else 0) := by
        intro q'; rw [hf, List.count_cons]; simp
      split at h
      · cases h
        have hx := hi.eq (P.eqOf q)
        refine ⟨fun e => ?_, fun q' => ?_, fun e q' => ?_⟩
        · dsimp only; by_cases g : e = P.eqOf q
          · subst g; rw [upd_same]; exact ho.sorted _
          · rw [upd_ne _ _ _ g]; exact ho.sorted _
        · have h1 := ho.one q'
          rw [hcnt] at h1
          dsimp only
          by_cases k : P.eqOf q' = P.eqOf q
          · rw [k] at h1 ⊢
            rw [upd_same]
            dsimp only
            rw [List.drop_append_of_le_length (by have := hx.cd; have := hx.dp; have := hx.ppl; omega), count_snoc]
            by_cases g : q = q'
            · subst g; rw [if_pos rfl] at h1 ⊢; omega
            · rw [if_neg g] at h1; rw [if_neg (c := q' = q) (fun w => g w.symm)]; omega
          · rw [upd_ne _ _ _ k]; omega
        · dsimp only; by_cases g : e = P.eqOf q
          · subst g; rw [upd_same]
            intro hm
            rcases List.mem_append.mp hm with hm | hm
            · exact ho.opn _ _ hm
            · rw [List.mem_singleton.mp hm]
              have ht := hi.tok q
              unfold tok at ht
              rw [hf, List.count_cons_self] at ht
              cases hb : (s.cq q).opn with
              | true => rfl
              | false => rw [hb] at ht; simp at ht
          · rw [upd_ne _ _ _ g]; exact ho.opn e q'
      · cases h
        refine ⟨ho.sorted, fun q' => ?_, ho.opn⟩
        have h1 := ho.one q'
        rw [hcnt] at h1
        dsimp only; omega
  | evCommit e =>
    simp only [step] at h
    split at h
    · split at h <;> cases h <;> exact ord_eq ho e _ rfl (ho.sorted e) (Nat.le_refl _)
    · cases h
  | regC q0 =>
    have hao := hok q0 rfl
    simp only [step] at h
    split at h
    · cases h
    · cases h; exact ord_cq ho _ _ (fun g => g) rfl
    · rename_i ws hw
      have hz : s.fifo.count q0 = 0 ∧ ((s.eq (P.eqOf q0)).log.drop (s.eq (P.eqOf q0)).cons).count q0 = 0 := by
        have ht := hi.tok q0
        have := Bool.toNat_le (s.cq q0).opn
        unfold tok Cq.tok at ht
        rw [hw, List.count_cons_self] at ht
        refine ⟨by omega, ?_⟩
        have hx := hi.eq (P.eqOf q0)
        have hcp : (s.eq (P.eqOf q0)).cons ≤ (s.eq (P.eqOf q0)).pos := Nat.le_trans hx.cd hx.dp
        have hna := hao (by rw [hw]; rfl)
        rw [← List.take_append_drop (s.eq (P.eqOf q0)).pos (s.eq (P.eqOf q0)).log,
          List.drop_append_of_le_length (by rw [List.length_take]; have := hx.ppl; omega), List.count_append,
          List.count_eq_zero_of_not_mem hna]
        omega
      split at h
      · cases h
        refine ⟨ho.sorted, fun q => ?_, fun e q hq => ?_⟩
        · have := ho.one q
          dsimp only
          by_cases g : q = q0
          · subst g; rw [upd_same]; simp; omega
          · rw [upd_ne _ _ _ g]; omega
        · have := ho.opn e q hq
          dsimp only; by_cases g : q = q0
          · subst g; rw [upd_same]; exact this
          · rw [upd_ne _ _ _ g]; exact this
      · cases h
        refine ⟨ho.sorted, fun q => ?_, fun e q hq => ?_⟩
        · have := ho.one q
          dsimp only
          rw [count_snoc]
          by_cases g : q = q0
          · subst g; rw [upd_same]; simp; omega
          · rw [upd_ne _ _ _ g, if_neg g]; omega
        · have := ho.opn e q hq
          dsimp only; by_cases g : q = q0
          · subst g; rw [upd_same]; exact this
          · rw [upd_ne _ _ _ g]; exact this
  | regE e =>
    have hs := ho.sorted e
    simp only [step] at h
    split at h
    · cases h
    · rename_i v ws hw
      cases h
      rw [hw, consVals] at hs
      rw [List.pairwise_cons] at hs
      exact ord_eq ho e _ rfl hs.2 (hs.1 v (by simp))
    · rename_i ws hw
      rw [hw, consVals] at hs
      split at h <;> cases h <;> exact ord_eq ho e _ rfl hs (Nat.le_refl _)
  | shared e => simp only [step] at h; split at h <;> cases h; exact ord_eq ho e _ rfl (ho.sorted e) (Nat.le_refl _)
  | irq e =>
    have hs := ho.sorted e
    have hx := hi.eq e
    simp only [step] at h
    split at h
    · split at h <;> cases h; exact ord_eq ho e _ rfl hs (Nat.le_refl _)
    · rename_i p hpc
      have hpos : (s.eq e).pos = p := by unfold Eq.pos; rw [hpc]
      split at h
      · cases h
        rename_i q hq
        have h1 := ord_eq ho e { s.eq e with pc := .loop (p + 1) } rfl hs (Nat.le_refl _)
        refine ord_cq h1 q _ ?_ ?_
        · unfold Cq.schedule; split <;> exact fun g => g
        · unfold Cq.schedule; split <;> rfl
      · cases h
        refine ord_eq ho e _ rfl ?_ (Nat.le_refl _)
        dsimp only
        rw [consVals_append, ← List.cons_append, List.pairwise_append]
        refine ⟨hs, List.pairwise_singleton _ _, ?_⟩
        intro x hxm y hy
        rw [List.mem_singleton.mp hy]
        have hdp := hx.dp
        rw [hpos] at hdp
        rcases List.mem_cons.mp hxm with g | g
        · rw [g]; exact Nat.le_trans hx.cd hdp
        · exact Nat.le_trans (hx.wv x (mem_consVals g)) hdp
    · cases h
      refine ord_eq ho e _ rfl ?_ (Nat.le_refl _)
      dsimp only
      rw [consVals_append]; simpa [consVals] using hs
  | poll q0 =>
    simp only [step] at h
    cases hp : (s.cq q0).poll P s.up with
    | none => rw [hp] at h; cases h
    | some d =>
      rw [hp] at h; cases h
      have hcm : (s.cq q0).complete.opn = (s.cq q0).opn ∧ (s.cq q0).complete.armed = (s.cq q0).armed := by
        unfold Cq.complete; split <;> exact ⟨rfl, rfl⟩
      have : d.opn = (s.cq q0).opn ∧ d.armed = (s.cq q0).armed := by
        unfold Cq.poll at hp
        split at hp
        · cases hp
        · split at hp <;> cases hp
          · exact ⟨rfl, rfl⟩
          · exact hcm
        · split at hp <;> cases hp <;> exact ⟨rfl, rfl⟩
        · split at hp <;> cases hp
          · exact ⟨rfl, rfl⟩
          · exact hcm
      exact ord_cq ho _ _ (fun g => by rw [this.1]; exact g) this.2
  | arm q0 => simp only [step] at h; split at h <;> cases h; exact ord_cq ho _ _ (fun g => g) rfl

theorem ord_room {P : Params} {s : S} (hi : Inv P s) (ho : Ord P s) {m : Nat} (hm : ∀ q, (s.cq q).opn = true → q < m) {q : Nat}
    {f : List Nat} (hf : s.fifo = q :: f) : (s.eq (P.eqOf q)).log.length - (s.eq (P.eqOf q)).cons < m := by
  have hc : ∀ x, (q :: (s.eq (P.eqOf q)).log.drop (s.eq (P.eqOf q)).cons).count x ≤ 1 := by
    intro x
    have h1 := ho.one x
    rw [hf] at h1
    by_cases hx : P.eqOf x = P.eqOf q
    · rw [hx] at h1; rw [List.count_cons] at h1 ⊢; omega
    · have h3 : x ∉ (s.eq (P.eqOf q)).log.drop (s.eq (P.eqOf q)).cons := fun g => hx ((hi.eq _).home _ (List.mem_of_mem_drop g))
      have h2 : q ≠ x := fun g => hx (by rw [g])
      rw [List.count_cons, List.count_eq_zero_of_not_mem h3]
      simp [h2]
  have hlt : ∀ x ∈ (q :: (s.eq (P.eqOf q)).log.drop (s.eq (P.eqOf q)).cons), x < m := by
    intro x hx
    apply hm
    rcases List.mem_cons.mp hx with g | g
    · subst g
      have ht := hi.tok x
      unfold tok at ht
      rw [hf, List.count_cons_self] at ht
      cases hb : (s.cq x).opn with
      | true => rfl
      | false => rw [hb] at ht; simp at ht
    · exact ho.opn _ _ (List.mem_of_mem_drop g)
  have := Sched.nodup_length_le m (List.nodup_iff_count.mpr hc) hlt
  simp at this
  omega

theorem lost_of_step {P : Params} {s t : S} (a : Act) (h : step P s a = some t) (hl : s.lost = []) :
    t.lost = [] ∨ ∃ q f, s.fifo = q :: f ∧ P.eqSize ≤ (s.eq (P.eqOf q)).log.length - (s.eq (P.eqOf q)).cons := by
  cases a with
  | openCq q0 => simp only [step] at h; split at h <;> cases h; exact .inl hl
  | setUp => simp only [step] at h; cases h; exact .inl hl
  | write q0 => simp only [step] at h; split at h <;> cases h; exact .inl hl
  | commit q0 =>
    simp only [step] at h
    split at h
    · split at h <;> cases h <;> exact .inl hl
    · cases h
  | evWrite =>
    simp only [step] at h
    split at h
    · cases h
    · rename_i q f hf
      split at h
      · cases h; exact .inl hl
      · rename_i hn; exact .inr ⟨q, f, hf, by omega⟩
  | evCommit e =>
    simp only [step] at h
    split at h
    · split at h <;> cases h <;> exact .inl hl
    · cases h
  | regC q0 =>
    simp only [step] at h
    split at h
    · cases h
    · cases h; exact .inl hl
    · split at h <;> cases h <;> exact .inl hl
  | regE e =>
    simp only [step] at h
    split at h
    · cases h
    · cases h; exact .inl hl
    · split at h <;> cases h <;> exact .inl hl
  | shared e => simp only [step] at h; split at h <;> cases h; exact .inl hl
  | irq e =>
    simp only [step] at h
    split at h
    · split at h <;> cases h; exact .inl hl
    · split at h <;> cases h <;> exact .inl hl
    · cases h; exact .inl hl
  | poll q0 =>
    simp only [step] at h
    cases hp : (s.cq q0).poll P s.up with
    | none => rw [hp] at h; cases h
    | some d => rw [hp] at h; cases h; exact .inl hl
  | arm q0 => simp only [step] at h; split at h <;> cases h; exact .inl hl

theorem no_drop {P : Params} {m : Nat} (hN : m ≤ P.eqSize) : ∀ (as : List Act) {s t : S}, Inv P s → Ord P s → s.lost = [] →
    run P s as = some t → (∀ q, (t.cq q).opn = true → q < m) →
    (∀ bs u q, (bs ++ [.regC q]) <+: as → run P s bs = some u → armOk P u q) → t.lost = []
  | [], s, t, _, _, hl, h, _, _ => by cases h; exact hl
  | a :: as, s, t, hi, ho, hl, h, hm, hb => by
    have hrun := h
    rw [run, Option.bind_eq_some_iff] at h
    obtain ⟨s', h1, h2⟩ := h
    have ho' : Ord P s' := ord_step hi ho a h1 (by
      rintro q rfl
      exact hb [] s q ⟨as, rfl⟩ rfl)
    refine no_drop hN as (inv_step hi a h1) ho' ?_ h2 hm ?_
    · rcases lost_of_step a h1 hl with g | ⟨q, f, hf, g⟩
      · exact g
      · exfalso
        have k1 := ord_room hi ho (m := m) (fun q ho => hm q (opn_run _ hrun ho)) hf
        omega
    · intro bs u q hp hu
      refine hb (a :: bs) u q ?_ ?_
      · obtain ⟨x, hx⟩ := hp; exact ⟨x, by rw [← hx]; rfl⟩
      · rw [run, h1]; exact hu

end Corundum.WakeLinux
