import Verif.Proof.TxCsum

namespace Corundum.TxCsum
open RxCsum (W Rel rel0 relN W_lt accumulate_one)

/-- what the proof keeps track of: items in the tree, all items, checksums computed, frames opened at the output, words of the open frame sent -/
structure H where
  fl : Nat → Option AItem := fun _ => none
  items : List AItem := []
  sums : List Entry := []
  opened : Nat := 0
  pos : Nat := 0

def hnext (P : Params) (s : S) (g : G) (h : H) (i : In) : H where
  fl := fun l => if l = 0 then
      match takeBeat s i with
      | some b => some (itemOf P g.cur g.part.length b)
      | none => if i.cready then none else h.fl 0
    else if i.cready then h.fl (l - 1) else h.fl l
  items := h.items ++ ((takeBeat s i).map (itemOf P g.cur g.part.length)).toList
  sums := h.sums ++ (finish P s i).toList
  opened := h.opened + (popC s i).isSome.toNat
  pos := if s.frame then (match popD s i with | some _ => h.pos + 1 | none => h.pos) else 0

/-- the items in stages `0 .. n - 1`, oldest first -/
def flight : Nat → (Nat → Option AItem) → List AItem
  | 0, _ => []
  | n + 1, f => (f n).toList ++ flight n f

theorem flight_shift (f f' : Nat → Option AItem) (h : ∀ l, f' (l + 1) = f l) (n : Nat) : flight (n + 1) f' = flight n f ++ (f' 0).toList := by
  induction n with
  | zero => simp [flight]
  | succ n ih =>
    rw [flight, ih, h, flight, List.append_assoc]

theorem flight_congr (f f' : Nat → Option AItem) (h : ∀ l, f' l = f l) (n : Nat) : flight n f' = flight n f := by
  induction n with
  | zero => rfl
  | succ n ih => rw [flight, ih, h, flight]

/-- a stage and its item -/
def Fits (P : Params) (s : S) (h : H) (l : Nat) : Prop :=
  match s.pipe l, h.fl l with
  | none, none => True
  | some it, some a => Rel P.cfg l (it.xs, it.last) (a.v, a.last) ∧ it.first = a.first ∧ s.ctl l = a.ctl
  | _, _ => False

def ends (s : S) (l : Nat) : Bool := (s.pipe l).any (·.last)

/-- the input side -/
structure InvI (P : Params) (s : S) (g : G) (h : H) : Prop where
  idle : s.transfer = false → g.part = []
  cinit : s.transfer = true → g.cur.init < 65536
  mask : s.transfer = true → ∀ j, j < P.K → s.mask j = decide (g.cur.start ≤ g.part.length * P.K + j)
  off : s.transfer = true → s.inOff = g.cur.start - (g.part.length + 1) * P.K
  first : s.transfer = true → s.first = (g.part.length == 0)
  ctl : s.transfer = true → s.ctl 0 = ctlOf g.cur
  plast : ∀ b ∈ g.part, b.last = false
  pbyte : ∀ b ∈ g.part, ∀ j, b.lane j < 256
  whole : ∀ x ∈ g.done, Whole x
  fits : ∀ l, l ≤ P.d → Fits P s h l
  items : h.items = (g.done.flatMap fun x => itemsOf P x.1 x.2) ++ itemsOf P g.cur g.part
  acc : ∃ con, h.items = con ++ flight (P.d + 1) h.fl ∧ accRun P ([], 0) con = (h.sums, s.acc)
  gap0 : ends s 0 = true → s.transfer = false
  gap : ∀ l, l < P.d → ends s l = true → ends s (l + 1) = false
  gapc : s.cin.isSome = true → ends s P.d = false
  held : s.cin.isSome = true → g.held = true

theorem takeCmd_some {s : S} {i : In} {c : Cmd} (h : takeCmd s i = some c) : i.cready = true ∧ s.transfer = false ∧ i.cmd = some c := by
  unfold takeCmd at h
  split at h
  · rename_i hc; simp only [Bool.and_eq_true, Bool.not_eq_true'] at hc; exact ⟨hc.1, hc.2, h⟩
  · cases h

theorem takeBeat_some {s : S} {i : In} {b : Beat} (h : takeBeat s i = some b) : i.cready = true ∧ s.transfer = true ∧ i.beat = some b := by
  unfold takeBeat at h
  split at h
  · rename_i hc; simp only [Bool.and_eq_true] at hc; exact ⟨hc.1.2, hc.2, h⟩
  · cases h

theorem take_cases (s : S) (i : In) : (∃ c, takeCmd s i = some c ∧ takeBeat s i = none ∧ s.transfer = false ∧ i.cready = true ∧ i.cmd = some c) ∨
    (∃ b, takeCmd s i = none ∧ takeBeat s i = some b ∧ s.transfer = true ∧ i.cready = true ∧ i.beat = some b) ∨ (takeCmd s i = none ∧ takeBeat s i = none) := by
  cases hc : takeCmd s i with
  | some c =>
    obtain ⟨h1, h2, h3⟩ := takeCmd_some hc
    refine Or.inl ⟨c, rfl, ?_, h2, h1, h3⟩
    unfold takeBeat; rw [h2]; simp
  | none =>
    cases hb : takeBeat s i with
    | none => exact Or.inr (Or.inr ⟨rfl, rfl⟩)
    | some b =>
      obtain ⟨h1, h2, h3⟩ := takeBeat_some hb
      exact Or.inr (Or.inl ⟨b, rfl, rfl, h2, h1, h3⟩)

theorem skip_mask (P : Params) (o j : Nat) (hj : j < P.K) : (skip P o).1 j = decide (o ≤ j) := by
  unfold skip
  split
  · symm; exact decide_eq_false (by omega)
  · rfl

theorem skip_off (P : Params) (o : Nat) : (skip P o).2 = o - P.K := by
  unfold skip
  split
  · rfl
  · show 0 = _; omega

theorem fits_none {P : Params} {s : S} {h : H} {l : Nat} (hf : Fits P s h l) : s.pipe l = none ↔ h.fl l = none := by
  unfold Fits at hf
  cases h1 : s.pipe l <;> cases h2 : h.fl l <;> rw [h1, h2] at hf <;> simp at hf ⊢

theorem inv_in {P : Params} (hd : P.d ≤ 14) {s : S} {g : G} {h : H} {i : In} (hv : InvI P s g h) (hl : Legal g i) :
    InvI P (next P s i) (watch P s g i) (hnext P s g h i) := by
  have hK := K_ge P
  have hpipe0 : (next P s i).pipe 0 = match takeBeat s i with
    | some b => some ⟨RxCsum.level0 P.cfg (masked s b), b.last, s.first⟩
    | none => if i.cready then none else s.pipe 0 := rfl
  have hpipeS : ∀ l, (next P s i).pipe (l + 1) = if i.cready then (s.pipe l).map fun x => { x with xs := RxCsum.levelN P.cfg (l + 1) x.xs } else s.pipe (l + 1) := fun l => rfl
  have hfl0 : (hnext P s g h i).fl 0 = match takeBeat s i with
    | some b => some (itemOf P g.cur g.part.length b)
    | none => if i.cready then none else h.fl 0 := rfl
  have hflS : ∀ l, (hnext P s g h i).fl (l + 1) = if i.cready then h.fl l else h.fl (l + 1) := fun l => rfl
  have hctl0 : (next P s i).ctl 0 = match takeCmd s i with
    | some c => ctlOf c
    | none => s.ctl 0 := rfl
  have hctlS : ∀ l, (next P s i).ctl (l + 1) = if i.cready && (s.pipe l).isSome then s.ctl l else s.ctl (l + 1) := fun l => rfl
  have hendsS : ∀ l, ends (next P s i) (l + 1) = if i.cready then ends s l else ends s (l + 1) := by
    intro l
    unfold ends
    rw [hpipeS]
    cases i.cready with
    | false => rfl
    | true => rw [if_pos rfl, if_pos rfl]; cases s.pipe l <;> rfl
  have hmasked : ∀ b, takeBeat s i = some b → ∀ j, j < P.K → masked s b j = part P g.cur g.part.length b j := by
    intro b hb j hj
    unfold masked part
    rw [hv.mask (takeBeat_some hb).2.1 j hj]
  have hends0 : ends (next P s i) 0 = true → (∃ b, takeBeat s i = some b ∧ b.last = true) ∨ (takeBeat s i = none ∧ i.cready = false ∧ ends s 0 = true) := by
    intro he
    unfold ends at he
    rw [hpipe0] at he
    cases hb : takeBeat s i with
    | some b => rw [hb] at he; exact Or.inl ⟨b, rfl, he⟩
    | none =>
      rw [hb] at he
      cases hc : i.cready with
      | true => rw [hc] at he; cases he
      | false => rw [hc] at he; exact Or.inr ⟨rfl, rfl, he⟩
  constructor
  case idle =>
    intro ht
    rcases take_cases s i with ⟨c, h1, h2, h3, h4, h5⟩ | ⟨b, h1, h2, h3, h4, h5⟩ | ⟨h1, h2⟩
    · simp [next, h1] at ht
    · simp only [next, h1, h2] at ht
      show (match takeBeat s i with | some b => if b.last then [] else g.part ++ [b] | none => g.part) = []
      rw [h2]
      have : b.last = true := by simpa using ht
      simp [this]
    · simp only [next, h1, h2] at ht
      show (match takeBeat s i with | some b => if b.last then [] else g.part ++ [b] | none => g.part) = []
      rw [h2]; exact hv.idle ht
  case cinit =>
    intro ht
    show ((takeCmd s i).getD g.cur).init < 65536
    rcases take_cases s i with ⟨c, h1, h2, h3, h4, h5⟩ | ⟨b, h1, h2, h3, h4, h5⟩ | ⟨h1, h2⟩
    · rw [h1]; exact hl.init c h5
    · rw [h1]; exact hv.cinit h3
    · simp only [next, h1, h2] at ht
      rw [h1]; exact hv.cinit ht
  case mask =>
    intro ht j hj
    show (maskNext P s i).1 j = decide (((takeCmd s i).getD g.cur).start ≤ _)
    unfold maskNext
    rcases take_cases s i with ⟨c, h1, h2, h3, h4, h5⟩ | ⟨b, h1, h2, h3, h4, h5⟩ | ⟨h1, h2⟩
    · have hp : (watch P s g i).part = [] := by
        show (match takeBeat s i with | some b => if b.last then [] else g.part ++ [b] | none => g.part) = []
        rw [h2]; exact hv.idle h3
      rw [h1, hp]
      show (skip P c.start).1 j = _
      rw [skip_mask P _ j hj]; simp
    · have hnl : b.last = false := by simpa [next, h1, h2] using ht
      have hp : (watch P s g i).part = g.part ++ [b] := by
        show (match takeBeat s i with | some b => if b.last then [] else g.part ++ [b] | none => g.part) = _
        rw [h2]; simp [hnl]
      rw [h1, h2, hp]
      show (if s.inOff > 0 then skip P s.inOff else (fun _ => true, s.inOff)).1 j = decide (g.cur.start ≤ _)
      have ho := hv.off h3
      have e : (g.part ++ [b]).length * P.K = (g.part.length + 1) * P.K := by simp
      rw [e]
      split
      · rw [skip_mask P _ j hj, ho]
        congr 1; apply propext; omega
      · symm; exact decide_eq_true (by omega)
    · rw [h1, h2]
      have hp : (watch P s g i).part = g.part := by
        show (match takeBeat s i with | some b => if b.last then [] else g.part ++ [b] | none => g.part) = _
        rw [h2]
      simp only [next, h1, h2] at ht
      rw [hp]
      exact hv.mask ht j hj
  case off =>
    intro ht
    show (maskNext P s i).2 = ((takeCmd s i).getD g.cur).start - _
    unfold maskNext
    rcases take_cases s i with ⟨c, h1, h2, h3, h4, h5⟩ | ⟨b, h1, h2, h3, h4, h5⟩ | ⟨h1, h2⟩
    · have hp : (watch P s g i).part = [] := by
        show (match takeBeat s i with | some b => if b.last then [] else g.part ++ [b] | none => g.part) = []
        rw [h2]; exact hv.idle h3
      rw [h1, hp]
      show (skip P c.start).2 = _
      rw [skip_off]; simp
    · have hnl : b.last = false := by simpa [next, h1, h2] using ht
      have hp : (watch P s g i).part = g.part ++ [b] := by
        show (match takeBeat s i with | some b => if b.last then [] else g.part ++ [b] | none => g.part) = _
        rw [h2]; simp [hnl]
      rw [h1, h2, hp]
      show (if s.inOff > 0 then skip P s.inOff else (fun _ => true, s.inOff)).2 = g.cur.start - _
      have ho := hv.off h3
      have e : ((g.part ++ [b]).length + 1) * P.K = (g.part.length + 1) * P.K + P.K := by simp [Nat.add_mul]
      rw [e]
      split
      · rw [skip_off, ho]; omega
      · show s.inOff = _; omega
    · rw [h1, h2]
      have hp : (watch P s g i).part = g.part := by
        show (match takeBeat s i with | some b => if b.last then [] else g.part ++ [b] | none => g.part) = _
        rw [h2]
      simp only [next, h1, h2] at ht
      rw [hp]
      exact hv.off ht
  case first =>
    intro ht
    show (match takeCmd s i with | some _ => true | none => match takeBeat s i with | some _ => false | none => s.first) = _
    rcases take_cases s i with ⟨c, h1, h2, h3, h4, h5⟩ | ⟨b, h1, h2, h3, h4, h5⟩ | ⟨h1, h2⟩
    · have hp : (watch P s g i).part = [] := by
        show (match takeBeat s i with | some b => if b.last then [] else g.part ++ [b] | none => g.part) = []
        rw [h2]; exact hv.idle h3
      rw [h1, hp]; rfl
    · have hnl : b.last = false := by simpa [next, h1, h2] using ht
      have hp : (watch P s g i).part = g.part ++ [b] := by
        show (match takeBeat s i with | some b => if b.last then [] else g.part ++ [b] | none => g.part) = _
        rw [h2]; simp [hnl]
      rw [h1, h2, hp]; simp
    · rw [h1, h2]
      have hp : (watch P s g i).part = g.part := by
        show (match takeBeat s i with | some b => if b.last then [] else g.part ++ [b] | none => g.part) = _
        rw [h2]
      simp only [next, h1, h2] at ht
      rw [hp]
      exact hv.first ht
  case ctl =>
    intro ht
    rw [hctl0]
    show _ = ctlOf ((takeCmd s i).getD g.cur)
    rcases take_cases s i with ⟨c, h1, h2, h3, h4, h5⟩ | ⟨b, h1, h2, h3, h4, h5⟩ | ⟨h1, h2⟩
    · rw [h1]; rfl
    · rw [h1]; exact hv.ctl h3
    · simp only [next, h1, h2] at ht
      rw [h1]; exact hv.ctl ht
  case plast =>
    intro b hb
    have hb : b ∈ (match takeBeat s i with | some b => if b.last then [] else g.part ++ [b] | none => g.part) := hb
    cases h2 : takeBeat s i with
    | none => rw [h2] at hb; exact hv.plast b hb
    | some b' =>
      rw [h2] at hb
      cases hl' : b'.last with
      | true => simp [hl'] at hb
      | false =>
        simp only [hl', Bool.false_eq_true, if_false, List.mem_append, List.mem_singleton] at hb
        rcases hb with hb | rfl
        · exact hv.plast b hb
        · exact hl'
  case pbyte =>
    intro b hb
    have hb : b ∈ (match takeBeat s i with | some b => if b.last then [] else g.part ++ [b] | none => g.part) := hb
    cases h2 : takeBeat s i with
    | none => rw [h2] at hb; exact hv.pbyte b hb
    | some b' =>
      rw [h2] at hb
      cases hl' : b'.last with
      | true => simp [hl'] at hb
      | false =>
        simp only [hl', Bool.false_eq_true, if_false, List.mem_append, List.mem_singleton] at hb
        rcases hb with hb | rfl
        · exact hv.pbyte b hb
        · exact hl.byte b (takeBeat_some h2).2.2
  case whole =>
    intro x hx
    have hx : x ∈ (match takeBeat s i with | some b => if b.last then g.done ++ [(g.cur, g.part ++ [b])] else g.done | none => g.done) := hx
    cases h2 : takeBeat s i with
    | none => rw [h2] at hx; exact hv.whole x hx
    | some b =>
      rw [h2] at hx
      cases hl' : b.last with
      | false =>
        simp only [hl', Bool.false_eq_true, if_false] at hx
        exact hv.whole x hx
      | true =>
        simp only [hl', if_true, List.mem_append, List.mem_singleton] at hx
        rcases hx with hx | rfl
        · exact hv.whole x hx
        · refine ⟨hv.cinit (takeBeat_some h2).2.1, ?_, g.part, b, rfl, hl', hv.plast⟩
          intro y hy
          rcases List.mem_append.mp hy with hy | hy
          · exact hv.pbyte y hy
          · rw [List.mem_singleton.mp hy]
            exact hl.byte b (takeBeat_some h2).2.2
  case fits =>
    intro l hll
    cases l with
    | zero =>
      have h0 := hv.fits 0 (by omega)
      unfold Fits
      rw [hpipe0, hfl0, hctl0]
      cases h2 : takeBeat s i with
      | some b =>
        have hn : takeCmd s i = none := by
          unfold takeCmd; rw [(takeBeat_some h2).2.1]; simp
        rw [hn]
        refine ⟨?_, hv.first (takeBeat_some h2).2.1, hv.ctl (takeBeat_some h2).2.1⟩
        have hr := rel0 P.cfg (part P g.cur g.part.length b) (part_lt (hl.byte b (takeBeat_some h2).2.2)) b.last
        have he : RxCsum.level0 P.cfg (masked s b) = RxCsum.level0 P.cfg (part P g.cur g.part.length b) := by
          unfold RxCsum.level0
          apply List.map_congr_left
          intro k hk
          have hk := List.mem_range.mp hk
          have hk : k < P.K / 4 := hk
          have := hmasked b h2
          rw [this _ (by omega), this _ (by omega), this _ (by omega), this _ (by omega)]
        show Rel P.cfg 0 (RxCsum.level0 P.cfg (masked s b), b.last) _
        rw [he]
        exact hr
      | none =>
        dsimp only
        cases hc : i.cready with
        | true => simp
        | false =>
          have hn : takeCmd s i = none := by unfold takeCmd; rw [hc]; rfl
          rw [hn]
          unfold Fits at h0
          simpa using h0
    | succ l =>
      have h0 := hv.fits l (by omega)
      have h1 := hv.fits (l + 1) hll
      unfold Fits at h0 h1 ⊢
      rw [hpipeS, hflS, hctlS]
      cases hc : i.cready with
      | false => simpa using h1
      | true =>
        simp only [if_true, Bool.true_and]
        cases hp : s.pipe l with
        | none =>
          rw [hp] at h0
          cases hf : h.fl l with
          | none => trivial
          | some a => rw [hf] at h0; exact h0.elim
        | some it =>
          rw [hp] at h0
          cases hf : h.fl l with
          | none => rw [hf] at h0; exact h0.elim
          | some a =>
            rw [hf] at h0
            obtain ⟨r1, r2, r3⟩ := h0
            exact ⟨relN P.cfg l hll (it.xs, it.last) _ r1, r2, r3⟩
  case items =>
    show h.items ++ ((takeBeat s i).map (itemOf P g.cur g.part.length)).toList = ((match takeBeat s i with | some b => if b.last then g.done ++ [(g.cur, g.part ++ [b])] else g.done | none => g.done).flatMap _) ++
      itemsOf P ((takeCmd s i).getD g.cur) (match takeBeat s i with | some b => if b.last then [] else g.part ++ [b] | none => g.part)
    rw [hv.items]
    rcases take_cases s i with ⟨c, h1, h2, h3, h4, h5⟩ | ⟨b, h1, h2, h3, h4, h5⟩ | ⟨h1, h2⟩
    · rw [h1, h2, hv.idle h3]; simp [itemsOf]
    · rw [h1, h2]
      dsimp only
      cases b.last with
      | true => simp [itemsOf, List.mapIdx_append]
      | false => simp [itemsOf, List.mapIdx_append]
    · rw [h1, h2]; simp
  case acc =>
    obtain ⟨con, c1, c2⟩ := hv.acc
    have hfd := hv.fits P.d (Nat.le_refl _)
    cases hc : i.cready with
    | false =>
      have hb : takeBeat s i = none := by unfold takeBeat; rw [hc]; simp
      refine ⟨con, ?_, ?_⟩
      · show h.items ++ ((takeBeat s i).map _).toList = _
        rw [hb, flight_congr h.fl (hnext P s g h i).fl (fun l => ?_)]
        · simpa using c1
        · cases l with
          | zero => rw [hfl0, hb, hc]; rfl
          | succ l => rw [hflS, hc]; rfl
      · have hlv : leave P s i = none := by unfold leave; rw [hc]; rfl
        show accRun P ([], 0) con = (h.sums ++ (finish P s i).toList, accNext P s i)
        unfold finish accNext
        rw [hlv, c2]; simp
    | true =>
      have hlv : leave P s i = s.pipe P.d := by unfold leave; rw [hc]; rfl
      refine ⟨con ++ (h.fl P.d).toList, ?_, ?_⟩
      · show h.items ++ ((takeBeat s i).map _).toList = _
        rw [c1, flight_shift h.fl (hnext P s g h i).fl (fun l => by rw [hflS, hc]; rfl), flight, hfl0]
        have : ((match takeBeat s i with | some b => some (itemOf P g.cur g.part.length b) | none => if i.cready then none else h.fl 0)).toList = ((takeBeat s i).map (itemOf P g.cur g.part.length)).toList := by
          cases takeBeat s i with
          | some b => rfl
          | none => rw [hc]; rfl
        rw [this]; simp only [List.append_assoc]
      · rw [accRun_append, c2]
        show _ = (h.sums ++ (finish P s i).toList, accNext P s i)
        unfold finish accNext
        rw [hlv]
        unfold Fits at hfd
        cases hp : s.pipe P.d with
        | none =>
          rw [hp] at hfd
          cases hf : h.fl P.d with
          | none => simp [accRun]
          | some a => rw [hf] at hfd; exact hfd.elim
        | some it =>
          rw [hp] at hfd
          cases hf : h.fl P.d with
          | none => rw [hf] at hfd; exact hfd.elim
          | some a =>
            rw [hf] at hfd
            obtain ⟨r1, r2, r3⟩ := hfd
            have hr4 : it.last = a.last := r1.2.2.2
            have hw := (W_lt r1).1
            have hw : it.xs.getD 0 0 = a.v := hw
            show accStep P (h.sums, s.acc) a = _
            unfold accStep
            have ht : accTemp P s it = RxCsum.accumulate P.cfg (if a.first && P.useInit then a.ctl.init else s.acc) [a.v] := by
              unfold accTemp
              rw [accumulate_one P.cfg _ it.xs a.v hw, r2, r3]
            dsimp only [Option.bind_some]
            rw [← ht, hr4, r3]
            cases a.last <;> simp
  case gap0 =>
    intro he
    rcases hends0 he with ⟨b, h2, h3⟩ | ⟨h2, h3, h4⟩
    · have hn : takeCmd s i = none := by
        unfold takeCmd; rw [(takeBeat_some h2).2.1]; simp
      simp [next, hn, h2, h3]
    · have hn : takeCmd s i = none := by unfold takeCmd; rw [h3]; rfl
      simp only [next, hn, h2]
      exact hv.gap0 h4
  case gap =>
    intro l hll he
    rw [hendsS]
    cases l with
    | zero =>
      rcases hends0 he with ⟨b, h2, h3⟩ | ⟨h2, h3, h4⟩
      · obtain ⟨q1, q2, q3⟩ := takeBeat_some h2
        rw [q1, if_pos rfl]
        cases hz : ends s 0 with
        | false => rfl
        | true => have := hv.gap0 hz; rw [q2] at this; cases this
      · rw [h3]; exact hv.gap 0 hll h4
    | succ l =>
      rw [hendsS] at he
      cases hc : i.cready with
      | true =>
        rw [hc, if_pos rfl] at he
        rw [if_pos rfl]
        exact hv.gap l (by omega) he
      | false =>
        rw [hc] at he
        exact hv.gap (l + 1) hll he
  case gapc =>
    intro hs
    have hs : (finish P s i).isSome = true := hs
    have hce : i.cready = true ∧ ends s P.d = true := by
      unfold finish leave at hs
      cases hc : i.cready with
      | false => rw [hc] at hs; simp at hs
      | true =>
        rw [hc, if_pos rfl] at hs
        refine ⟨rfl, ?_⟩
        unfold ends
        cases hp : s.pipe P.d with
        | none => rw [hp] at hs; simp at hs
        | some it =>
          rw [hp] at hs
          show it.last = true
          cases hla : it.last with
          | true => rfl
          | false => rw [Option.bind_some, hla] at hs; simp at hs
    cases hp : P.d with
    | zero =>
      rw [hp] at hce
      cases hz : ends (next P s i) 0 with
      | false => rfl
      | true =>
        rcases hends0 hz with ⟨b, h2, h3⟩ | ⟨h2, h3, h4⟩
        · have := hv.gap0 hce.2
          rw [(takeBeat_some h2).2.1] at this; cases this
        · rw [hce.1] at h3; cases h3
    | succ m =>
      rw [hendsS, hce.1, if_pos rfl]
      cases hz : ends s m with
      | false => rfl
      | true =>
        have := hv.gap m (by omega) hz
        rw [← hp, hce.2] at this; cases this
  case held =>
    intro hs
    have hs : (finish P s i).isSome = true := hs
    show (i.cready && s.cin.isNone) = true
    have hce : i.cready = true ∧ ends s P.d = true := by
      unfold finish leave at hs
      cases hc : i.cready with
      | false => rw [hc] at hs; simp at hs
      | true =>
        rw [hc, if_pos rfl] at hs
        refine ⟨rfl, ?_⟩
        unfold ends
        cases hp : s.pipe P.d with
        | none => rw [hp] at hs; simp at hs
        | some it =>
          rw [hp] at hs
          show it.last = true
          cases hla : it.last with
          | true => rfl
          | false => rw [Option.bind_some, hla] at hs; simp at hs
    rw [hce.1, Bool.true_and]
    cases hz : s.cin with
    | none => rfl
    | some e =>
      have := hv.gapc (by rw [hz]; rfl)
      rw [hce.2] at this; cases this

/-- the checksums computed are those of the first complete frames -/
theorem sums_prefix {P : Params} (hd : P.d ≤ 14) {s : S} {g : G} {h : H} (hv : InvI P s g h) : h.sums <+: g.done.map (entryOf P) := by
  obtain ⟨con, c1, c2⟩ := hv.acc
  have hall : accRun P ([], 0) h.items = (g.done.map (entryOf P), (accRun P ([], 0) h.items).2) := by
    rw [hv.items, accRun_append, acc_all P hd g.done hv.whole, List.nil_append]
    cases ht : s.transfer with
    | false => rw [hv.idle ht]; rfl
    | true =>
      obtain ⟨a, h1, _⟩ := acc_open P hd g.cur (hv.cinit ht) (g.done.map (entryOf P)) g.part hv.pbyte hv.plast
      rw [h1]
  have h2 : (accRun P ([], 0) con).1 <+: (accRun P ([], 0) h.items).1 := by
    rw [c1, accRun_append]; exact accRun_prefix P _ _
  rw [c2, hall] at h2
  exact h2

end Corundum.TxCsum
