import Verif.Spec.MacCtrlRx
import Verif.Proof.MacCtrlTx
/-!
Lemmas for the reception of control frames.
-/
namespace Corundum.MacCtrl

open Corundum.ArbMux (Skid)

theorem foldl_set (n : Nat) (P : Nat → Bool) (v : Nat → Nat) (h : List Nat) :
    ((List.range n).foldl (fun h o => if P o then h.set o (v o) else h) h).length = h.length ∧
    ∀ o, ((List.range n).foldl (fun h o => if P o then h.set o (v o) else h) h)[o]? = if o < n ∧ P o = true ∧ o < h.length then some (v o) else h[o]? := by
  induction n with
  | zero => simp
  | succ n ih =>
    obtain ⟨i1, i2⟩ := ih
    rw [List.range_succ, List.foldl_append]
    simp only [List.foldl_cons, List.foldl_nil]
    generalize (List.range n).foldl (fun h o => if P o then h.set o (v o) else h) h = g at *
    cases hp : P n with
    | false =>
      simp only [Bool.false_eq_true, if_false]
      refine ⟨i1, fun o => ?_⟩
      rw [i2]
      by_cases e : o = n
      · subst e; simp [hp]
      · have : (o < n + 1) ↔ (o < n) := by omega
        simp only [this]
    | true =>
      simp only [if_true]
      refine ⟨by rw [List.length_set, i1], fun o => ?_⟩
      rw [List.getElem?_set, i2, i1]
      by_cases e : n = o
      · subst e
        by_cases hl : n < h.length
        · simp [hp, hl]
        · simp [hl]
      · have : (o < n + 1) ↔ (o < n) := by omega
        simp only [this, e, if_false]

theorem capture_spec (c : RxCfg) (p : Nat) (b : Beat) (h : List Nat) (hl : h.length = 16 + c.params) :
    (capture c p b h).length = 16 + c.params ∧
    (∀ o, o < 16 + c.params → p = o / c.lanes → (capture c p b h)[o]? = some (b.data.getD (o % c.lanes) 0)) ∧
    (p ≠ 0 → ∀ o, o < 16 + c.params → p ≠ o / c.lanes → (capture c p b h)[o]? = h[o]?) := by
  unfold capture
  dsimp only
  rw [Nat.zero_div]
  have hl' : (if p == 0 then h.take 16 ++ List.replicate c.params 0 else h).length = 16 + c.params := by
    split
    · simp [hl]
    · exact hl
  obtain ⟨f1, f2⟩ := foldl_set (16 + c.params) (fun o => p == o / c.lanes) (fun o => b.data.getD (o % c.lanes) 0) (if p == 0 then h.take 16 ++ List.replicate c.params 0 else h)
  refine ⟨by rw [f1, hl'], ?_, ?_⟩
  · intro o ho e
    rw [f2, hl', if_pos ⟨ho, by simp [e], ho⟩]
  · intro p0 o ho e
    rw [f2, hl', if_neg (by intro h; exact e (by simpa using h.2.1))]
    have : (p == 0) = false := by simp [p0]
    simp only [this, Bool.false_eq_true, if_false]

/-- the byte in a lane of a list of transfers -/
def lane (L : Nat) (f : List Beat) (o : Nat) : Nat := (f.getD (o / L) ⟨[], [], false, 0, 0, 0⟩).data.getD (o % L) 0

/-- the header bytes as they are in the lanes -/
def lanesHdr (L n : Nat) (f : List Beat) : List Nat := (List.range n).map (lane L f)

theorem hdr_eq {h : List Nat} {n L : Nat} {f : List Beat} (hl : h.length = n) (hh : ∀ o, o < n → h[o]? = some (lane L f o)) : h = lanesHdr L n f := by
  apply List.ext_getElem?
  intro o
  by_cases ho : o < n
  · rw [hh o ho]; unfold lanesHdr; rw [List.getElem?_map, List.getElem?_range ho]; rfl
  · rw [List.getElem?_eq_none (by omega), List.getElem?_eq_none (by simp [lanesHdr]; omega)]

/-- the fields compared depend on the first 16 bytes only -/
theorem hit_congr (m : Match) {h h' : List Nat} (e : h.take 16 = h'.take 16) (p p' : Parse) (hp : p.hdr = h) (hp' : p'.hdr = h') : m.hit p.req = m.hit p'.req := by
  have t : ∀ (x : List Nat) (a b : Nat), a + b ≤ 16 → (x.drop a).take b = ((x.take 16).drop a).take b := by
    intro x a b hab
    rw [List.drop_take, List.take_take]
    congr 1; omega
  have t0 : ∀ (x : List Nat), x.take 6 = (x.take 16).take 6 := by
    intro x; rw [List.take_take]; rfl
  unfold Match.hit Parse.req
  rw [hp, hp']
  dsimp only
  rw [t0 h, t0 h', t h 6 6 (by omega), t h' 6 6 (by omega), t h 12 2 (by omega), t h' 12 2 (by omega), t h 14 2 (by omega), t h' 14 2 (by omega), e]

/-- the parser after the first k transfers of f -/
structure PInv (c : RxCfg) (m : Match) (f : List Beat) (k : Nat) (p : Parse) : Prop where
  read : p.read = decide (k ≤ 59 / c.lanes)
  ptr : k ≤ 59 / c.lanes → p.ptr = k
  len : p.hdr.length = 16 + c.params
  hdr : ∀ o, o < 16 + c.params → o / c.lanes < k → p.hdr[o]? = some (lane c.lanes f o)
  frame : p.frame = (decide (15 / c.lanes < k) && (m.hit (Parse.req { hdr := lanesHdr c.lanes (16 + c.params) f }) && m.enable))
  tag : 0 < k → (p.id, p.dest, p.user) = (fun (b : Beat) => (b.id, b.dest, b.user)) (f.getD (min (k - 1) (59 / c.lanes)) ⟨[], [], false, 0, 0, 0⟩)

theorem PInv.init (c : RxCfg) (m : Match) (f : List Beat) (h : List Nat) (hl : h.length = 16 + c.params) (i d u : Nat) :
    PInv c m f 0 { hdr := h, id := i, dest := d, user := u } := by
  constructor
  · simp
  · intro _; rfl
  · exact hl
  · intro o _ h; exact absurd h (Nat.not_lt_zero _)
  · simp
  · intro h; omega

theorem PInv.step {c : RxCfg} (hL : 0 < c.lanes) (hP : c.params ≤ 44) {m : Match} {f : List Beat} {k : Nat} {p : Parse} (I : PInv c m f k p) {b : Beat} (hb : f[k]? = some b)
    (hk : k = 15 / c.lanes → c.lanes = 1 ∨ b.keep.getD (13 % c.lanes) false = true) : PInv c m f (k + 1) (absorb c m p b) := by
  have hcy : (60 + c.lanes - 1) / c.lanes = 59 / c.lanes + 1 := by
    have h1 := cycles_eq (c := ⟨c.lanes, 0⟩) hL
    have h2 := last_beat hL
    have h3 := beats_pos hL
    unfold Cfg.cycles at h1
    dsimp only at h1
    omega
  have hbd : f.getD k ⟨[], [], false, 0, 0, 0⟩ = b := by rw [List.getD_eq_getElem?_getD, hb]; rfl
  unfold absorb
  by_cases hr : k ≤ 59 / c.lanes
  · have hrt : p.read = true := by rw [I.read]; simp [hr]
    have hpt := I.ptr hr
    obtain ⟨c1, c2, c3⟩ := capture_spec c p.ptr b p.hdr I.len
    have hh : ∀ o, o < 16 + c.params → o / c.lanes < k + 1 → (capture c p.ptr b p.hdr)[o]? = some (lane c.lanes f o) := by
      intro o ho h
      by_cases e : k = o / c.lanes
      · rw [c2 o ho (by rw [hpt]; exact e)]
        unfold lane
        rw [← e, hbd]
      · have hlt : o / c.lanes < k := by
          generalize o / c.lanes = q at h e; omega
        rw [c3 (by rw [hpt]; exact Nat.ne_of_gt (Nat.lt_of_le_of_lt (Nat.zero_le _) hlt)) o ho (by rw [hpt]; exact e)]
        exact I.hdr o ho hlt
    simp only [hrt, if_true]
    constructor
    · dsimp only
      rw [hpt]
      by_cases e : k = 59 / c.lanes
      · have : (k == 59 / c.lanes) = true := by simp [e]
        simp only [this, if_true]
        simp; omega
      · have : (k == 59 / c.lanes) = false := by simp [e]
        simp only [this, Bool.false_eq_true, if_false]
        simp; omega
    · intro h
      dsimp only
      rw [hpt, hcy]
      apply Nat.mod_eq_of_lt
      apply Nat.lt_of_lt_of_le _ (StatsCollect.le_clog2 _)
      omega
    · exact c1
    · exact hh
    · dsimp only
      rw [hpt]
      by_cases e : k = 15 / c.lanes
      · have h1 : (k == 15 / c.lanes) = true := by simp [e]
        have h2 : (c.lanes == 1 || b.keep.getD (13 % c.lanes) false) = true := by
          rcases hk e with h | h
          · simp [h]
          · rw [h]; simp
        have h3 : decide (15 / c.lanes < k + 1) = true := by simp; omega
        rw [h1, h2, h3]
        simp only [Bool.and_self, if_true, Bool.true_and]
        congr 1
        apply hit_congr m (h := capture c k b p.hdr) (h' := lanesHdr c.lanes (16 + c.params) f) _ _ _ rfl rfl
        apply List.ext_getElem?
        intro o
        rw [List.getElem?_take, List.getElem?_take]
        split
        · rename_i ho
          have hq := hh o (by omega) (by rw [e]; exact Nat.lt_succ_of_le (Nat.div_le_div_right (by omega)))
          rw [hpt] at hq
          rw [hq]
          unfold lanesHdr
          rw [List.getElem?_map, List.getElem?_range (by omega)]; rfl
        · rfl
      · have h1 : (k == 15 / c.lanes) = false := by simp [e]
        rw [h1]
        simp only [Bool.false_and, Bool.false_eq_true, if_false]
        rw [I.frame]
        have : decide (15 / c.lanes < k + 1) = decide (15 / c.lanes < k) := by
          rw [Bool.eq_iff_iff]; simp; omega
        rw [this]
    · intro _
      dsimp only
      have : min (k + 1 - 1) (59 / c.lanes) = k := by omega
      rw [this, hbd]
  · have hrt : p.read = false := by rw [I.read]; simp; omega
    simp only [hrt, Bool.false_eq_true, if_false]
    have hmono : ∀ o, o < 60 → o / c.lanes ≤ 59 / c.lanes := fun o ho => Nat.div_le_div_right (by omega)
    constructor
    · rw [hrt]; symm; simp; omega
    · intro h; omega
    · exact I.len
    · intro o ho h
      apply I.hdr o ho
      have := hmono o (by omega)
      omega
    · rw [I.frame]
      have h15 := hmono 15 (by omega)
      have e1 : decide (15 / c.lanes < k) = true := by simp; omega
      have e2 : decide (15 / c.lanes < k + 1) = true := by simp; omega
      rw [e1, e2]
    · intro _
      have hr' : 59 / c.lanes < k := Nat.lt_of_not_le hr
      rw [I.tag (Nat.lt_of_le_of_lt (Nat.zero_le _) hr')]
      have : min (k + 1 - 1) (59 / c.lanes) = min (k - 1) (59 / c.lanes) := by
        generalize 59 / c.lanes = q at hr'; omega
      rw [this]

/-! ### the parser over a list of transfers -/

def scan (c : RxCfg) (m : Match) : Parse → List Beat → Parse
  | p, [] => p
  | p, b :: bs => scan c m (settle (absorb c m p b) b) bs

def scanOut (c : RxCfg) (m : Match) : Parse → List Beat → List Beat
  | _, [] => []
  | p, b :: bs => stamp m (absorb c m p b) b :: scanOut c m (settle (absorb c m p b) b) bs

def scanRep (c : RxCfg) (m : Match) : Parse → List Beat → List Req
  | _, [] => []
  | p, b :: bs => (if reports (absorb c m p b) b then [(settle (absorb c m p b) b).req] else []) ++ scanRep c m (settle (absorb c m p b) b) bs

theorem scan_append (c : RxCfg) (m : Match) (p : Parse) (a b : List Beat) : scan c m p (a ++ b) = scan c m (scan c m p a) b := by
  induction a generalizing p with
  | nil => rfl
  | cons x a ih => exact ih _

theorem scanOut_append (c : RxCfg) (m : Match) (p : Parse) (a b : List Beat) : scanOut c m p (a ++ b) = scanOut c m p a ++ scanOut c m (scan c m p a) b := by
  induction a generalizing p with
  | nil => rfl
  | cons x a ih => simp only [List.cons_append, scanOut, scan, ih]

theorem scanRep_append (c : RxCfg) (m : Match) (p : Parse) (a b : List Beat) : scanRep c m p (a ++ b) = scanRep c m p a ++ scanRep c m (scan c m p a) b := by
  induction a generalizing p with
  | nil => rfl
  | cons x a ih => simp only [List.cons_append, scanRep, scan, ih, List.append_assoc]

/-- transfers that do not end a frame go through -/
theorem scan_part (c : RxCfg) (m : Match) (p : Parse) (bs : List Beat) (h : ∀ b ∈ bs, b.last = false) : scanOut c m p bs = bs ∧ scanRep c m p bs = [] := by
  induction bs generalizing p with
  | nil => exact ⟨rfl, rfl⟩
  | cons b bs ih =>
    have hb := h b (by simp)
    obtain ⟨i1, i2⟩ := ih (settle (absorb c m p b) b) (fun x hx => h x (by simp [hx]))
    have hr : reports (absorb c m p b) b = false := by unfold reports; rw [hb]; rfl
    refine ⟨?_, ?_⟩
    · show _ :: _ = _
      rw [i1]
      unfold stamp; rw [hr]; rfl
    · show _ ++ _ = _
      rw [i2, hr]; rfl

theorem scan_inv {c : RxCfg} (hL : 0 < c.lanes) (hP : c.params ≤ 44) {m : Match} (fs gs : List Beat) (hl : ∀ b ∈ fs, b.last = false)
    (hk : ∀ b, (fs ++ gs)[15 / c.lanes]? = some b → c.lanes = 1 ∨ b.keep.getD (13 % c.lanes) false = true)
    (p : Parse) (I : PInv c m (fs ++ gs) 0 p) : PInv c m (fs ++ gs) fs.length (scan c m p fs) := by
  have key : ∀ k, k ≤ fs.length → PInv c m (fs ++ gs) k (scan c m p (fs.take k)) := by
    intro k
    induction k with
    | zero => intro _; exact I
    | succ k ih =>
      intro h
      have hq : fs[k]? = some fs[k] := List.getElem?_eq_getElem (by omega)
      rw [List.take_add_one, scan_append, hq]
      have hb : (fs ++ gs)[k]? = some fs[k] := by rw [List.getElem?_append_left (by omega), hq]
      have := (ih (by omega)).step hL hP hb (fun e => hk _ (e ▸ hb))
      show PInv c m (fs ++ gs) (k + 1) (settle (absorb c m _ fs[k]) fs[k])
      unfold settle
      rw [hl fs[k] (List.getElem_mem _)]
      exact this
  have := key fs.length (Nat.le_refl _)
  rwa [List.take_length] at this

/-! ### frames of at least 60 bytes -/

theorem kept_full {b : Beat} {L : Nat} (h1 : b.data.length = L) (h2 : b.keep = List.replicate L true) : kept b = b.data := by
  unfold kept
  rw [h2, ← h1]
  generalize b.data = d
  induction d with
  | nil => rfl
  | cons x d ih => simp [List.replicate_succ] at ih ⊢; exact ih

theorem kept_part {b : Beat} {L k : Nat} (h1 : b.data.length = L) (hk : k ≤ L) (h2 : b.keep = List.replicate k true ++ List.replicate (L - k) false) : kept b = b.data.take k := by
  unfold kept
  rw [h2, ← h1]
  rw [← h1] at hk
  clear h2
  revert hk
  clear h1
  generalize b.data = d
  induction d generalizing k with
  | nil => intro _; simp
  | cons x d ih =>
    intro hk
    cases k with
    | zero =>
      simp only [List.replicate_zero, List.nil_append, List.take_zero, List.map_eq_nil_iff, List.filter_eq_nil_iff, Nat.sub_zero]
      intro a ha
      obtain ⟨a1, a2⟩ := a
      have := (List.of_mem_zip ha).2
      rw [List.mem_replicate] at this
      simp [this.2]
    | succ k =>
      have := @ih k (by simp at hk; omega)
      simp only [List.length_cons, List.replicate_succ, List.cons_append, List.zip_cons_cons, List.filter_cons, if_true, List.map_cons, List.take_succ_cons]
      have e : d.length + 1 - (k + 1) = d.length - k := by omega
      rw [e, this]

theorem payload_full {fs : List Beat} {L : Nat} (h : ∀ x ∈ fs, x.data.length = L ∧ x.keep = List.replicate L true ∧ x.last = false) : payload fs = fs.flatMap (·.data) ∧ (payload fs).length = L * fs.length := by
  unfold payload
  induction fs with
  | nil => exact ⟨rfl, by simp⟩
  | cons b fs ih =>
    obtain ⟨i1, i2⟩ := ih (fun x hx => h x (by simp [hx]))
    obtain ⟨b1, b2, _⟩ := h b (by simp)
    have e := kept_full b1 b2
    refine ⟨by rw [List.flatMap_cons, List.flatMap_cons, i1, e], ?_⟩
    rw [List.flatMap_cons, List.length_append, i2, e, b1, List.length_cons, Nat.mul_succ]; omega

theorem flat_get {fs : List Beat} {L : Nat} (hL : 0 < L) (h : ∀ x ∈ fs, x.data.length = L) (b : Beat) (rest : List Nat) (hr : rest = b.data.take rest.length) (o : Nat) (ho : o < L * fs.length + rest.length) (hbl : b.data.length = L) :
    (fs.flatMap (·.data) ++ rest).getD o 0 = lane L (fs ++ [b]) o := by
  induction fs generalizing o with
  | nil =>
    simp only [List.length_nil, Nat.mul_zero, Nat.zero_add] at ho
    have hle : rest.length ≤ L := by rw [hr, List.length_take]; omega
    unfold lane
    rw [Nat.div_eq_of_lt (by omega), Nat.mod_eq_of_lt (by omega)]
    simp only [List.flatMap_nil, List.nil_append, List.getD_cons_zero]
    rw [List.getD_eq_getElem?_getD, List.getD_eq_getElem?_getD]
    conv => lhs; rw [hr]
    rw [List.getElem?_take, if_pos ho]
  | cons x fs ih =>
    have hx := h x (by simp)
    rw [List.length_cons, Nat.mul_succ] at ho
    by_cases h1 : o < L
    · unfold lane
      rw [Nat.div_eq_of_lt h1, Nat.mod_eq_of_lt h1]
      rw [List.flatMap_cons, List.append_assoc, List.getD_eq_getElem?_getD, List.getElem?_append_left (by omega)]
      simp
    · have := ih (fun y hy => h y (by simp [hy])) (o - L) (by omega)
      rw [List.flatMap_cons, List.append_assoc, List.getD_eq_getElem?_getD, List.getElem?_append_right (by omega), hx, ← List.getD_eq_getElem?_getD, this]
      unfold lane
      have e1 : o / L = (o - L) / L + 1 := by
        rw [← Nat.add_div_right _ hL]; congr 1; omega
      have e2 : o % L = (o - L) % L := by
        rw [Nat.mod_eq_sub_mod (by omega)]
      rw [e1, e2]
      rfl

theorem frame_facts {L : Nat} (hL : 0 < L) {f : List Beat} (hf : FrameOk L f) :
    ∃ fs b, f = fs ++ [b] ∧ (∀ x ∈ fs, x.last = false) ∧ b.last = true ∧ 59 / L ≤ fs.length ∧
      (∀ o, o < 60 → (payload f)[o]? = some (lane L f o)) ∧
      (∀ x, f[15 / L]? = some x → L = 1 ∨ x.keep.getD (13 % L) false = true) := by
  obtain ⟨fs, b, k, rfl, h1, h2, h3, h4, h5, h6⟩ := hf
  have hp := kept_part h2 h4 h5
  obtain ⟨p1, p2⟩ := payload_full h1
  have hpay : payload (fs ++ [b]) = fs.flatMap (·.data) ++ b.data.take k := by
    show (fs ++ [b]).flatMap kept = _
    rw [List.flatMap_append, ← p1, ← hp]; simp [payload]
  have hlk : (b.data.take k).length = k := by rw [List.length_take]; omega
  have hfl : (fs.flatMap (·.data)).length = L * fs.length := by rw [← p1, p2]
  have hlen : (payload (fs ++ [b])).length = L * fs.length + k := by rw [hpay, List.length_append, hfl, hlk]
  rw [hlen] at h6
  refine ⟨fs, b, rfl, fun x hx => (h1 x hx).2.2, h3, ?_, ?_, ?_⟩
  · rw [Nat.div_le_iff_le_mul_add_pred hL]; omega
  · intro o ho
    have := flat_get hL (fun x hx => (h1 x hx).1) b (b.data.take k) (by rw [hlk]) o (by rw [hlk]; omega) h2
    rw [← this, ← hpay, List.getD_eq_getElem?_getD, List.getElem?_eq_getElem (by rw [hlen]; omega)]; rfl
  · intro x hx
    right
    by_cases hlt : 15 / L < fs.length
    · rw [List.getElem?_append_left hlt] at hx
      have := (h1 x (List.mem_of_getElem? hx)).2.1
      rw [this, List.getD_eq_getElem?_getD, List.getElem?_replicate, if_pos (Nat.mod_lt _ hL)]; rfl
    · have hle : 15 / L < fs.length + 1 := by
        have := List.getElem?_eq_some_iff.1 hx
        obtain ⟨w, _⟩ := this
        simpa using w
      have e : 15 / L = fs.length := by omega
      rw [e, List.getElem?_append_right (Nat.le_refl _)] at hx
      simp at hx
      subst hx
      have hd := Nat.mul_div_le 15 L
      rw [e] at hd
      have h13 : 13 % L ≤ 13 := Nat.mod_le _ _
      rw [h5, List.getD_eq_getElem?_getD, List.getElem?_append_left (by rw [List.length_replicate]; omega), List.getElem?_replicate, if_pos (by omega)]; rfl

theorem wanted_iff (m : Match) (r : Req) (bd : Bool) : Wanted m r bd ↔ (bd = false ∧ (m.hit r && m.enable) = true) := by
  unfold Wanted Match.hit
  cases bd <;> cases m.enable <;> cases m.checkMcast <;> cases m.checkUcast <;> cases m.checkSrc <;> cases m.checkLfc <;> cases m.checkPfc <;> simp <;> constructor <;> (intro h; simp_all)

/-- one frame -/
theorem frame_scan {c : RxCfg} (hL : 0 < c.lanes) (hP : c.params ≤ 44) (m : Match) (f : List Beat) (hf : FrameOk c.lanes f) (h : List Nat) (hl : h.length = 16 + c.params) (i d u : Nat) :
    scanOut c m { hdr := h, id := i, dest := d, user := u } f = passed c.lanes c.params m f ∧
    scanRep c m { hdr := h, id := i, dest := d, user := u } f = (reported c.lanes c.params m f).toList ∧
    ∃ h' i' d' u', h'.length = 16 + c.params ∧ scan c m { hdr := h, id := i, dest := d, user := u } f = { hdr := h', id := i', dest := d', user := u' } := by
  obtain ⟨fs, b, rfl, f1, f2, f3, f4, f5⟩ := frame_facts hL hf
  have I0 := PInv.init c m (fs ++ [b]) h hl i d u
  have I1 := scan_inv hL hP fs [b] f1 f5 _ I0
  have hb : (fs ++ [b])[fs.length]? = some b := by simp
  have I2 := I1.step hL hP hb (fun e => f5 b (by rw [← e]; exact hb))
  obtain ⟨q1, q2⟩ := scan_part c m { hdr := h, id := i, dest := d, user := u } fs f1
  generalize hp : absorb c m (scan c m { hdr := h, id := i, dest := d, user := u } fs) b = p at *
  have hhdr : p.hdr = lanesHdr c.lanes (16 + c.params) (fs ++ [b]) := by
    apply hdr_eq I2.len
    intro o ho
    apply I2.hdr o ho
    have : o / c.lanes ≤ 59 / c.lanes := Nat.div_le_div_right (by omega)
    omega
  have h15 : 15 / c.lanes ≤ 59 / c.lanes := Nat.div_le_div_right (by omega)
  have hfr : p.frame = (m.hit p.req && m.enable) := by
    rw [I2.frame]
    have : decide (15 / c.lanes < fs.length + 1) = true := by simp; omega
    rw [this, Bool.true_and]
    congr 1
    exact hit_congr m rfl _ _ rfl hhdr
  have hpay : (payload (fs ++ [b])).take (16 + c.params) = p.hdr := by
    rw [hhdr]
    apply hdr_eq
    · rw [List.length_take]
      have := f4 59 (by omega)
      obtain ⟨w, _⟩ := List.getElem?_eq_some_iff.1 this
      omega
    · intro o ho
      rw [List.getElem?_take, if_pos ho]
      exact f4 o (by omega)
  have htag : (p.id, p.dest, p.user) = (fun (b : Beat) => (b.id, b.dest, b.user)) (at60 c.lanes (fs ++ [b])) := by
    rw [I2.tag (by omega)]
    have : min (fs.length + 1 - 1) (59 / c.lanes) = 59 / c.lanes := by omega
    rw [this]; rfl
  have hreq : reqOf c.params (payload (fs ++ [b])) (at60 c.lanes (fs ++ [b])) = p.req := by
    simp only [Prod.mk.injEq] at htag
    obtain ⟨t1, t2, t3⟩ := htag
    unfold reqOf Parse.req
    rw [← hpay, t1, t2, t3]
    simp only [List.take_take, List.drop_take, Req.mk.injEq, and_true, true_and]
    have e1 : min 6 (16 + c.params) = 6 := by omega
    have e2 : min 6 (16 + c.params - 6) = 6 := by omega
    have e3 : min 2 (16 + c.params - 12) = 2 := by omega
    have e4 : min 2 (16 + c.params - 14) = 2 := by omega
    have e5 : 16 + c.params - 16 = c.params := by omega
    rw [e1, e2, e3, e4, e5]
    exact ⟨rfl, rfl, rfl, rfl, rfl⟩
  have hset : settle p b = { hdr := p.hdr, id := p.id, dest := p.dest, user := p.user } := by
    unfold settle; rw [f2]; rfl
  have hsreq : (settle p b).req = p.req := by rw [hset]; rfl
  have hbad : bad (fs ++ [b]) = (b.user % 2 == 1) := by unfold bad; simp
  have hrep : reports p b = true ↔ Wanted m p.req (bad (fs ++ [b])) := by
    rw [wanted_iff, hbad]
    unfold reports
    rw [f2, ← hfr]
    rcases Nat.mod_two_eq_zero_or_one b.user with h | h <;> simp [h]
  refine ⟨?_, ?_, p.hdr, p.id, p.dest, p.user, I2.len, ?_⟩
  · rw [scanOut_append, q1]
    show fs ++ [stamp m (absorb c m _ b) b] = _
    rw [hp]
    unfold stamp passed reported
    rw [hreq]
    by_cases hw : reports p b = true
    · rw [if_pos (hrep.1 hw), hw]
      cases m.forward <;> simp
    · rw [if_neg (fun h => hw (hrep.2 h))]
      simp only [Bool.not_eq_true] at hw
      rw [hw]; simp
  · rw [scanRep_append, q2]
    show [] ++ ((if reports (absorb c m _ b) b then [(settle (absorb c m _ b) b).req] else []) ++ []) = _
    rw [hp, hsreq]
    unfold reported
    rw [hreq]
    by_cases hw : reports p b = true
    · rw [if_pos (hrep.1 hw), hw]; rfl
    · rw [if_neg (fun h => hw (hrep.2 h)), if_neg hw]; rfl
  · rw [scan_append]
    show settle (absorb c m _ b) b = _
    rw [hp, hset]

theorem frames_scan {c : RxCfg} (hL : 0 < c.lanes) (hP : c.params ≤ 44) (m : Match) (fs : List (List Beat)) (hf : ∀ f ∈ fs, FrameOk c.lanes f) (h : List Nat) (hl : h.length = 16 + c.params) (i d u : Nat) :
    scanOut c m { hdr := h, id := i, dest := d, user := u } fs.flatten = (fs.map (passed c.lanes c.params m)).flatten ∧
    scanRep c m { hdr := h, id := i, dest := d, user := u } fs.flatten = fs.filterMap (reported c.lanes c.params m) := by
  induction fs generalizing h i d u with
  | nil => exact ⟨rfl, rfl⟩
  | cons f fs ih =>
    obtain ⟨a1, a2, h', i', d', u', hl', a3⟩ := frame_scan hL hP m f (hf f (by simp)) h hl i d u
    obtain ⟨b1, b2⟩ := ih (fun x hx => hf x (by simp [hx])) h' hl' i' d' u'
    refine ⟨?_, ?_⟩
    · rw [List.flatten_cons, scanOut_append, a1, a3, b1]; rfl
    · rw [List.flatten_cons, scanRep_append, a2, a3, b2, List.filterMap_cons]
      cases reported c.lanes c.params m f <;> rfl

/-! ### cycles -/

theorem rx_out (c : RxCfg) (m : Match) (s : Rx) (i : RxIn) : (s.step c m i).out = s.out.step true (s.offer c m i) (i.ready || !c.useReady) := by
  unfold Rx.step
  dsimp only
  split <;> rfl

theorem rx_ready (c : RxCfg) (m : Match) (s : Rx) (i : RxIn) : (s.step c m i).sready = (s.step c m i).out.ready := by
  rw [rx_out]
  unfold Rx.step Skid.step
  dsimp only
  obtain ⟨rd, mm, t⟩ := s.out
  split <;> dsimp only <;> cases s.offer c m i <;> cases rd <;> cases i.ready <;> cases mm <;> cases t <;> cases c.useReady <;> rfl

structure RInv (c : RxCfg) (m : Match) (ins : Nat → RxIn) (n : Nat) : Prop where
  temp : (rx c m ins n).out.ready = true → (rx c m ins n).out.temp = none
  sr : (rx c m ins n).sready = (rx c m ins n).out.ready
  run : c.useReady = false → 0 < n → (rx c m ins n).out.ready = true
  p : (rx c m ins n).p = scan c m { hdr := List.replicate (16 + c.params) 0 } (taken c m ins n)
  out : given c m ins n ++ ((rx c m ins n).out.m.toList ++ (rx c m ins n).out.temp.toList) = scanOut c m { hdr := List.replicate (16 + c.params) 0 } (taken c m ins n)
  rep : told c m ins (n + 1) = scanRep c m { hdr := List.replicate (16 + c.params) 0 } (taken c m ins n)

theorem rx_inv {c : RxCfg} {m : Match} {ins : Nat → RxIn} (h0 : c.useReady = true ∨ (ins 0).s = none) (n : Nat) : RInv c m ins n := by
  induction n with
  | zero =>
    refine ⟨(fun h => by cases h), rfl, (fun _ h => by omega), rfl, rfl, rfl⟩
  | succ n ih =>
    have eS : rx c m ins (n + 1) = (rx c m ins n).step c m (ins n) := rfl
    have eT : taken c m ins (n + 1) = taken c m ins n ++ ((rx c m ins n).take c (ins n)).toList := by
      show _ ++ _ = _
      unfold Rx.take
      dsimp only
      congr 1
      split <;> rfl
    have eG : given c m ins (n + 1) = given c m ins n ++ (if (ins n).ready || !c.useReady then (rx c m ins n).out.m.toList else []) := rfl
    have eR : told c m ins (n + 1 + 1) = told c m ins (n + 1) ++ (if (rx c m ins (n + 1)).valid then [(rx c m ins (n + 1)).p.req] else []) := rfl
    -- the transfer accepted is the one stored
    have hst : (rx c m ins n).out.ready = true → (rx c m ins n).take c (ins n) = (ins n).s := by
      intro h; unfold Rx.take; rw [ih.sr, h]; rfl
    have hns : (rx c m ins n).out.ready = false → (rx c m ins n).take c (ins n) = none := by
      intro h
      unfold Rx.take
      rw [ih.sr, h]
      rcases h0 with h0 | h0
      · rw [h0]; rfl
      · cases hu : c.useReady with
        | true => rfl
        | false =>
          cases n with
          | zero => simp [h0]
          | succ k => rw [ih.run hu (by omega)] at h; cases h
    have flow : given c m ins (n + 1) ++ ((rx c m ins (n + 1)).out.m.toList ++ (rx c m ins (n + 1)).out.temp.toList)
        = given c m ins n ++ ((rx c m ins n).out.m.toList ++ (rx c m ins n).out.temp.toList) ++ (((rx c m ins n).take c (ins n)).map fun b => stamp m (absorb c m (rx c m ins n).p b) b).toList := by
      have key := ArbMux.skid_flow (e := true) (s := (rx c m ins n).out) (o := if (rx c m ins n).out.ready then (rx c m ins n).offer c m (ins n) else none) (r := (ins n).ready || !c.useReady) ih.temp (by intro h; rw [h]; rfl)
      have e1 : ((rx c m ins n).out.step true (if (rx c m ins n).out.ready then (rx c m ins n).offer c m (ins n) else none) ((ins n).ready || !c.useReady)).m = (rx c m ins (n + 1)).out.m ∧
          ((rx c m ins n).out.step true (if (rx c m ins n).out.ready then (rx c m ins n).offer c m (ins n) else none) ((ins n).ready || !c.useReady)).temp = (rx c m ins (n + 1)).out.temp := by
        rw [eS, rx_out]
        cases hr : (rx c m ins n).out.ready with
        | true => exact ⟨rfl, rfl⟩
        | false =>
          unfold Skid.step
          rw [hr]
          simp only [Bool.false_eq_true, if_false]
          split <;> exact ⟨rfl, rfl⟩
      rw [e1.1, e1.2] at key
      rw [eG, List.append_assoc, key]
      have e2 : (if (rx c m ins n).out.ready then (rx c m ins n).offer c m (ins n) else none) = ((rx c m ins n).take c (ins n)).map fun b => stamp m (absorb c m (rx c m ins n).p b) b := by
        cases hr : (rx c m ins n).out.ready with
        | true =>
          simp only [if_true]
          unfold Rx.offer
          have := hst hr
          cases ht : (rx c m ins n).take c (ins n) with
          | some b => rfl
          | none => rw [ht] at this; rw [← this]; rfl
        | false => rw [hns hr]; rfl
      rw [e2]
      simp only [List.append_assoc]
    refine ⟨?_, ?_, ?_, ?_, ?_, ?_⟩
    · rw [eS, rx_out]; exact ArbMux.skid_temp ih.temp
    · rw [eS]; exact rx_ready c m _ _
    · intro hu _
      rw [eS, rx_out]
      unfold Skid.step
      rw [hu]
      obtain ⟨rd, mm, t⟩ := (rx c m ins n).out
      cases rd <;> simp
    · rw [eT, scan_append, ← ih.p, eS]
      unfold Rx.step
      dsimp only
      cases (rx c m ins n).take c (ins n) <;> rfl
    · rw [flow, eT, scanOut_append, ← ih.p, ih.out]
      cases (rx c m ins n).take c (ins n) <;> rfl
    · rw [eR, ih.rep, eT, scanRep_append, ← ih.p, eS]
      unfold Rx.step
      dsimp only
      cases (rx c m ins n).take c (ins n) with
      | none => rfl
      | some b =>
        show _ ++ (if reports _ b then _ else _) = _ ++ ((if reports _ b then _ else _) ++ [])
        rw [List.append_nil]

end Corundum.MacCtrl
